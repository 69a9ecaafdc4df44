import Verif.Spec.FloatCERLP
import Verif.Model.FloatMLP

/-! # What is said about MLPBoost in `f64` (C130) -/

namespace Miniboosts

namespace MLPBoostF

/-- Parameters of MLPBoost: half of the tolerance is a number `h` in `[0.002, 0.5]` (by default `0.005`), and `ν` is between one (the default) and `0.99` times the number of
examples. -/
structure GoodParams {H X : Type*} (S : Examples X ℝ) (s : MLPBoostF H) (h ν : ℝ) : Prop where
  tol : s.halfTolerance = F64.fin h
  lo : 2 / 1000 ≤ h
  hi : h ≤ 1 / 2
  nu : s.nu = F64.fin ν
  one_le : 1 ≤ ν
  le : ν ≤ 99 / 100 * S.length

/-- The LP solver answers with one number (a NaN, an infinity or any other number) for each hypothesis; nothing else is asked of it. -/
def Sized {H : Type*} (lp : Lp H) : Prop := ∀ eta ub hs r, lp eta ub hs = .ok r → r.length = hs.length

/-- The line searches return as many weights as they are given; nothing else is asked of them. -/
def KeepsLength {H : Type*} (other : FWType → Nat → List F64 → List H → Nat → List F64 → Except Panic (List F64)) : Prop :=
  ∀ t n d hs pos ws r, other t n d hs pos ws = .ok r → r.length = ws.length

end MLPBoostF

end Miniboosts
