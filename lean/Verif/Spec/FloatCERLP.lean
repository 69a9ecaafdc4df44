import Verif.Spec.Float
import Verif.Model.FloatCERLP

/-! # What is said about CERLPBoost in `f64` (C125, C126) -/

namespace Miniboosts

open F64

/-- Almost a probability distribution over `n` examples: `n` `f64` numbers (no NaN, no infinity) in `[0, 1]` whose sum is one up to `4e-6`. -/
def NearDistribution (n : Nat) (d : List F64) : Prop :=
  ∃ xs : List ℝ, d = xs.map fin ∧ xs.length = n ∧ (∀ x ∈ xs, 0 ≤ x ∧ x ≤ 1) ∧ |xs.sum - 1| ≤ 4 / 10 ^ 6 ∧ ∀ x ∈ xs, Double x

namespace CERLPBoostF

/-- Two to `10⁵` examples with labels `1` and `-1`. -/
structure GoodSample {X : Type*} (S : Examples X ℝ) : Prop where
  two : 2 ≤ S.length
  few : S.length ≤ 10 ^ 5
  valid : checkBinary S = .ok ()
  labels : ∀ e ∈ S, e.2 = 1 ∨ e.2 = -1

/-- Half of the tolerance is a number `h` in `[0.002, 0.5]` (by default `0.005`), `ν` is one (as by default), and the step sizes are the classic ones or those of the
default, the short steps. -/
structure GoodParams {H : Type*} (s : CERLPBoostF H) (h : ℝ) : Prop where
  tol : s.halfTolerance = fin h
  lo : 2 / 1000 ≤ h
  hi : h ≤ 1 / 2
  nu : s.nu = fin 1
  steps : s.fwType = .classic ∨ s.fwType = .shortStep

/-- Hypotheses that answer with confidences in `[-1, 1]`; equal hypotheses answer alike. -/
structure GoodLearner {H X : Type*} [Classifier H X F64] [BEq H] (S : Examples X ℝ) (wl : WeakLearner F64 H) : Prop where
  conf : ∀ it d, NearDistribution S.length d → ∀ e ∈ S, ∃ c : ℝ, conf (wl it d) e.1 = fin c ∧ |c| ≤ 1
  same : ∀ f g : H, (f == g) = true → ∀ e ∈ S, Miniboosts.conf f e.1 = (Miniboosts.conf g e.1 : F64)

/-- Almost a distribution that is capped at `1/ν`: `n` `f64` numbers between `0` and `1/ν` (up to a relative `1e-15`) whose sum is one up to `1.1e-5`. -/
def NearCapped (nu : ℝ) (n : Nat) (d : List F64) : Prop :=
  ∃ xs : List ℝ, d = xs.map fin ∧ xs.length = n ∧ (∀ x ∈ xs, 0 ≤ x ∧ x ≤ (1 + 1 / 10 ^ 15) / nu) ∧ |xs.sum - 1| ≤ 11 / 10 ^ 6 ∧ ∀ x ∈ xs, Double x

/-- The parameters for a capped run: half of the tolerance is a number `h` in `[0.002, 0.5]`, `ν` is between one and `0.99` times the number of examples, and the step sizes are
the classic ones or those of the default, the short steps. -/
structure CappedParams {H X : Type*} (S : Examples X ℝ) (s : CERLPBoostF H) (h ν : ℝ) : Prop where
  tol : s.halfTolerance = fin h
  lo : 2 / 1000 ≤ h
  hi : h ≤ 1 / 2
  nu : s.nu = fin ν
  one_le : 1 ≤ ν
  le : ν ≤ 99 / 100 * S.length
  steps : s.fwType = .classic ∨ s.fwType = .shortStep

/-- A call of one of the methods that configure the booster: `nu`, `tolerance`, and `fw_type` or `variant`. -/
inductive Setting where
  | nu (ν : ℝ)
  | tolerance (t : ℝ)
  | steps (t : FWType)

/-- Calls with arguments from the range of the statements: `ν` in `[1, 0.99 n]`, a tolerance in `[0.005, 0.99]`, the classic steps or the short steps. -/
def Setting.Good (n : ℕ) : Setting → Prop
  | .nu ν => 1 ≤ ν ∧ ν ≤ 99 / 100 * n
  | .tolerance t => 5 / 1000 ≤ t ∧ t ≤ 99 / 100
  | .steps t => t = .classic ∨ t = .shortStep

/-- One call. -/
noncomputable def Setting.apply {H X : Type*} (L : Libm) (S : Examples X ℝ) (s : CERLPBoostF H) : Setting → Except Panic (CERLPBoostF H)
  | .nu ν => setNu L S s (fin ν)
  | .tolerance t => .ok (setTolerance s (fin t))
  | .steps t => .ok (setFwType s t)

/-- `CERLPBoost::init(&sample)` followed by calls of the methods that configure the booster. -/
noncomputable def configure {H X : Type*} (L : Libm) (S : Examples X ℝ) (calls : List Setting) : Except Panic (CERLPBoostF H) :=
  calls.foldlM (Setting.apply L S) (init L S)

/-- The argument of the last call of `nu`, by default `1`. -/
noncomputable def lastNu (calls : List Setting) : ℝ :=
  calls.foldl (fun ν c => match c with | .nu ν' => ν' | _ => ν) 1

/-- The argument of the last call of `tolerance`, by default `0.01`. -/
noncomputable def lastTolerance (calls : List Setting) : ℝ :=
  calls.foldl (fun t c => match c with | .tolerance t' => t' | _ => t) (1 / 100)

/-- The argument of the last call of `fw_type` or `variant`, by default the short steps. -/
def lastSteps (calls : List Setting) : FWType :=
  calls.foldl (fun t c => match c with | .steps t' => t' | _ => t) .shortStep

end CERLPBoostF

end Miniboosts
