import Verif.Model.Float
import Verif.Model.SmoothBoost

/-! # SmoothBoost in `f64`: `src/booster/smoothboost/smoothboost_algorithm.rs` -/

namespace Miniboosts

namespace F64

/-- `f64::sqrt`: correctly rounded. -/
noncomputable def sqrt : F64 → F64
  | fin a => if 0 ≤ a then rnd (Real.sqrt a) else nan
  | inf s => if s then nan else inf false
  | nan => nan

/-- `a.ceil() as usize`: the cast saturates, NaN becomes zero. -/
noncomputable def ceilUsize : F64 → Nat
  | fin a => min ⌈a⌉₊ (2 ^ 64 - 1)
  | inf s => if s then 0 else 2 ^ 64 - 1
  | nan => 0

/-- `f64::powf` of the platform for positive bases, before the final rounding. -/
structure Powm where
  powA : ℝ → ℝ → ℝ
  err : ∀ x y : ℝ, 0 < x → |powA x y - x ^ y| ≤ 2 ^ (-50 : ℤ) * x ^ y

/-- `a.powf(b)`.  Simplification: bases that are not positive finite numbers give NaN (the code only uses bases in `[1/2, 1]`). -/
noncomputable def powf (P : Powm) : F64 → F64 → F64
  | fin a, fin b => if 0 < a then rnd (P.powA a b) else nan
  | fin a, inf s => if a = 1 then fin 1 else if 0 < a then (if decide (a < 1) = s then inf false else fin 0) else nan
  | fin a, nan => if a = 1 then fin 1 else nan
  | _, _ => nan

end F64

/-- The fields of `SmoothBoost`, `src/booster/smoothboost/smoothboost_algorithm.rs:93-126`. -/
structure SmoothBoostF (H : Type*) where
  kappa : F64
  theta : F64
  gamma : F64
  nSample : Nat
  current : Nat
  terminated : Nat
  maxIter : Nat
  hypotheses : List H
  m : List F64
  n : List F64

namespace SmoothBoostF

open F64

variable {H X : Type*}

/-- `SmoothBoost::theta`, `src/booster/smoothboost/smoothboost_algorithm.rs:186-188`. -/
noncomputable def thetaOf (gamma : F64) : F64 := div gamma (add (fin 2) gamma)

/-- `SmoothBoost::init`, `src/booster/smoothboost/smoothboost_algorithm.rs:131-156`. -/
noncomputable def init (S : Examples X ℝ) : SmoothBoostF H :=
  { kappa := fin (1 / 2), theta := thetaOf (fin (1 / 2)), gamma := fin (1 / 2), nSample := S.length, current := 0,
    terminated := 2 ^ 64 - 1, maxIter := 2 ^ 64 - 1, hypotheses := [], m := [], n := [] }

/-- `SmoothBoost::tolerance`, `src/booster/smoothboost/smoothboost_algorithm.rs:161-165`. -/
def setTolerance (s : SmoothBoostF H) (kappa : F64) : SmoothBoostF H := { s with kappa := kappa }

open Classical in
/-- `SmoothBoost::gamma`, `src/booster/smoothboost/smoothboost_algorithm.rs:176-182`. -/
noncomputable def setGamma (s : SmoothBoostF H) (gamma : F64) : Except Panic (SmoothBoostF H) :=
  if Le (fin 0) gamma ∧ Lt gamma (fin (1 / 2)) then .ok { s with gamma := gamma } else .error .assertion

/-- `SmoothBoost::max_loop`, `src/booster/smoothboost/smoothboost_algorithm.rs:193-200`; `powi(2)` is one multiplication. -/
noncomputable def maxLoop (s : SmoothBoostF H) : Nat :=
  ceilUsize (div (fin 2) (mul (mul s.kappa (mul s.gamma s.gamma)) (sqrt (sub (fin 1) s.gamma))))

open Classical in
/-- `SmoothBoost::check_preconditions`, `src/booster/smoothboost/smoothboost_algorithm.rs:203-219`. -/
noncomputable def checkPreconditions (s : SmoothBoostF H) : Except Panic Unit :=
  if ¬ (Le (fin 0) s.kappa ∧ Lt s.kappa (fin 1)) ∨ Le s.kappa (fin 0) then .error .assertion
  else if ¬ (Le s.theta s.gamma ∧ Lt s.gamma (fin (1 / 2))) then .error .assertion
  else .ok ()

/-- `Booster::preprocess` of SmoothBoost, `src/booster/smoothboost/smoothboost_algorithm.rs:249-273`. -/
noncomputable def preprocess (S : Examples X ℝ) (s : SmoothBoostF H) : Except Panic (SmoothBoostF H) :=
  match checkBinary S with
  | .error e => .error e
  | .ok () =>
    let s := { s with nSample := S.length, theta := thetaOf s.gamma }
    match checkPreconditions s with
    | .error e => .error e
    | .ok () =>
      .ok { s with
        current := 0
        maxIter := maxLoop s
        terminated := maxLoop s
        hypotheses := []
        m := List.replicate S.length (fin 1)
        n := List.replicate S.length (fin 1) }

open Classical in
/-- The update of one entry of `m`, `src/booster/smoothboost/smoothboost_algorithm.rs:330-334`. -/
noncomputable def weightOf (P : Powm) (gamma nj : F64) : F64 :=
  if Le nj (fin 0) then fin 1 else powf P (sub (fin 1) gamma) (mul nj (fin (1 / 2)))

open Classical in
/-- `Booster::boost` of SmoothBoost, `src/booster/smoothboost/smoothboost_algorithm.rs:276-338`.  The sum of line 291 is sequential; the
parallel loop of lines 327-335 works on each entry separately. -/
noncomputable def boost [Classifier H X F64] (P : Powm) (S : Examples X ℝ) (s : SmoothBoostF H) (wl : WeakLearner F64 H) (iteration : Nat) :
    Except Panic (BoostOut (SmoothBoostF H) F64) :=
  if s.maxIter < iteration then
    .ok { state := s, flow := .brk s.maxIter, queries := [] }
  else
    let s := { s with current := iteration }
    let sum := s.m.foldl add (fin 0)
    if Lt sum (mul (rnd (s.nSample : ℝ)) s.kappa) then
      if iteration = 0 then .error .arith
      else .ok { state := { s with terminated := iteration - 1 }, flow := .brk iteration, queries := [] }
    else
      let dist := s.m.map fun mj => div mj sum
      let h := wl iteration dist
      let n' := updateZip (fun nj yh => sub (add nj yh) s.theta) s.n (F64.margins S h)
      let m' := updateZip (fun _ nj => weightOf P s.gamma nj) s.m n'
      .ok { state := { s with hypotheses := s.hypotheses ++ [h], n := n', m := m' },
            flow := .cont, queries := [dist] }

/-- `Booster::postprocess` and `current_hypothesis` of SmoothBoost, `src/booster/smoothboost/smoothboost_algorithm.rs:341-350, 358-362`. -/
noncomputable def postprocess (s : SmoothBoostF H) : Except Panic (WeightedMajority F64 H) :=
  fromSlices (List.replicate s.nSample (div (fin 1) (rnd (s.terminated : ℝ)))) s.hypotheses

/-- `impl Booster for SmoothBoost`, `src/booster/smoothboost/smoothboost_algorithm.rs:224-351`, in `f64`. -/
noncomputable def booster [Classifier H X F64] (P : Powm) (S : Examples X ℝ) : Booster (SmoothBoostF H) F64 H (WeightedMajority F64 H) where
  preprocess s _ := preprocess S s
  boost := boost P S
  postprocess := postprocess

end SmoothBoostF

end Miniboosts
