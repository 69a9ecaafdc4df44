import Verif.Model.FloatTree
import Verif.Model.Objective

/-! # `src/research/objective_functions.rs` in `f64` -/

namespace Miniboosts.F64

variable {H X : Type*} [Classifier H X F64]

/-- The confidences of a vote, as `Classifier::confidence` of `src/hypothesis/weighted_majority.rs:72-78`. -/
noncomputable instance voteClassifier : Classifier (WeightedMajority F64 H) X F64 := ⟨weightedConf⟩

open Classical in
/-- `checker::check_nu`, `src/common/checker.rs:30-33`; `n_sample as f64` is exact for the sizes considered. -/
noncomputable def checkNuF (nu : F64) (nSample : Nat) : Except Panic Unit :=
  if Le (fin 1) nu ∧ Le nu (fin nSample) then .ok () else .error .assertion

open Classical in
/-- `margins.sort_by(|a, b| a.partial_cmp(b).unwrap())`, `src/research/objective_functions.rs:69`.  Sorting at least two entries compares every entry with another one, and the comparison with
a NaN panics.  The sorting is stable. -/
noncomputable def sortMargins (ms : List F64) : Except Panic (List F64) :=
  if 2 ≤ ms.length ∧ nan ∈ ms then .error .unwrapNone else .ok (ms.mergeSort fun a b => decide (Le a b))

open Classical in
/-- The loop of `SoftMarginObjective::eval`, `src/research/objective_functions.rs:75-83`: `acc` is `objective_value`, `left` is `weight_left`. -/
noncomputable def softLoopF (unit : F64) : List F64 → F64 → F64 → F64
  | [], _, acc => acc
  | yh :: rest, left, acc =>
    if Lt unit left then softLoopF unit rest (sub left unit) (add acc (mul unit yh))
    else add acc (mul left yh)

/-- `SoftMarginObjective::eval`, `src/research/objective_functions.rs:50-87`. -/
noncomputable def softMarginEvalF (nu : F64) (nFeature : Nat) (S : Examples X ℝ) (h : H) : Except Panic F64 :=
  match checkSample S.length nFeature with
  | .error e => .error e
  | .ok () =>
    match checkNuF nu S.length with
    | .error e => .error e
    | .ok () => (sortMargins (S.map fun e => mul (fin e.2) (conf h e.1))).map fun ms => softLoopF (div (fin 1) nu) ms (fin 1) (fin 0)

/-- `HardMarginObjective::eval` (with `HardMarginObjective::new`), `src/research/objective_functions.rs:98-131`. -/
noncomputable def hardMarginEvalF (nFeature : Nat) (S : Examples X ℝ) (h : H) : Except Panic F64 := softMarginEvalF (fin 1) nFeature S h

open Classical in
/-- `Classifier::predict`, `src/hypothesis/hypothesis_traits.rs:15-18`, for any classifier. -/
noncomputable def predictOf (h : H) (x : X) : Int := if Le (fin 0) (conf h x : F64) then 1 else -1

/-- `ExponentialLoss::eval`, `src/research/objective_functions.rs:158-174`; the sum is sequential. -/
noncomputable def expLossEvalF (L : Libm) (nFeature : Nat) (S : Examples X ℝ) (h : H) : Except Panic F64 :=
  match checkSample S.length nFeature with
  | .error e => .error e
  | .ok () => .ok (div ((S.map fun e => exp L (mul (neg (fin e.2)) (fin (predictOf h e.1 : ℝ)))).foldl add (fin 0)) (fin S.length))

end Miniboosts.F64
