import Verif.Model.Float
import Verif.Model.Projection

/-! # The entropy projection of `src/common/utils.rs` computed with `f64` -/

namespace Miniboosts

namespace F64

open Classical in
/-- `f64::min`: a NaN is ignored. -/
noncomputable def minNum (a b : F64) : F64 := if a = nan then b else if b = nan then a else if Le a b then a else b

open Classical in
/-- `f64::max`: a NaN is ignored. -/
noncomputable def maxNum (a b : F64) : F64 := if a = nan then b else if b = nan then a else if Le a b then b else a

/-- The suffix log-sum-exp values, `src/common/utils.rs:195-209`. -/
noncomputable def suffixLogSums (L : Libm) : List F64 → List F64
  | [] => []
  | a :: rest =>
    let sums := suffixLogSums L rest
    (match sums.head? with
      | none => a
      | some v => add (maxNum v a) (ln L (add (fin 1) (exp L (sub (minNum v a) (maxNum v a)))))) :: sums

/-- The inner loop, `src/common/utils.rs:239-241`. -/
noncomputable def projTail (L : Libm) (logXi : F64) : List (Nat × F64) → List F64 → Except Panic (List F64)
  | [], dist => .ok dist
  | (k, _) :: rest, dist =>
    match dist[k]? with
    | none => .error .outOfRange
    | some d => projTail L logXi rest (dist.set k (exp L (add logXi d)))

/-- `(1.0 - ub * i as f64).ln() - logsum`, `src/common/utils.rs:232`. -/
noncomputable def logXi (L : Libm) (ub : F64) (i : Nat) (logsum : F64) : F64 := sub (ln L (sub (fin 1) (mul ub (rnd i)))) logsum

open Classical in
/-- The search loop, `src/common/utils.rs:231-246`. -/
noncomputable def projLoop (L : Libm) (ub logNu : F64) : Nat → List (Nat × F64) → List F64 → Except Panic (List F64)
  | _, [], dist => .ok dist
  | i, (k, logsum) :: rest, dist =>
    match dist[k]? with
    | none => .error .outOfRange
    | some d =>
      if Le (add (add (logXi L ub i logsum) d) logNu) (fin 0) then
        projTail L (logXi L ub i logsum) rest (dist.set k (exp L (add (logXi L ub i logsum) d)))
      else projLoop L ub logNu (i + 1) rest (dist.set k ub)

open Classical in
/-- `checker::check_capped_simplex_condition`, `src/common/checker.rs:41-66`, with `check_nu` of lines 30-33.  The weaker assertion inside the
printing branch is implied by the one after it. -/
noncomputable def checkCapped (dist : List F64) (nu : F64) : Except Panic Unit :=
  if Le (fin 1) nu ∧ Le nu (rnd dist.length) then
    if Lt (abs (sub (dist.foldl add (fin 0)) (fin 1))) (rnd (1 / 10 ^ 5)) then
      if ∀ s ∈ dist, Le (fin 0) s ∧ Le s (div (fin 1) nu) then .ok () else .error .assertion
    else .error .assertion
  else .error .assertion

open Classical in
/-- `project_log_distribution_to_capped_simplex`, `src/common/utils.rs:181-250`.  Sorting at least two entries compares every entry with
another one, and the comparison with a NaN panics. -/
noncomputable def projectCapped (L : Libm) (nu : F64) (logs : List F64) : Except Panic (List F64) :=
  if 2 ≤ logs.length ∧ nan ∈ logs then .error .unwrapNone
  else
    let ix := (List.range logs.length).mergeSort fun i j => decide (Le (logs.getD j (fin 0)) (logs.getD i (fin 0)))
    let sums := suffixLogSums L (ix.map fun i => logs.getD i (fin 0))
    match projLoop L (div (fin 1) nu) (ln L nu) 0 (List.zip ix sums) logs with
    | .error e => .error e
    | .ok dist =>
      match checkCapped dist nu with
      | .error e => .error e
      | .ok () => .ok dist

/-- `exp_distribution_from_margins`, `src/common/utils.rs:159-168`. -/
noncomputable def expDistributionFromMargins (L : Libm) (eta nu : F64) (margins : List F64) : Except Panic (List F64) :=
  projectCapped L nu (margins.map fun yf => mul (neg eta) yf)

end F64

end Miniboosts
