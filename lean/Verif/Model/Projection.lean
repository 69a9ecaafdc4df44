import Verif.Model.Utils
import Verif.Model.Label
import Mathlib.Analysis.SpecialFunctions.Log.Basic
import Mathlib.Data.List.Sort

/-! # The entropy projection and the entropy helpers of `src/common/utils.rs` -/

namespace Miniboosts

open Real

variable {H X : Type*}

/-- The suffix log-sum-exp values, `src/common/utils.rs:195-209`: the code walks the sorted order from the
back, pushes, and reverses; entry `k` is the log-sum-exp of the elements `k, k+1, ..`. -/
noncomputable def suffixLogSums : List ℝ → List ℝ
  | [] => []
  | a :: rest =>
    let sums := suffixLogSums rest
    (match sums.head? with
      | none => a
      | some v => max v a + log (1 + exp (min v a - max v a))) :: sums

/-- The inner loop `for (_, (ii, _)) in ix_with_logsum { dist[ii] = (log_xi + dist[ii]).exp(); }`,
`src/common/utils.rs:239-241`. -/
noncomputable def projTail (logXi : ℝ) : List (Nat × ℝ) → List ℝ → Except Panic (List ℝ)
  | [], dist => .ok dist
  | (k, _) :: rest, dist =>
    match dist[k]? with
    | none => .error .outOfRange
    | some d => projTail logXi rest (dist.set k (exp (logXi + d)))

/-- The search loop, `src/common/utils.rs:231-246`.  `f64::ln` of zero or of a negative number is an infinity
or NaN: the `nonFinite` case. -/
noncomputable def projLoop (nu : ℝ) : Nat → List (Nat × ℝ) → List ℝ → Except Panic (List ℝ)
  | _, [], dist => .ok dist
  | i, (k, logsum) :: rest, dist =>
    if 1 - 1 / nu * (i : ℝ) ≤ 0 ∨ nu ≤ 0 then .error .nonFinite
    else
      let logXi := log (1 - 1 / nu * (i : ℝ)) - logsum
      match dist[k]? with
      | none => .error .outOfRange
      | some d =>
        if logXi + d + log nu ≤ 0 then projTail logXi rest (dist.set k (exp (logXi + d)))
        else projLoop nu (i + 1) rest (dist.set k (1 / nu))

/-- `project_log_distribution_to_capped_simplex`, `src/common/utils.rs:181-250`.
`ix` is the list of indices stably sorted by descending value (line 195). -/
noncomputable def projectCapped (nu : ℝ) (logs : List ℝ) : Except Panic (List ℝ) :=
  let ix := (List.range logs.length).mergeSort fun i j => decide (logs.getD j 0 ≤ logs.getD i 0)
  let sums := suffixLogSums (ix.map fun i => logs.getD i 0)
  match projLoop nu 0 (List.zip ix sums) logs with
  | .error e => .error e
  | .ok dist =>
    match checkCappedSimplex dist nu with
    | .error e => .error e
    | .ok () => .ok dist

/-- `log_exp_distribution` (the iterator of `- eta * y f(x)`), `src/common/utils.rs:112-123`. -/
noncomputable def logExpDistribution [Classifier H X ℝ] (eta : ℝ) (S : Examples X ℝ) (ws : List ℝ)
    (hs : List H) : List ℝ :=
  (weightedMargins S ws hs).map fun yf => -eta * yf

/-- `exp_distribution`, `src/common/utils.rs:138-150`. -/
noncomputable def expDistribution [Classifier H X ℝ] (eta nu : ℝ) (S : Examples X ℝ) (ws : List ℝ)
    (hs : List H) : Except Panic (List ℝ) :=
  projectCapped nu (logExpDistribution eta S ws hs)

/-- `exp_distribution_from_margins`, `src/common/utils.rs:159-168`. -/
noncomputable def expDistributionFromMargins (eta nu : ℝ) (margins : List ℝ) : Except Panic (List ℝ) :=
  projectCapped nu (margins.map fun yf => -eta * yf)

/-- `entropy`, `src/common/utils.rs:266-272`. -/
noncomputable def entropy (d : List ℝ) : ℝ := (d.map fun p => if p = 0 then 0 else p * log p).sum

/-- `entropy_from_uni_distribution`, `src/common/utils.rs:255-261`. -/
noncomputable def entropyFromUni (d : List ℝ) : ℝ := entropy d + log (d.length : ℝ)

end Miniboosts
