import Verif.Model.Sample
import Mathlib.Analysis.SpecialFunctions.Log.Basic
import Mathlib.Analysis.SpecialFunctions.Trigonometric.Basic

/-! # `src/weak_learner/naive_bayes/` -/

namespace Miniboosts

open Real

/-- `Gaussian`, `src/weak_learner/naive_bayes/probability.rs:22-25`. -/
structure Gaussian where
  means : List ℝ
  vars : List ℝ

namespace Gaussian

/-- `Gaussian::new`, `src/weak_learner/naive_bayes/probability.rs:28-31`. -/
def new (means vars : List ℝ) : Except Panic Gaussian :=
  if means.length ≠ vars.length then .error .assertion else .ok { means := means, vars := vars }

/-- The sum over the features in `Gaussian::log_probability`, `src/weak_learner/naive_bayes/probability.rs:42-50`.
The value `none` stands for NaN: with a zero variance `(x - mean)² / 0` is NaN or `+∞` and `ln 0 = -∞`, so that their
sum, and every sum it enters, is NaN; the logarithm of a negative variance is NaN. -/
noncomputable def nonConst (n : Nat) (row : Nat) : List ((ℝ × ℝ) × Feature ℝ) → Except Panic (Option ℝ)
  | [] => .ok (some 0)
  | ((mean, var), feat) :: rest =>
    match feat.index row with
    | .error e => .error e
    | .ok x =>
      match nonConst n row rest with
      | .error e => .error e
      | .ok none => .ok none
      | .ok (some s) => if var ≤ 0 then .ok none else .ok (some ((x - mean) ^ 2 / var + n * log var + s))

/-- `Gaussian::log_probability`, `src/weak_learner/naive_bayes/probability.rs:37-53`; `none` stands for NaN. -/
noncomputable def logProbability (g : Gaussian) (sample : Sample ℝ) (row : Nat) : Except Panic (Option ℝ) :=
  (nonConst g.means.length row ((g.means.zip g.vars).zip sample.features)).map
    (Option.map fun s => -(1 / 2) * (g.means.length * log (2 * π) + s))

end Gaussian

/-- `NBayesClassifier`, `src/weak_learner/naive_bayes/nbayes_classifier.rs:13-16`. -/
structure NBayesClassifier where
  conditionals : List (ℝ × ℝ × Gaussian)
  density : Gaussian

namespace NBayesClassifier

/-- `prior * (log_cond - log_all).exp()`, `src/weak_learner/naive_bayes/nbayes_classifier.rs:45`; `none` stands for
NaN. -/
noncomputable def prob (prior : ℝ) : Option ℝ → Option ℝ → Option ℝ
  | some c, some a => some (prior * exp (c - a))
  | _, _ => none

/-- The loop of `NBayesClassifier::probabilities`, `src/weak_learner/naive_bayes/nbayes_classifier.rs:42-48`. -/
noncomputable def probs (sample : Sample ℝ) (row : Nat) (logAll : Option ℝ) :
    List (ℝ × ℝ × Gaussian) → Except Panic (List (ℝ × Option ℝ))
  | [] => .ok []
  | (y, prior, density) :: rest =>
    match density.logProbability sample row with
    | .error e => .error e
    | .ok logCond =>
      match probs sample row logAll rest with
      | .error e => .error e
      | .ok ps => .ok ((y, prob prior logCond logAll) :: ps)

/-- `NBayesClassifier::probabilities`, `src/weak_learner/naive_bayes/nbayes_classifier.rs:37-49`. -/
noncomputable def probabilities (f : NBayesClassifier) (sample : Sample ℝ) (row : Nat) :
    Except Panic (List (ℝ × Option ℝ)) :=
  match f.density.logProbability sample row with
  | .error e => .error e
  | .ok logAll => probs sample row logAll f.conditionals

/-- `a > b` on `f64`; `none` stands for NaN. -/
noncomputable def gt : Option ℝ → Option ℝ → Bool
  | some a, some b => decide (b < a)
  | _, _ => false

/-- `NBayesClassifier::confidence`, `src/weak_learner/naive_bayes/nbayes_classifier.rs:66-72`. -/
noncomputable def confidence (f : NBayesClassifier) (sample : Sample ℝ) (row : Nat) : Except Panic ℝ :=
  match f.probabilities sample row with
  | .error e => .error e
  | .ok [] => .error .unwrapNone
  | .ok (p :: ps) => .ok (ps.foldl (fun a b => if gt a.2 b.2 then a else b) p).1

end NBayesClassifier

namespace GaussianNB

/-- The loop over the labels in `GaussianNB::produce`, `src/weak_learner/naive_bayes/nbayes.rs:43-52`. -/
noncomputable def fit (sample : Sample ℝ) (dist : List ℝ) : List ℝ → Except Panic (List (ℝ × ℝ × Gaussian))
  | [] => .ok []
  | y :: ys =>
    match sample.weightedMeanAndVarianceForLabel y dist with
    | .error e => .error e
    | .ok mv =>
      match Gaussian.new (mv.map Prod.fst) (mv.map Prod.snd) with
      | .error e => .error e
      | .ok density =>
        match fit sample dist ys with
        | .error e => .error e
        | .ok rest => .ok ((y, max 0 (min 1 (totalWeightForLabel y sample.target dist)), density) :: rest)

/-- `GaussianNB::produce`, `src/weak_learner/naive_bayes/nbayes.rs:35-61`. -/
noncomputable def produce (sample : Sample ℝ) (dist : List ℝ) : Except Panic NBayesClassifier :=
  match fit sample dist sample.uniqueTarget with
  | .error e => .error e
  | .ok conditionals =>
    match sample.weightedMeanAndVariance dist with
    | .error e => .error e
    | .ok mv =>
      match Gaussian.new (mv.map Prod.fst) (mv.map Prod.snd) with
      | .error e => .error e
      | .ok density => .ok { conditionals := conditionals, density := density }

end GaussianNB

end Miniboosts
