import Verif.Model.NaiveBayes
import Verif.Model.NeuralNetwork
import Verif.Model.ParTree

/-! # The remaining parallel iterators

`utils::normalize`, the statistics of a sample, the appending of a row, the affine map of a layer of the neural network and the
density of the naive Bayes learner, with the executions rayon may choose.  `none` stands for a panic. -/

namespace Miniboosts

namespace Par

open Real

variable {α β K : Type*}

/-- `xs.par_iter().map(f).collect::<Vec<_>>()`, where `f` may panic. -/
def Collect (f : α → Except Panic β) (xs : List α) (o : Option (List β)) : Prop :=
  ∃ t : Split α, t.items = xs ∧ o = allSome (t.collect fun x => (f x).toOption)

section

variable [Field K] [LinearOrder K]

/-- `utils::normalize`, `src/common/utils.rs:287-296`: the sum is sequential, the division parallel. -/
def Normalize (items : List K) (o : Option (List K)) : Prop :=
  if (items.map fun a => |a|).sum = 0 then o = none
  else ∃ r, ParMap (fun a => a / (items.map fun a => |a|).sum) items r ∧ o = some r

/-- `Sample::weighted_mean_and_variance`, `src/sample/sample_struct.rs:452-462`. -/
def MeanAndVariance (s : Sample K) (weight : List K) (o : Option (List (K × K))) : Prop :=
  Collect (fun f : Feature K => f.weightedMeanAndVariance weight) s.features o

/-- `Sample::weighted_mean`, `src/sample/sample_struct.rs:469-477`. -/
def Mean (s : Sample K) (weight : List K) (o : Option (List K)) : Prop :=
  Collect (fun f : Feature K => f.weightedMean weight) s.features o

/-- `Sample::weighted_mean_for_label`, `src/sample/sample_struct.rs:484-499`. -/
def MeanForLabel (s : Sample K) (y : K) (weight : List K) (o : Option (List K)) : Prop :=
  Collect (fun f : Feature K => f.weightedMeanForLabel y s.target weight) s.features o

/-- `Sample::weighted_mean_and_variance_for_label`, `src/sample/sample_struct.rs:506-521`. -/
def MeanAndVarianceForLabel (s : Sample K) (y : K) (weight : List K) (o : Option (List (K × K))) : Prop :=
  Collect (fun f : Feature K => f.weightedMeanAndVarianceForLabel y s.target weight) s.features o

/-- `Sample::append`, `src/sample/sample_struct.rs:524-531`. -/
def Append (s : Sample K) (row : Nat) (feat : List K) (y : K) (s' : Sample K) : Prop :=
  ∃ cols, ParUpdate (fun (col : Feature K) f => col.append row f) s.features feat cols ∧
    s' = { s with features := cols, target := s.target ++ [y] }

end

/-- `Layer::affine`, `src/weak_learner/neural_network/layer.rs:54-62`: a parallel iterator over the rows of the matrix, with a parallel
inner product for each of them.  (The products of rows without a bias are not computed by the code; they have no effect.) -/
def Affine (l : Layer) (x : List ℝ) (o : Option (List ℝ)) : Prop :=
  if l.ncol ≠ x.length then o = none
  else ∃ (products : List ℝ) (t : Split (ℝ × ℝ)), List.Forall₂ (fun w r => ParInner w x r) l.matrix products ∧
    t.items = products.zip l.bias ∧ o = some (t.collect fun p => p.1 + p.2)

/-- `a + b` on `f64`, with `none` for NaN. -/
noncomputable def addNan : Option ℝ → Option ℝ → Option ℝ
  | some a, some b => some (a + b)
  | _, _ => none

/-- One term of the density, `src/weak_learner/naive_bayes/probability.rs:45-49`; see `Gaussian.nonConst` for the value with a variance
that is not positive. -/
noncomputable def densityTerm (n row : Nat) (p : (ℝ × ℝ) × Feature ℝ) : Except Panic (Option ℝ) :=
  (p.2.index row).map fun x => if p.1.2 ≤ 0 then none else some ((x - p.1.1) ^ 2 / p.1.2 + n * log p.1.2)

/-- `Gaussian::log_probability`, `src/weak_learner/naive_bayes/probability.rs:37-53`. -/
def LogProbability (g : Gaussian) (sample : Sample ℝ) (row : Nat) (o : Option (Option ℝ)) : Prop :=
  match allSome (((g.means.zip g.vars).zip sample.features).map fun p => (densityTerm g.means.length row p).toOption) with
  | none => o = none
  | some terms => ∃ t : Split (Option ℝ), t.items = terms ∧
    o = some ((t.sum addNan (some 0)).map fun s => -(1 / 2) * (g.means.length * log (2 * π) + s))

end Par

end Miniboosts
