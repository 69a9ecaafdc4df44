import Verif.Model.NeuralNetwork
import Verif.Spec.Entropy
import Mathlib.Algebra.BigOperators.Group.Finset.Basic
import Mathlib.Analysis.Calculus.Deriv.Basic

/-! # Feed-forward networks as functions of real vectors -/

namespace Miniboosts.Spec

open Real

/-- The function an activation stands for: coordinate-wise `1 / (1 + e^{-ηx})`, the identity cut off below a
threshold, the identity, and the normalised exponentials. -/
noncomputable def actFn : Activation → List ℝ → List ℝ
  | .softMax η, x => softmax (x.map fun a => η * a)
  | .sigmoid η, x => x.map fun a => 1 / (1 + exp (-η * a))
  | .reLu θ, x => x.map fun a => if a ≤ θ then 0 else a
  | .id, x => x

/-- `W z + b`. -/
noncomputable def affineFn (l : Layer) (z : List ℝ) : List ℝ :=
  (List.range l.nrow).map fun i => ∑ j ∈ Finset.range l.ncol, l.matrix.entry i j * z.getD j 0 + l.bias.getD i 0

/-- The composition of the layers `x ↦ f(W x + b)`, the first layer first. -/
noncomputable def netFn : List Layer → List ℝ → List ℝ
  | [], z => z
  | l :: ls, z => netFn ls (actFn l.activation (affineFn l z))

/-- The matrix and the bias of a layer have the announced shape, and there is at least one output. -/
structure ShapedLayer (l : Layer) : Prop where
  pos : 0 < l.nrow
  rows : l.matrix.length = l.nrow
  cols : ∀ r ∈ l.matrix, r.length = l.ncol
  bias : l.bias.length = l.nrow

/-- Every layer is well shaped, the first takes vectors of length `d`, and every other takes the outputs of the one
before. -/
def Shaped : List Layer → Nat → Prop
  | [], _ => True
  | l :: ls, d => ShapedLayer l ∧ l.ncol = d ∧ Shaped ls l.nrow

/-- The length of the output of a network with inputs of length `d`. -/
def outDim : List Layer → Nat → Nat
  | [], d => d
  | l :: ls, _ => outDim ls l.nrow

/-- The layer with `t` added to the weight in row `i`, column `j`. -/
noncomputable def bumpWeight (l : Layer) (i j : Nat) (t : ℝ) : Layer :=
  { l with matrix := l.matrix.set i ((l.matrix.getD i []).set j (l.matrix.entry i j + t)) }

/-- The layer with `t` added to the `i`-th bias. -/
noncomputable def bumpBias (l : Layer) (i : Nat) (t : ℝ) : Layer :=
  { l with bias := l.bias.set i (l.bias.getD i 0 + t) }

/-- The loss that belongs to an output activation: half the squared distance for the identity, the cross entropy
(divided by the slope) for the softmax, the sum of binary cross entropies (divided by the slope) for the sigmoid. -/
noncomputable def outputLoss (a : Activation) (p y : List ℝ) : ℝ :=
  match a with
  | .id => (List.zipWith (fun p y => (p - y) ^ 2 / 2) p y).sum
  | .softMax η => -(List.zipWith (fun p y => y * log p) p y).sum / η
  | .sigmoid η => -(List.zipWith (fun p y => y * log p + (1 - y) * log (1 - p)) p y).sum / η
  | .reLu _ => 0

/-- The output activation has a matching loss, and the target vector fits it. -/
def OutputOk : Activation → List ℝ → Prop
  | .id, _ => True
  | .softMax η, y => η ≠ 0 ∧ y.sum = 1
  | .sigmoid η, _ => η ≠ 0
  | .reLu _, _ => False

/-- A hidden activation of the kinds whose derivative the code computes right, evaluated off its kink. -/
def HiddenOk : Activation → List ℝ → Prop
  | .id, _ => True
  | .reLu θ, u => ∀ a ∈ u, a ≠ θ
  | _, _ => False

/-- Along the evaluation of the network at `z` all hidden layers are as in `HiddenOk`, and the output layer and the
target `y` as in `OutputOk`. -/
def Regular : List Layer → List ℝ → List ℝ → Prop
  | [], _, _ => False
  | [l], _, y => OutputOk l.activation y
  | l :: l' :: ls, z, y =>
    HiddenOk l.activation (affineFn l z) ∧ Regular (l' :: ls) (actFn l.activation (affineFn l z)) y

/-- The target vector of a label for a network with `n` outputs: the label itself if `n = 1`, otherwise the indicator
vector of its class; the binary label `-1` is class 0. -/
def Encodes (y : ℝ) (n : Nat) (v : List ℝ) : Prop :=
  (n = 1 ∧ v = [y]) ∨
    (n ≠ 1 ∧ ∃ k < n, (y = k ∨ (y = -1 ∧ k = 0)) ∧ v = (List.range n).map fun i => if i = k then 1 else 0)

/-- `E` lists the inputs and the target vectors of the given rows of the sample. -/
def BatchOf (sample : Sample ℝ) (n : Nat) (rows : List Nat) (E : List (List ℝ × List ℝ)) : Prop :=
  List.Forall₂ (fun i e => ∃ y, sample.at' i = .ok (e.1, y) ∧ Encodes y n e.2) rows E

/-- The total loss of a network with output activation `a` on a batch. -/
noncomputable def batchLoss (a : Activation) (ls : List Layer) (E : List (List ℝ × List ℝ)) : ℝ :=
  (E.map fun e => outputLoss a (netFn ls e.1) e.2).sum

end Miniboosts.Spec
