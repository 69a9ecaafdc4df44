import Verif.Model.Projection
import Verif.Model.DecisionTree

/-! # `src/common/task.rs` and `src/weak_learner/neural_network/` -/

namespace Miniboosts

open Real

/-- `Task`, `src/common/task.rs:4-14`. -/
inductive Task where
  | binary
  | multiClass (nClass : Nat)
  | regression
  deriving DecidableEq

namespace Task

/-- `binarize`, `src/common/task.rs:36-49`. -/
def binarize {K : Type*} [Field K] [LinearOrder K] (y : List K) : Except Panic K :=
  match y with
  | [a] => .ok (1 - 2 * a)
  | [a, b] => .ok (if b < a then -a else b)
  | _ => .error .assertion

/-- `discretize`, `src/common/task.rs:53-64`: `max_by` keeps the last maximum; `unwrap` of an empty maximum. -/
def discretize {K : Type*} [Field K] [LinearOrder K] (y : List K) (nClass : Nat) : Except Panic K :=
  if y.length ≠ nClass then .error .assertion
  else
    match Criterion.maxBy (fun p : Nat × K => p.2) (y.mapIdx fun i a => (i, a)) with
    | none => .error .unwrapNone
    | some p => .ok (p.1 : K)

/-- `vectorize`, `src/common/task.rs:69-76`.  (`y as usize` saturates at the largest index; such an index is out of
range anyway.) -/
def vectorize {K : Type*} [Field K] [LinearOrder K] [FloorRing K] (y : K) (nClass : Nat) : Except Panic (List K) :=
  if nClass = 1 then .ok [y]
  else
    let k := if y ≤ 0 then 0 else ⌊y⌋.toNat
    if k < nClass then .ok ((List.replicate nClass 0).set k 1) else .error .outOfRange

end Task

/-- `Activation`, `src/weak_learner/neural_network/activation.rs:5-14`. -/
inductive Activation where
  | softMax (eta : ℝ)
  | sigmoid (eta : ℝ)
  | reLu (threshold : ℝ)
  | id

namespace Activation

/-- `softmax`, `src/weak_learner/neural_network/activation.rs:39-44`. -/
noncomputable def softmax (eta : ℝ) (x : List ℝ) : Except Panic (List ℝ) := projectCapped 1 (x.map fun xi => eta * xi)

/-- `sigmoid`, `src/weak_learner/neural_network/activation.rs:48-53`. -/
noncomputable def sigmoid' (eta : ℝ) (x : List ℝ) : List ℝ := x.map fun xi => 1 / (1 + exp (-eta * xi))

/-- `relu`, `src/weak_learner/neural_network/activation.rs:57-62`. -/
noncomputable def relu (threshold : ℝ) (x : List ℝ) : List ℝ := x.map fun xi => if xi ≤ threshold then 0 else xi

/-- `softmax_diff`, `src/weak_learner/neural_network/activation.rs:72-79`. -/
noncomputable def softmaxDiff (eta : ℝ) (x : List ℝ) : Except Panic (List ℝ) :=
  match softmax eta x with
  | .error e => .error e
  | .ok ps => .ok (ps.map fun p => eta * p * (1 - p))

/-- `sigmoid_diff`, `src/weak_learner/neural_network/activation.rs:83-91`. -/
noncomputable def sigmoidDiff (eta : ℝ) (x : List ℝ) : List ℝ :=
  x.map fun xi => eta * exp (-eta * xi) / (1 + exp (-eta * xi))

/-- `relu_diff`, `src/weak_learner/neural_network/activation.rs:95-100`. -/
noncomputable def reluDiff (threshold : ℝ) (x : List ℝ) : List ℝ := x.map fun xi => if xi < threshold then 0 else 1

/-- `Activation::eval`, `src/weak_learner/neural_network/activation.rs:18-25` (`id`, lines 66-68). -/
noncomputable def eval (a : Activation) (x : List ℝ) : Except Panic (List ℝ) :=
  match a with
  | softMax eta => softmax eta x
  | sigmoid eta => .ok (sigmoid' eta x)
  | reLu threshold => .ok (relu threshold x)
  | id => .ok x

/-- `Activation::diff`, `src/weak_learner/neural_network/activation.rs:27-34` (`id_diff`, lines 104-108). -/
noncomputable def diff (a : Activation) (x : List ℝ) : Except Panic (List ℝ) :=
  match a with
  | softMax eta => softmaxDiff eta x
  | sigmoid eta => .ok (sigmoidDiff eta x)
  | reLu threshold => .ok (reluDiff threshold x)
  | id => .ok (List.replicate x.length 1)

end Activation

/-- A matrix as a list of rows. -/
abbrev Mat := List (List ℝ)

namespace Mat

/-- All of `m[i][j]` with `i < rows` and `j < cols` exist. -/
def covers (m : Mat) (rows cols : Nat) : Bool :=
  decide (rows ≤ m.length) && (m.take rows).all fun r => decide (cols ≤ r.length)

/-- `m[i][j]` where it exists. -/
noncomputable def entry (m : Mat) (i j : Nat) : ℝ := (m.getD i []).getD j 0

/-- `matrix_inner_product`, `src/weak_learner/neural_network/layer.rs:110-129`: `AᵀB`. -/
noncomputable def innerProduct (m1 m2 : Mat) : Except Panic Mat :=
  if m1.length ≠ m2.length then .error .assertion
  else
    match m1.head?, m2.head? with
    | some r1, some r2 =>
      if r1.length ≠ 0 ∧ r2.length ≠ 0 ∧ ¬ (covers m1 m1.length r1.length ∧ covers m2 m1.length r2.length) then
        .error .outOfRange
      else
        .ok ((List.range r1.length).map fun i => (List.range r2.length).map fun j =>
          ((List.range m1.length).map fun k => entry m1 k i * entry m2 k j).sum)
    | _, _ => .error .outOfRange

/-- `matrix_product`, `src/weak_learner/neural_network/layer.rs:134-154`: `AB`. -/
noncomputable def product (m1 m2 : Mat) : Except Panic Mat :=
  match m1.head? with
  | none => .error .outOfRange
  | some r1 =>
    if r1.length ≠ m2.length then .error .assertion
    else
      match m2.head? with
      | none => .error .outOfRange
      | some r2 =>
        if r2.length ≠ 0 ∧ ¬ (covers m1 m1.length r1.length ∧ covers m2 r1.length r2.length) then .error .outOfRange
        else
          .ok ((List.range m1.length).map fun i => (List.range r2.length).map fun j =>
            ((List.range r1.length).map fun k => entry m1 i k * entry m2 k j).sum)

/-- `column_sum`, `src/weak_learner/neural_network/layer.rs:158-171`. -/
noncomputable def columnSum (m : Mat) : Except Panic (List ℝ) :=
  match m.head? with
  | none => .error .outOfRange
  | some r => .ok (m.foldl (fun columns row => updateZip (fun c x => c + x) columns row) (List.replicate r.length 0))

/-- `utils::hadamard_product`, `src/common/utils.rs:301-315`. -/
noncomputable def hadamard (m1 m2 : Mat) : Except Panic Mat :=
  if m1.length ≠ m2.length then .error .assertion
  else
    match m1.head?, m2.head? with
    | some r1, some r2 =>
      if r1.length ≠ r2.length then .error .assertion
      else .ok (updateZip (fun r1 r2 => updateZip (fun a b => a * b) r1 r2) m1 m2)
    | _, _ => .error .outOfRange

end Mat

/-- `Layer`, `src/weak_learner/neural_network/layer.rs:12-19`. -/
structure Layer where
  nrow : Nat
  ncol : Nat
  matrix : Mat
  bias : List ℝ
  activation : Activation

namespace Layer

/-- `Layer::new`, `src/weak_learner/neural_network/layer.rs:24-38`: the random numbers are parameters. -/
def new (noise : Nat → Nat → ℝ) (noiseBias : Nat → ℝ) (nrow ncol : Nat) (activation : Activation) : Layer :=
  { nrow := nrow, ncol := ncol
    matrix := (List.range nrow).map fun i => (List.range ncol).map fun j => noise i j
    bias := (List.range nrow).map noiseBias, activation := activation }

/-- `Layer::affine`, `src/weak_learner/neural_network/layer.rs:54-62`. -/
noncomputable def affine (l : Layer) (x : List ℝ) : Except Panic (List ℝ) :=
  if l.ncol ≠ x.length then .error .assertion
  else .ok (List.zipWith (fun w b => innerProduct w x + b) l.matrix l.bias)

/-- `Layer::nonlinear`, `src/weak_learner/neural_network/layer.rs:66-69`. -/
noncomputable def nonlinear (l : Layer) (u : List ℝ) : Except Panic (List ℝ) := l.activation.eval u

/-- `Layer::forward`, `src/weak_learner/neural_network/layer.rs:73-76`. -/
noncomputable def forward (l : Layer) (x : List ℝ) : Except Panic (List ℝ) :=
  match l.affine x with
  | .error e => .error e
  | .ok u => l.nonlinear u

/-- `Layer::backward`, `src/weak_learner/neural_network/layer.rs:84-104`. -/
noncomputable def backward (l : Layer) (rate : ℝ) (dw : Mat) (db : List ℝ) : Except Panic Layer :=
  if l.matrix.length ≠ dw.length then .error .assertion
  else
    match l.matrix.head?, dw.head? with
    | some r, some dr =>
      if r.length ≠ dr.length then .error .assertion
      else if l.bias.length ≠ db.length then .error .assertion
      else
        .ok { l with
          matrix := updateZip (fun row drow => updateZip (fun r dr => r - rate * dr) row drow) l.matrix dw
          bias := updateZip (fun b db => b - rate * db) l.bias db }
    | _, _ => .error .outOfRange

end Layer

/-- `NNLoss`, `src/weak_learner/neural_network/nn_loss.rs:5-11`. -/
inductive NNLoss where
  | l2
  | crossEntropy
  deriving DecidableEq

/-- `NNLoss::diff`, `src/weak_learner/neural_network/nn_loss.rs:29-34` (`l2_diff`, lines 39-44,
`cross_entropy_diff`, lines 47-52). -/
def NNLoss.diff (loss : NNLoss) (p y : List ℝ) : List ℝ :=
  match loss with
  | .l2 => List.zipWith (fun pi yi => pi - yi) p y
  | .crossEntropy => List.zipWith (fun pi yi => pi - yi) p y

/-- `NNHypothesis`, `src/weak_learner/neural_network/nn_hypothesis.rs:58-61`. -/
structure NNHypothesis where
  task : Task
  layers : List Layer

namespace NNHypothesis

/-- The loop of `NNHypothesis::new`, `src/weak_learner/neural_network/nn_hypothesis.rs:83-87`; layer `l` gets its own
random numbers. -/
def newLayers (noise : Nat → Nat → Nat → ℝ) (noiseBias : Nat → Nat → ℝ) :
    Nat → Nat → List Nat → List Activation → List Layer
  | l, input, output :: dims, act :: acts =>
    Layer.new (noise l) (noiseBias l) output input act :: newLayers noise noiseBias (l + 1) output dims acts
  | _, _, _, _ => []

/-- `NNHypothesis::new`, `src/weak_learner/neural_network/nn_hypothesis.rs:66-91`. -/
def new (noise : Nat → Nat → Nat → ℝ) (noiseBias : Nat → Nat → ℝ) (task : Task) (dimensions : List Nat)
    (activations : List Activation) : Except Panic NNHypothesis :=
  match dimensions with
  | [] => .error .assertion
  | input :: dims => .ok { task := task, layers := newLayers noise noiseBias 0 input dims activations }

/-- The fold of `NNHypothesis::eval`, `src/weak_learner/neural_network/nn_hypothesis.rs:96-100`. -/
noncomputable def evalLayers : List Layer → List ℝ → Except Panic (List ℝ)
  | [], z => .ok z
  | l :: ls, z =>
    match l.forward z with
    | .error e => .error e
    | .ok z' => evalLayers ls z'

/-- `NNHypothesis::eval`, `src/weak_learner/neural_network/nn_hypothesis.rs:96-100`. -/
noncomputable def eval (f : NNHypothesis) (x : List ℝ) : Except Panic (List ℝ) := evalLayers f.layers x

/-- `NNHypothesis::output_dim`, `src/weak_learner/neural_network/nn_hypothesis.rs:124-131`. -/
def outputDim (f : NNHypothesis) : Except Panic Nat :=
  match f.layers.getLast? with
  | some l => .ok l.nrow
  | none => .error .assertion

/-- The forward pass of `NNHypothesis::train` for one example,
`src/weak_learner/neural_network/nn_hypothesis.rs:162-177`: what is pushed to `outputs` (the input of every layer),
what is pushed to `dfs` (the derivatives at every layer but the last) and the final output. -/
noncomputable def forwardPass : List Layer → List ℝ → Except Panic (List (List ℝ) × List (List ℝ) × List ℝ)
  | [], z => .ok ([], [], z)
  | l :: ls, z =>
    match l.affine z with
    | .error e => .error e
    | .ok u =>
      match l.nonlinear u with
      | .error e => .error e
      | .ok z' =>
        match ls with
        | [] => .ok ([z], [], z')
        | _ :: _ =>
          match l.activation.diff u with
          | .error e => .error e
          | .ok df =>
            match forwardPass ls z' with
            | .error e => .error e
            | .ok (zs, dfs, out) => .ok (z :: zs, df :: dfs, out)

/-- The loop over the mini-batch, `src/weak_learner/neural_network/nn_hypothesis.rs:158-184`: the buffers `outputs`,
`dfs` (one matrix per layer, a row per example) and `batch_delta`. -/
noncomputable def batchPass (layers : List Layer) (loss : NNLoss) (sample : Sample ℝ) (dim : Nat) :
    List Nat → List Mat × List Mat × Mat → Except Panic (List Mat × List Mat × Mat)
  | [], acc => .ok acc
  | i :: is, (outputs, dfs, delta) =>
    match sample.at' i with
    | .error e => .error e
    | .ok (x, y) =>
      match forwardPass layers x with
      | .error e => .error e
      | .ok (zs, ds, out) =>
        match Task.vectorize y dim with
        | .error e => .error e
        | .ok yv =>
          batchPass layers loss sample dim is
            (updateZip (fun m z => m ++ [z]) outputs zs, updateZip (fun m d => m ++ [d]) dfs ds, delta ++ [loss.diff out yv])

/-- The backward loop, `src/weak_learner/neural_network/nn_hypothesis.rs:187-211`: the layers, `outputs` and `dfs` are
consumed from the back (here: given in reverse order); the updated layers are returned in forward order. -/
noncomputable def backLoop (rate : ℝ) : List Layer → List Mat → List Mat → Mat → Except Panic (List Layer)
  | [], _, _, _ => .ok []
  | l :: ls, outputs, dfs, delta =>
    match Mat.product delta l.matrix with
    | .error e => .error e
    | .ok dxw =>
      match outputs with
      | [] => .error .unwrapNone
      | output :: outputs =>
        match Mat.innerProduct delta output with
        | .error e => .error e
        | .ok dw =>
          match Mat.columnSum delta with
          | .error e => .error e
          | .ok db =>
            match l.backward rate dw db with
            | .error e => .error e
            | .ok l' =>
              match dfs with
              | [] =>
                match backLoop rate ls outputs [] delta with
                | .error e => .error e
                | .ok ls' => .ok (ls' ++ [l'])
              | df :: dfs =>
                match Mat.hadamard df dxw with
                | .error e => .error e
                | .ok delta' =>
                  match backLoop rate ls outputs dfs delta' with
                  | .error e => .error e
                  | .ok ls' => .ok (ls' ++ [l'])

/-- `NNHypothesis::train`, `src/weak_learner/neural_network/nn_hypothesis.rs:136-212`.  Without layers
`n_layers-1` underflows. -/
noncomputable def train (f : NNHypothesis) (rate : ℝ) (loss : NNLoss) (sample : Sample ℝ) (indices : List Nat) :
    Except Panic NNHypothesis :=
  if f.layers.length = 0 then .error .arith
  else
    match f.outputDim with
    | .error e => .error e
    | .ok dim =>
      match batchPass f.layers loss sample dim indices
          (List.replicate f.layers.length [], List.replicate (f.layers.length - 1) [], []) with
      | .error e => .error e
      | .ok (outputs, dfs, delta) =>
        match backLoop rate f.layers.reverse outputs.reverse dfs.reverse delta with
        | .error e => .error e
        | .ok layers => .ok { f with layers := layers }

/-- `impl Classifier for NNClassifier`, `src/weak_learner/neural_network/nn_hypothesis.rs:216-231`. -/
noncomputable def confidence (f : NNHypothesis) (sample : Sample ℝ) (row : Nat) : Except Panic ℝ :=
  match sample.at' row with
  | .error e => .error e
  | .ok (x, _) =>
    match f.eval x with
    | .error e => .error e
    | .ok out =>
      match f.task with
      | .binary => Task.binarize out
      | .multiClass n => Task.discretize out n
      | .regression => .error .assertion

/-- `impl Regressor for NNRegressor`, `src/weak_learner/neural_network/nn_hypothesis.rs:234-251`. -/
noncomputable def predictReg (f : NNHypothesis) (sample : Sample ℝ) (row : Nat) : Except Panic ℝ :=
  match sample.at' row with
  | .error e => .error e
  | .ok (x, _) =>
    match f.eval x with
    | .error e => .error e
    | .ok out =>
      match f.task with
      | .regression =>
        match out with
        | [a] => .ok a
        | _ => .error .assertion
      | _ => .error .assertion

end NNHypothesis

/-- `NeuralNetwork`, `src/weak_learner/neural_network/nn_weak_learner.rs:68-77`. -/
structure NeuralNetwork where
  task : Task
  learningRate : ℝ
  minibatchSize : Nat
  dimensions : List Nat
  activations : List Activation
  lossFunc : NNLoss
  nEpoch : Nat
  nIter : Nat

namespace NeuralNetwork

/-- The loop `while minibatch_size > n_samples { minibatch_size /= 2; }` of `NeuralNetwork::init`,
`src/weak_learner/neural_network/nn_weak_learner.rs:94-96`. -/
def halve (nSamples size : Nat) : Nat :=
  if nSamples < size then halve nSamples (size / 2) else size
termination_by size
decreasing_by omega

/-- `NeuralNetwork::init`, `src/weak_learner/neural_network/nn_weak_learner.rs:84-115` (constants: lines 17-20). -/
noncomputable def init (nSamples nFeatures : Nat) : NeuralNetwork :=
  { task := .binary, learningRate := 1 / 1000, minibatchSize := halve nSamples 128, dimensions := [nFeatures],
    activations := [], lossFunc := .crossEntropy, nEpoch := 100, nIter := 200 }

/-- `NeuralNetwork::append`, `src/weak_learner/neural_network/nn_weak_learner.rs:120-130`. -/
def append (nn : NeuralNetwork) (dim : Nat) (activation : Activation) : NeuralNetwork :=
  { nn with dimensions := nn.dimensions ++ [dim], activations := nn.activations ++ [activation] }

/-- `NeuralNetwork::n_epoch`, `src/weak_learner/neural_network/nn_weak_learner.rs:135-138`. -/
def setEpoch (nn : NeuralNetwork) (n : Nat) : NeuralNetwork := { nn with nEpoch := n }

/-- `NeuralNetwork::n_iter`, `src/weak_learner/neural_network/nn_weak_learner.rs:143-146`. -/
def setIter (nn : NeuralNetwork) (n : Nat) : NeuralNetwork := { nn with nIter := n }

/-- `NeuralNetwork::minibatch_size`, `src/weak_learner/neural_network/nn_weak_learner.rs:151-154`. -/
def setMinibatch (nn : NeuralNetwork) (n : Nat) : NeuralNetwork := { nn with minibatchSize := n }

/-- `NeuralNetwork::task`, `src/weak_learner/neural_network/nn_weak_learner.rs:160-163`. -/
def setTask (nn : NeuralNetwork) (task : Task) : NeuralNetwork := { nn with task := task }

/-- The inner loop of `produce`, `src/weak_learner/neural_network/nn_weak_learner.rs:206-208`. -/
noncomputable def iterate (rate : ℝ) (loss : NNLoss) (sample : Sample ℝ) (batch : List Nat) :
    Nat → NNHypothesis → Except Panic NNHypothesis
  | 0, f => .ok f
  | n + 1, f =>
    match f.train rate loss sample batch with
    | .error e => .error e
    | .ok f => iterate rate loss sample batch n f

/-- The outer loop of `produce`, `src/weak_learner/neural_network/nn_weak_learner.rs:199-209`: the mini-batches, drawn
by `rand::seq::index::sample_weighted` (`none`: it reports an error, and `unwrap` panics), are a parameter. -/
noncomputable def epochs (rate : ℝ) (loss : NNLoss) (sample : Sample ℝ) (nIter : Nat) :
    List (Option (List Nat)) → NNHypothesis → Except Panic NNHypothesis
  | [], f => .ok f
  | none :: _, _ => .error .unwrapNone
  | some batch :: rest, f =>
    match iterate rate loss sample batch nIter f with
    | .error e => .error e
    | .ok f => epochs rate loss sample nIter rest f

/-- `NeuralNetwork::produce`, `src/weak_learner/neural_network/nn_weak_learner.rs:190-211`: `draws e` is the outcome of
the draw in epoch `e`.  With a mini-batch size of 0 the rate is infinite; the first training step then panics
because the batch is empty, so the value `x / 0 = 0` is never used. -/
noncomputable def produce (nn : NeuralNetwork) (noise : Nat → Nat → Nat → ℝ) (noiseBias : Nat → Nat → ℝ)
    (draws : Nat → Option (List Nat)) (sample : Sample ℝ) : Except Panic NNHypothesis :=
  match NNHypothesis.new noise noiseBias nn.task nn.dimensions nn.activations with
  | .error e => .error e
  | .ok f =>
    epochs (nn.learningRate / (nn.minibatchSize : ℝ)) nn.lossFunc sample nn.nIter
      ((List.range nn.nEpoch).map fun e => draws (e + 1)) f

end NeuralNetwork

end Miniboosts
