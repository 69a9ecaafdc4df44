import Verif.Model.DecisionTree

/-! # `src/weak_learner/bad_learner/` -/

namespace Miniboosts

variable {K : Type*} [Field K] [LinearOrder K]

/-- `BadClassifier`, `src/weak_learner/bad_learner/worstcase_classifier.rs:10-16`.  The tag (an `i8` that is only ever
0, 1 or 2) is a natural number. -/
structure BadClassifier (K : Type*) where
  tag : Nat
  index : Nat
  shift : Nat
  gap : K
  eps : K
  deriving DecidableEq

/-- `impl Classifier for BadClassifier`, `src/weak_learner/bad_learner/worstcase_classifier.rs:53-81`.  The only
things the hypothesis reads from an example are its row number and its label. -/
def BadClassifier.value (h : BadClassifier K) (row : Nat) (y : K) : K :=
  if h.tag = 0 then
    if row < h.index then 1 * y
    else if h.index ≤ row ∧ row < h.index + h.shift then (-1 + 2 * h.eps) * y
    else (-1 + 3 * h.eps) * y
  else if h.tag = 1 then
    if h.index ≤ row ∧ row < h.index + h.shift then 1 * y
    else if h.index + h.shift ≤ row ∧ row < h.index + h.shift + h.shift then (-1 + (h.gap - 1) * h.eps) * y
    else (-1 + h.gap * h.eps) * y
  else if row < h.index then (-1 + h.eps) * y
  else (1 - h.eps) * y

/-- The hypothesis as a classifier: an example is its row number together with its label. -/
instance : Classifier (BadClassifier K) (Nat × K) K where
  conf h x := h.value x.1 x.2

/-- A sample with the labels `target` as this hypothesis sees it. -/
def numbered (target : List K) : Examples (Nat × K) K := target.mapIdx fun i y => ((i, y), y)

/-- `BadBaseLearner`, `src/weak_learner/bad_learner/worstcase_lpboost.rs:11-14`. -/
structure BadBaseLearner (K : Type*) where
  classifiers : List (BadClassifier K)

namespace BadBaseLearner

/-- The loop of `BadBaseLearner::new`, `src/weak_learner/bad_learner/worstcase_lpboost.rs:30-43`: `count` more rounds,
the next one being round `k`; `gap` is the gap before the round.  Returns the classifiers pushed and the last gap. -/
def middle (half shift : Nat) (tol : K) : Nat → Nat → K → Except Panic (List (BadClassifier K) × K)
  | 0, _, gap => .ok ([], gap)
  | count + 1, k, gap =>
    if tol * (gap + 2) ≤ 1 then
      match middle half shift tol count (k + 1) (gap + 2) with
      | .error e => .error e
      | .ok (cs, g) => .ok (⟨1, half + k, shift, gap + 2, tol⟩ :: cs, g)
    else .error .assertion

/-- `BadBaseLearner::new`, `src/weak_learner/bad_learner/worstcase_lpboost.rs:19-48`.  For an empty sample `half - 1`
underflows. -/
def new [FloorRing K] (nSample : Nat) (tolerance nu : K) : Except Panic (BadBaseLearner K) :=
  let half := (nSample + 1) / 2
  let tol := tolerance / (2 * (nSample : K))
  let shift := ⌈nu⌉.toNat
  if half = 0 then .error .arith
  else
    match middle half shift tol (half - 1) 0 3 with
    | .error e => .error e
    | .ok (cs, gap) => .ok ⟨[⟨0, half, shift, 3, tol⟩] ++ cs ++ [⟨2, half, shift, gap, tol⟩]⟩

/-- `BadBaseLearner::produce`, `src/weak_learner/bad_learner/worstcase_lpboost.rs:60-72`: `max_by` keeps the last
maximum. -/
def produce (b : BadBaseLearner K) (target dist : List K) : Except Panic (BadClassifier K) :=
  match Criterion.maxBy (fun p : K × BadClassifier K => p.1)
      (b.classifiers.map fun h => (edge (numbered target) dist h, h)) with
  | none => .error .unwrapNone
  | some p => .ok p.2

end BadBaseLearner

/-- `BadBaseLearnerBuilder`, `src/weak_learner/bad_learner/builder.rs:11-19`. -/
structure BadBaseLearnerBuilder (K : Type*) where
  nSample : Nat
  tolerance : K
  nu : K

namespace BadBaseLearnerBuilder

/-- `BadBaseLearnerBuilder::new`, `src/weak_learner/bad_learner/builder.rs:24-31` (constants: lines 6-7). -/
def new (target : List K) : BadBaseLearnerBuilder K := ⟨target.length, 1 / 1000000000, 1⟩

/-- `BadBaseLearnerBuilder::tolerance`, `src/weak_learner/bad_learner/builder.rs:36-39`. -/
def setTolerance (b : BadBaseLearnerBuilder K) (tolerance : K) : BadBaseLearnerBuilder K :=
  { b with tolerance := tolerance }

/-- `BadBaseLearnerBuilder::nu`, `src/weak_learner/bad_learner/builder.rs:44-51`: the range excludes `n_sample`. -/
def setNu (b : BadBaseLearnerBuilder K) (nu : K) : Except Panic (BadBaseLearnerBuilder K) :=
  if 1 ≤ nu ∧ nu < (b.nSample : K) then .ok { b with nu := nu } else .error .assertion

/-- `BadBaseLearnerBuilder::build`, `src/weak_learner/bad_learner/builder.rs:55-57`. -/
def build [FloorRing K] (b : BadBaseLearnerBuilder K) : Except Panic (BadBaseLearner K) :=
  BadBaseLearner.new b.nSample b.tolerance b.nu

end BadBaseLearnerBuilder

end Miniboosts
