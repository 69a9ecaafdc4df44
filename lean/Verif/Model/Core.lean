import Mathlib.Algebra.Order.Field.Basic
import Mathlib.Algebra.BigOperators.Group.List.Basic

/-!
# Core vocabulary of the model

`f64` is modelled by exact arithmetic (a linearly ordered field, or `ℝ` where `exp`/`ln` are used),
`usize` by `Nat`, `Vec<T>`/slices by `List T`, and a panic by an explicit error value.
-/

namespace Miniboosts

/-- The ways a modelled function can panic (abort) in the Rust code. -/
inductive Panic where
  /-- an `assert!`, `assert_eq!`, `assert_ne!` or explicit `panic!` fired -/
  | assertion
  /-- slice/vector index out of range -/
  | outOfRange
  /-- `unwrap`/`expect` on `None`/`Err` -/
  | unwrapNone
  /-- arithmetic panic: `usize` underflow, division or remainder by zero on integers -/
  | arith
  /-- not a panic of the code itself: the code would go on computing with NaN or an infinity, which
  exact arithmetic cannot express; the model stops here instead -/
  | nonFinite
  /-- not a panic either: an inner loop of the code was not finished within the given fuel; the theorems show
  that some fuel always suffices -/
  | diverges
  deriving DecidableEq, Repr

/-- `std::ops::ControlFlow<usize, ()>` : `src/booster/core.rs:75-81`. -/
inductive Flow where
  | cont
  | brk (terminated : Nat)
  deriving DecidableEq, Repr

/-- The trait `Classifier`, reduced to its only required method `confidence`
(`src/hypothesis/hypothesis_traits.rs:6-11`).
Simplification: the pair `(sample, row)` is one value of type `X`. -/
class Classifier (H : Type*) (X : Type*) (K : outParam Type*) where
  conf : H → X → K

export Classifier (conf)

/-- The trait `Regressor` (`src/hypothesis/hypothesis_traits.rs:43-46`), same simplification. -/
class Regressor (H : Type*) (X : Type*) (K : outParam Type*) where
  pred : H → X → K

variable {K : Type*} [Field K] [LinearOrder K] {H X : Type*}

/-- `Classifier::predict`, `src/hypothesis/hypothesis_traits.rs:15-18`. -/
def predict [Classifier H X K] (h : H) (x : X) : Int :=
  if (0 : K) ≤ conf h x then 1 else -1

/-- `Classifier::confidence_all`, `src/hypothesis/hypothesis_traits.rs:22-26`;
`rows` lists the rows `0..n_sample` of the sample. -/
def confidenceAll [Classifier H X K] (h : H) (rows : List X) : List K :=
  rows.map (conf h)

/-- `Classifier::predict_all`, `src/hypothesis/hypothesis_traits.rs:30-35`. -/
def predictAll [Classifier H X K] (h : H) (rows : List X) : List Int :=
  rows.map (predict (K := K) h)

/-- A training sample as the boosting algorithms see it: row/label pairs in order.
Models `Sample` together with `Sample::target` (`src/sample/sample_struct.rs`); the columnar storage
is modelled separately in `Verif.Model.Sample`. -/
abbrev Examples (X : Type*) (K : Type*) := List (X × K)

/-- The weak learner: in the `k`-th call (1-based) it maps the weight vector to a hypothesis.
It is universally quantified in every theorem, so it stands for every (also stateful or random)
implementation of the trait `WeakLearner` (`src/weak_learner/core.rs:5-31`). -/
abbrev WeakLearner (K H : Type*) := Nat → List K → H

/-- What one call of `Booster::boost` produces: the new `self`, the returned control flow, and, as a
trace, the list of weight vectors it handed to the weak learner. -/
structure BoostOut (σ : Type*) (K : Type*) where
  state : σ
  flow : Flow
  queries : List (List K)

/-- The trait `Booster` (`src/booster/core.rs:28-92`), `&mut self` made explicit. -/
structure Booster (σ K H O : Type*) where
  preprocess : σ → WeakLearner K H → Except Panic σ
  boost : σ → WeakLearner K H → Nat → Except Panic (BoostOut σ K)
  postprocess : σ → Except Panic O

namespace Booster

variable {σ O : Type*}

/-- `(1..).try_for_each(|iter| self.boost(weak_learner, iter))`, `src/booster/core.rs:54-56`.
`fuel` bounds the number of calls of `boost`; `none` means "not finished within `fuel` calls".
The result is the state after the loop together with all the weight vectors handed out. -/
def loop (B : Booster σ K H O) (wl : WeakLearner K H) :
    Nat → σ → Nat → Option (Except Panic (σ × List (List K)))
  | 0, _, _ => none
  | fuel + 1, s, iter =>
    match B.boost s wl iter with
    | .error e => some (.error e)
    | .ok out =>
      match out.flow with
      | .brk _ => some (.ok (out.state, out.queries))
      | .cont =>
        (loop B wl fuel out.state (iter + 1)).map
          (fun r => r.map (fun p => (p.1, out.queries ++ p.2)))

/-- `Booster::run`, `src/booster/core.rs:46-58`. -/
def run (B : Booster σ K H O) (wl : WeakLearner K H) (fuel : Nat) (s : σ) :
    Option (Except Panic (O × List (List K))) :=
  match B.preprocess s wl with
  | .error e => some (.error e)
  | .ok s₀ =>
    match B.loop wl fuel s₀ 1 with
    | none => none
    | some (.error e) => some (.error e)
    | some (.ok (s₁, qs)) =>
      match B.postprocess s₁ with
      | .error e => some (.error e)
      | .ok o => some (.ok (o, qs))

/-- The states a booster object passes through between two calls of `boost` inside `run`:
`Reachable B wl s n qs s'` says that, started from `s`, preprocessing succeeded and the first `n`
calls of `boost` all returned `Continue`, handing the weight vectors `qs` to the weak learner and
leaving the state `s'`. -/
inductive Reachable (B : Booster σ K H O) (wl : WeakLearner K H) (s : σ) :
    Nat → List (List K) → σ → Prop
  | start {s₀} : B.preprocess s wl = .ok s₀ → Reachable B wl s 0 [] s₀
  | step {n qs s₁ out} : Reachable B wl s n qs s₁ → B.boost s₁ wl (n + 1) = .ok out →
      out.flow = .cont → Reachable B wl s (n + 1) (qs ++ out.queries) out.state

end Booster

end Miniboosts
