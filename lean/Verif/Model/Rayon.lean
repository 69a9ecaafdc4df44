import Verif.Model.Core

/-! # Rayon's parallel iterators

The rest of the model replaces a parallel iterator by its sequential result.  Here the executions rayon is allowed to choose are
modelled, so that this replacement can be justified: the items are divided into contiguous pieces by an arbitrary binary tree, each
piece is processed in order by one thread, and the partial results are joined from left to right (`bridge` with the consumers of
`sum`, `reduce_with` and `collect`); the updates of `par_iter_mut().for_each(..)` are interleaved arbitrarily, one load and one store
per cell. -/

namespace Miniboosts

variable {α β K : Type*}

/-- A division of the items of a parallel iterator: a piece processed by one thread, or two halves joined. -/
inductive Split (α : Type*) where
  | seq (xs : List α)
  | join (l r : Split α)

namespace Split

/-- The items, from left to right. -/
def items : Split α → List α
  | seq xs => xs
  | join l r => l.items ++ r.items

/-- Process the pieces with `leaf` and join the results with `op`. -/
def foldWith (leaf : List α → β) (op : β → β → β) : Split α → β
  | seq xs => leaf xs
  | join l r => op (l.foldWith leaf op) (r.foldWith leaf op)

/-- `.sum::<f64>()`, e.g. `src/common/utils.rs:281`: every piece is added up in order, starting from zero; `add` is the addition of the
machine (exact in `Props/Schedule.lean`, rounded in `Props/Rounding.lean`). -/
def sum (add : K → K → K) (zero : K) (t : Split K) : K := t.foldWith (fun xs => xs.foldl add zero) add

/-- `.map(f).collect::<Vec<_>>()`, e.g. `src/weak_learner/neural_network/layer.rs:58-61`. -/
def collect (f : α → β) (t : Split α) : List β := t.foldWith (List.map f) (fun a b => a ++ b)

/-- Joining the partial results of `reduce_with`. -/
def optJoin (op : α → α → α) : Option α → Option α → Option α
  | some a, some b => some (op a b)
  | some a, none => some a
  | none, b => b

/-- `.reduce_with(op)`. -/
def reduceWith (op : α → α → α) (t : Split α) : Option α :=
  t.foldWith (fun xs => xs.foldl (fun o a => optJoin op o (some a)) none) (optJoin op)

/-- `.min_by(|x, y| key(x).partial_cmp(&key(y)).unwrap())`, e.g. `src/weak_learner/decision_tree/criterion.rs:125`: rayon keeps the left
operand unless it is strictly greater. -/
def minBy [LinearOrder K] (key : α → K) (t : Split α) : Option α := t.reduceWith fun a b => if key b < key a then b else a

/-- `.max_by(|x, y| key(x).partial_cmp(&key(y)).unwrap())`, e.g. `src/weak_learner/decision_tree/criterion.rs:140`: rayon keeps the right
operand unless the left one is strictly greater. -/
def maxBy [LinearOrder K] (key : α → K) (t : Split α) : Option α := t.reduceWith fun a b => if key b < key a then a else b

end Split

/-- What the threads executing `v.par_iter_mut().for_each(|a| *a = f(*a))` do to cell `i`: read it into a register, or write the
result back. -/
inductive Ev where
  | load (i : Nat)
  | store (i : Nat)
  deriving DecidableEq

namespace Ev

/-- The cell an event touches. -/
def cell : Ev → Nat
  | load i => i
  | store i => i

/-- The memory and the register of every cell. -/
abbrev Mem (α : Type*) := List α × (Nat → Option α)

/-- One event; `f i` is the closure applied to cell `i` (the index gives access to the item zipped with it). -/
def step (f : Nat → α → α) (m : Mem α) : Ev → Mem α
  | load i => (m.1, fun j => if j = i then m.1[i]? else m.2 j)
  | store i =>
    match m.2 i with
    | none => m
    | some a => (m.1.set i (f i a), m.2)

/-- `v.par_iter_mut().for_each(..)`, e.g. `src/common/utils.rs:294-295`, executed in the given interleaving. -/
def forEach (f : Nat → α → α) (evs : List Ev) (v : List α) : List α := (evs.foldl (step f) (v, fun _ => none)).1

/-- The interleavings of the updates of `n` cells: for each of them one load and, later, one store; nothing else. -/
def Interleaving (n : Nat) (evs : List Ev) : Prop :=
  (∀ i, i < n → evs.filter (fun e => decide (e.cell = i)) = [load i, store i]) ∧ ∀ e ∈ evs, e.cell < n

end Ev

/-- The results `indices.sort_unstable_by(|&i, &j| v[i].partial_cmp(&v[j]).unwrap())` may leave for `indices = 0..n`, e.g.
`src/booster/adaboost/adaboost_algorithm.rs:216-220`: the indices in any order that is ascending in the values. -/
def SortedIndices [LinearOrder K] (v : List K) (idx : List Nat) : Prop :=
  idx.Perm (List.range v.length) ∧ idx.Pairwise fun i j => ∀ a b, v[i]? = some a → v[j]? = some b → a ≤ b

end Miniboosts
