import Verif.Model.Core

/-! # The parts of Rust's standard library the sample and tree code relies on

`HashMap` and `binary_search_by`.  A hash map is an association list without repeated keys; its iteration
order is not fixed by the library, so theorems about code iterating over a map quantify over the order or
are about order-independent results. -/

namespace Miniboosts

section HashMap
variable {α β : Type*} [DecidableEq α]

/-- `HashMap::get`. -/
def HMap.get? (m : List (α × β)) (k : α) : Option β :=
  match m with
  | [] => none
  | (k', v) :: m => if k' = k then some v else HMap.get? m k

/-- `HashMap::insert` (also each step of `collect::<HashMap<_, _>>()`): overwrites an existing entry. -/
def HMap.insert (m : List (α × β)) (k : α) (v : β) : List (α × β) :=
  match m with
  | [] => [(k, v)]
  | (k', v') :: m => if k' = k then (k, v) :: m else (k', v') :: HMap.insert m k v

/-- `HashMap::remove`. -/
def HMap.remove (m : List (α × β)) (k : α) : List (α × β) := m.filter (fun p => decide (p.1 ≠ k))

/-- `iter.collect::<HashMap<_, _>>()`. -/
def HMap.collect (l : List (α × β)) : List (α × β) := l.foldl (fun m p => HMap.insert m p.1 p.2) []

variable {K : Type*} [Field K]

/-- `*map.entry(k).or_insert(0.0) += w`. -/
def HMap.addTo (m : List (α × K)) (k : α) (w : K) : List (α × K) :=
  match m with
  | [] => [(k, 0 + w)]
  | (k', v) :: m => if k' = k then (k', v + w) :: m else (k', v) :: HMap.addTo m k w

/-- `map.values().sum()`. -/
def HMap.total (m : List (α × K)) : K := (m.map Prod.snd).sum

end HashMap

section BinarySearch
variable {α : Type*}

/-- The loop of `[T]::binary_search_by` in `core::slice`:
`while size > 1 { let half = size / 2; let mid = base + half; base = if cmp(mid) == Greater { base } else { mid };
size -= half; }`.  `fuel` (the length of the slice) always suffices since `size` decreases. -/
def bsLoop (cmp : Nat → Ordering) : Nat → Nat → Nat → Nat
  | 0, _, base => base
  | fuel + 1, size, base =>
    if 1 < size then
      bsLoop cmp fuel (size - size / 2) (if cmp (base + size / 2) = .gt then base else base + size / 2)
    else base

/-- The comparison of the element at a position with the target; positions out of range are never asked for. -/
def cmpAt (cmp : α → Ordering) (l : List α) (i : Nat) : Ordering :=
  match l[i]? with
  | some a => cmp a
  | none => .gt

/-- `[T]::binary_search_by(cmp).ok()`: `some pos` for `Ok(pos)` and `none` for `Err(_)`. -/
def binarySearchBy (cmp : α → Ordering) (l : List α) : Option Nat :=
  match l with
  | [] => none
  | _ =>
    if cmpAt cmp l (bsLoop (cmpAt cmp l) l.length l.length 0) = .eq then
      some (bsLoop (cmpAt cmp l) l.length l.length 0)
    else none

end BinarySearch

end Miniboosts
