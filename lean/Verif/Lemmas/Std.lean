import Verif.Model.Std
import Mathlib.Tactic.Ring
import Mathlib.Data.List.Basic
import Mathlib.Data.List.Nodup

namespace Miniboosts

section BinarySearch
variable {α : Type*}

/-- The slice is ordered for the comparator: `Less … Less, Equal … Equal, Greater … Greater`. -/
def CmpSorted (cmp : α → Ordering) (l : List α) : Prop :=
  l.Pairwise fun a b => (cmp a = .gt → cmp b = .gt) ∧ (cmp b = .lt → cmp a = .lt)

theorem bsLoop_spec (cmp : Nat → Ordering) (n : Nat)
    (hm : ∀ i j, i < j → j < n → cmp i = .gt → cmp j = .gt) :
    ∀ fuel size base, size ≤ fuel + 1 → 0 < size → base + size ≤ n →
      (∀ j, base + size ≤ j → j < n → cmp j = .gt) → (base = 0 ∨ cmp base ≠ .gt) →
      (bsLoop cmp fuel size base < n) ∧
      (∀ j, bsLoop cmp fuel size base < j → j < n → cmp j = .gt) ∧
      (bsLoop cmp fuel size base = 0 ∨ cmp (bsLoop cmp fuel size base) ≠ .gt) := by
  intro fuel
  induction fuel with
  | zero =>
    intro size base h1 h2 h3 h4 h5
    have : size = 1 := by omega
    subst this
    refine ⟨by simp only [bsLoop]; omega, ?_, by simpa [bsLoop] using h5⟩
    intro j hj hjn
    exact h4 j (by simp only [bsLoop] at hj; omega) hjn
  | succ fuel ih =>
    intro size base h1 h2 h3 h4 h5
    by_cases hs : 1 < size
    · have hhalf : 0 < size / 2 := by omega
      have hlt : size / 2 < size := by omega
      simp only [bsLoop, hs, if_true]
      by_cases hc : cmp (base + size / 2) = .gt
      · simp only [hc, if_true]
        refine ih _ _ (by omega) (by omega) (by omega) ?_ h5
        intro j hj hjn
        by_cases hj' : j = base + size / 2
        · rw [hj']; exact hc
        · exact hm _ _ (by omega) hjn hc
      · simp only [hc, if_false]
        refine ih _ _ (by omega) (by omega) (by omega) ?_ (Or.inr hc)
        intro j hj hjn
        exact h4 j (by omega) hjn
    · have : size = 1 := by omega
      subst this
      simp only [bsLoop, lt_irrefl, if_false]
      exact ⟨by omega, fun j hj hjn => h4 j (by omega) hjn, h5⟩

theorem cmpAt_eq {cmp : α → Ordering} {l : List α} {i : Nat} {a : α} (h : l[i]? = some a) :
    cmpAt cmp l i = cmp a := by simp [cmpAt, h]

/-- A found position holds an equal element. -/
theorem binarySearchBy_some {cmp : α → Ordering} {l : List α} {i : Nat}
    (h : binarySearchBy cmp l = some i) : ∃ a, l[i]? = some a ∧ cmp a = .eq := by
  unfold binarySearchBy at h
  split at h
  · cases h
  · split at h
    · rename_i hc
      injection h with h
      subst h
      unfold cmpAt at hc
      split at hc
      · rename_i a ha; exact ⟨a, ha, hc⟩
      · cases hc
    · cases h

/-- An ordered slice with an equal element: it is found. -/
theorem binarySearchBy_found {cmp : α → Ordering} {l : List α} (hs : CmpSorted cmp l)
    (h : ∃ a ∈ l, cmp a = .eq) : ∃ i a, binarySearchBy cmp l = some i ∧ l[i]? = some a ∧ cmp a = .eq := by
  obtain ⟨a, ha, hae⟩ := h
  have hne : l ≠ [] := by rintro rfl; cases ha
  have hpos : 0 < l.length := List.length_pos_of_ne_nil hne
  have hp := List.pairwise_iff_getElem.mp hs
  have hm : ∀ i j, i < j → j < l.length → cmpAt cmp l i = .gt → cmpAt cmp l j = .gt := by
    intro i j hij hj hi
    have h1 : l[i]? = some l[i] := List.getElem?_eq_getElem (by omega)
    have h2 : l[j]? = some l[j] := List.getElem?_eq_getElem hj
    rw [cmpAt_eq h1] at hi
    rw [cmpAt_eq h2]
    exact (hp i j (by omega) hj hij).1 hi
  have hm' : ∀ i j, i < j → j < l.length → cmpAt cmp l j = .lt → cmpAt cmp l i = .lt := by
    intro i j hij hj hi
    have h1 : l[i]? = some l[i] := List.getElem?_eq_getElem (by omega)
    have h2 : l[j]? = some l[j] := List.getElem?_eq_getElem hj
    rw [cmpAt_eq h2] at hi
    rw [cmpAt_eq h1]
    exact (hp i j (by omega) hj hij).2 hi
  obtain ⟨hb1, hb2, hb3⟩ := bsLoop_spec (cmpAt cmp l) l.length hm l.length l.length 0 (by omega) hpos
    (by omega) (fun j hj hjn => by omega) (Or.inl rfl)
  set b := bsLoop (cmpAt cmp l) l.length l.length 0 with hb
  obtain ⟨i, hi, hia⟩ := List.getElem_of_mem ha
  have hci : cmpAt cmp l i = .eq := by
    rw [cmpAt_eq (List.getElem?_eq_getElem hi), hia]; exact hae
  have heq : cmpAt cmp l b = .eq := by
    rcases lt_trichotomy i b with h1 | h1 | h1
    · cases hc : cmpAt cmp l b with
      | eq => rfl
      | lt => have := hm' i b h1 hb1 hc; rw [hci] at this; cases this
      | gt =>
        rcases hb3 with h0 | h0
        · omega
        · exact absurd hc h0
    · rw [← h1]; exact hci
    · have := hb2 i h1 hi; rw [hci] at this; cases this
  have hres : binarySearchBy cmp l = some b := by
    unfold binarySearchBy
    split
    · exact absurd rfl hne
    · rw [← hb, if_pos heq]
  obtain ⟨a', h1, h2⟩ := binarySearchBy_some hres
  exact ⟨b, a', hres, h1, h2⟩

/-- No equal element: not found. -/
theorem binarySearchBy_none {cmp : α → Ordering} {l : List α} (h : ∀ a ∈ l, cmp a ≠ .eq) :
    binarySearchBy cmp l = none := by
  cases hb : binarySearchBy cmp l with
  | none => rfl
  | some i =>
    obtain ⟨a, h1, h2⟩ := binarySearchBy_some hb
    exact absurd h2 (h a (List.mem_of_getElem? h1))

end BinarySearch

section HashMap
variable {α β : Type*} [DecidableEq α]

theorem HMap.get?_insert (m : List (α × β)) (k k' : α) (v : β) :
    HMap.get? (HMap.insert m k v) k' = if k = k' then some v else HMap.get? m k' := by
  induction m with
  | nil => simp [HMap.insert, HMap.get?]
  | cons p m ih =>
    obtain ⟨a, b⟩ := p
    unfold HMap.insert
    by_cases h : a = k
    · subst h
      simp only [if_true]
      unfold HMap.get?
      by_cases h2 : a = k' <;> simp [h2]
    · simp only [h, if_false]
      unfold HMap.get?
      by_cases h2 : a = k'
      · subst h2
        simp [Ne.symm h]
      · simp [h2, ih]

theorem HMap.get?_eq_some_mem {m : List (α × β)} {k : α} {v : β} (h : HMap.get? m k = some v) :
    (k, v) ∈ m := by
  induction m with
  | nil => cases h
  | cons p m ih =>
    obtain ⟨a, b⟩ := p
    unfold HMap.get? at h
    by_cases h2 : a = k
    · simp only [h2, if_true, Option.some.injEq] at h
      subst h2; subst h; simp
    · simp only [h2, if_false] at h
      exact List.mem_cons_of_mem _ (ih h)

theorem HMap.insert_of_notMem {m : List (α × β)} {k : α} (v : β) (h : k ∉ m.map Prod.fst) :
    HMap.insert m k v = m ++ [(k, v)] := by
  induction m with
  | nil => rfl
  | cons p m ih =>
    obtain ⟨a, b⟩ := p
    simp only [List.map_cons, List.mem_cons, not_or] at h
    simp only [HMap.insert, Ne.symm h.1, if_false, ih h.2, List.cons_append]

/-- Without repeated keys `collect` keeps the entries in order. -/
theorem HMap.collect_of_nodup {l : List (α × β)} (h : (l.map Prod.fst).Nodup) :
    HMap.collect l = l := by
  have gen : ∀ (l acc : List (α × β)), ((acc ++ l).map Prod.fst).Nodup →
      l.foldl (fun m p => HMap.insert m p.1 p.2) acc = acc ++ l := by
    intro l
    induction l with
    | nil => intro acc _; simp
    | cons p l ih =>
      intro acc hn
      simp only [List.foldl_cons]
      have hnot : p.1 ∉ acc.map Prod.fst := by
        rw [List.map_append, List.map_cons] at hn
        intro hm
        have := (List.nodup_append.mp hn).2.2
        exact this _ hm _ (by simp) rfl
      rw [HMap.insert_of_notMem _ hnot, ih _ (by simpa using hn)]
      simp
  simpa [HMap.collect] using gen l [] (by simpa using h)

theorem HMap.get?_of_nodup {m : List (α × β)} (hn : (m.map Prod.fst).Nodup) {k : α} {v : β}
    (h : (k, v) ∈ m) : HMap.get? m k = some v := by
  induction m with
  | nil => cases h
  | cons p m ih =>
    obtain ⟨a, b⟩ := p
    simp only [List.map_cons, List.nodup_cons] at hn
    unfold HMap.get?
    rcases List.mem_cons.mp h with h | h
    · cases h; simp
    · have : a ≠ k := by
        rintro rfl
        exact hn.1 (List.mem_map.mpr ⟨_, h, rfl⟩)
      simp [this, ih hn.2 h]

theorem HMap.get?_eq_none_iff {m : List (α × β)} {k : α} :
    HMap.get? m k = none ↔ k ∉ m.map Prod.fst := by
  induction m with
  | nil => simp [HMap.get?]
  | cons p m ih =>
    obtain ⟨a, b⟩ := p
    unfold HMap.get?
    by_cases h : a = k
    · simp [h]
    · have h' : k ≠ a := fun e => h e.symm
      simp only [h, if_false, ih, List.map_cons, List.mem_cons, h', false_or]

variable {K : Type*} [Field K]

theorem HMap.get?_addTo (m : List (α × K)) (k k' : α) (w : K) :
    (HMap.get? (HMap.addTo m k w) k').getD 0 = (HMap.get? m k').getD 0 + (if k = k' then w else 0) := by
  induction m with
  | nil =>
    simp only [HMap.addTo, HMap.get?]
    by_cases h : k = k' <;> simp [h]
  | cons p m ih =>
    obtain ⟨a, b⟩ := p
    unfold HMap.addTo
    by_cases h : a = k
    · subst h
      simp only [if_true]
      unfold HMap.get?
      by_cases h2 : a = k' <;> simp [h2]
    · simp only [h, if_false]
      unfold HMap.get?
      by_cases h2 : a = k'
      · subst h2; simp [Ne.symm h]
      · simp [h2, ih]

theorem HMap.total_addTo (m : List (α × K)) (k : α) (w : K) :
    HMap.total (HMap.addTo m k w) = HMap.total m + w := by
  induction m with
  | nil => simp [HMap.addTo, HMap.total]
  | cons p m ih =>
    obtain ⟨a, b⟩ := p
    unfold HMap.addTo
    by_cases h : a = k
    · simp only [h, if_true, HMap.total, List.map_cons, List.sum_cons]; ring
    · simp only [h, if_false, HMap.total, List.map_cons, List.sum_cons]
      have := ih; simp only [HMap.total] at this
      rw [this]; ring

theorem HMap.keys_addTo (m : List (α × K)) (k : α) (w : K) :
    (HMap.addTo m k w).map Prod.fst = if k ∈ m.map Prod.fst then m.map Prod.fst else m.map Prod.fst ++ [k] := by
  induction m with
  | nil => simp [HMap.addTo]
  | cons p m ih =>
    obtain ⟨a, b⟩ := p
    unfold HMap.addTo
    by_cases h : a = k
    · simp [h]
    · have h' : k ≠ a := fun e => h e.symm
      simp only [h, if_false, List.map_cons, ih, List.mem_cons, h', false_or]
      split <;> simp

theorem HMap.nodup_addTo {m : List (α × K)} (hn : (m.map Prod.fst).Nodup) (k : α) (w : K) :
    ((HMap.addTo m k w).map Prod.fst).Nodup := by
  rw [HMap.keys_addTo]
  split
  · exact hn
  · rename_i h
    exact List.nodup_append.mpr ⟨hn, by simp, by rintro a ha b hb rfl; simp at hb; subst hb; exact h ha⟩

theorem HMap.mem_addTo_pos [LinearOrder K] [IsStrictOrderedRing K] {m : List (α × K)} (hm : ∀ p ∈ m, 0 < p.2)
    (k : α) {w : K} (hw : 0 < w) : ∀ p ∈ HMap.addTo m k w, 0 < p.2 := by
  induction m with
  | nil => simpa [HMap.addTo] using hw
  | cons p m ih =>
    obtain ⟨a, b⟩ := p
    unfold HMap.addTo
    have hb : 0 < b := hm (a, b) (by simp)
    split
    · intro q hq
      rcases List.mem_cons.mp hq with rfl | hq
      · exact add_pos hb hw
      · exact hm q (List.mem_cons_of_mem _ hq)
    · intro q hq
      rcases List.mem_cons.mp hq with rfl | hq
      · exact hb
      · exact ih (fun q hq => hm q (List.mem_cons_of_mem _ hq)) q hq

end HashMap

end Miniboosts
