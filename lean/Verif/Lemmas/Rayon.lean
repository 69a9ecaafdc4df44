import Verif.Model.ParBoost
import Verif.Model.DecisionTree
import Verif.Lemmas.Basic

/-! Helper lemmas on the model of rayon: the result does not depend on the division of the work or on the interleaving. -/

namespace Miniboosts

open Real

variable {α β K : Type*}

namespace Split

theorem foldl_add_eq [AddMonoid K] (l : List K) (a : K) : l.foldl (fun a b => a + b) a = a + l.sum := by
  induction l generalizing a with
  | nil => simp
  | cons x l ih => simp [ih, add_assoc]

theorem sum_eq [AddMonoid K] (t : Split K) : t.sum (fun a b => a + b) 0 = t.items.sum := by
  induction t with
  | seq xs => simp [sum, foldWith, items, foldl_add_eq]
  | join l r ihl ihr =>
    simp only [sum, foldWith, items, List.sum_append] at *
    rw [ihl, ihr]

theorem collect_eq (f : α → β) (t : Split α) : t.collect f = t.items.map f := by
  induction t with
  | seq xs => rfl
  | join l r ihl ihr =>
    simp only [collect, foldWith, items, List.map_append] at *
    rw [ihl, ihr]

theorem optJoin_none_left (op : α → α → α) (o : Option α) : optJoin op none o = o := rfl

theorem optJoin_none_right (op : α → α → α) (o : Option α) : optJoin op o none = o := by cases o <;> rfl

theorem optJoin_assoc {op : α → α → α} (h : ∀ a b c, op (op a b) c = op a (op b c)) (a b c : Option α) :
    optJoin op (optJoin op a b) c = optJoin op a (optJoin op b c) := by
  cases a <;> cases b <;> cases c <;> simp [optJoin, h]

theorem foldl_optJoin {op : α → α → α} (h : ∀ a b c, op (op a b) c = op a (op b c)) (l : List α) (o : Option α) :
    l.foldl (fun o a => optJoin op o (some a)) o = optJoin op o (l.foldl (fun o a => optJoin op o (some a)) none) := by
  induction l generalizing o with
  | nil => simp [optJoin_none_right]
  | cons x l ih =>
    simp only [List.foldl_cons]
    rw [ih, ih (optJoin op none (some x)), optJoin_none_left, optJoin_assoc h]

/-- For an associative operation the result of `reduce_with` is that of the sequential reduction. -/
theorem reduceWith_eq {op : α → α → α} (h : ∀ a b c, op (op a b) c = op a (op b c)) (t : Split α) :
    t.reduceWith op = t.items.foldl (fun o a => optJoin op o (some a)) none := by
  induction t with
  | seq xs => rfl
  | join l r ihl ihr =>
    simp only [reduceWith, foldWith, items, List.foldl_append] at *
    rw [ihl, ihr, ← foldl_optJoin h]

theorem foldl_optJoin_some (op : α → α → α) (l : List α) (a : α) :
    l.foldl (fun o a => optJoin op o (some a)) (some a) = some (l.foldl op a) := by
  induction l generalizing a with
  | nil => rfl
  | cons x l ih => exact ih (op a x)

theorem minOp_assoc [LinearOrder K] (key : α → K) (a b c : α) :
    (fun a b => if key b < key a then b else a) ((fun a b => if key b < key a then b else a) a b) c
      = (fun a b => if key b < key a then b else a) a ((fun a b => if key b < key a then b else a) b c) := by
  rcases lt_or_ge (key b) (key a) with h1 | h1 <;> rcases lt_or_ge (key c) (key b) with h2 | h2 <;>
    rcases lt_or_ge (key c) (key a) with h3 | h3 <;>
    simp only [h1, h2, h3, not_lt.mpr, if_true, if_false] <;> first
    | rfl
    | exact absurd (lt_of_lt_of_le h3 (le_trans h1 h2)) (lt_irrefl _)
    | exact absurd (lt_of_le_of_lt h3 (lt_trans h2 h1)) (lt_irrefl _)

theorem maxOp_assoc [LinearOrder K] (key : α → K) (a b c : α) :
    (fun a b => if key b < key a then a else b) ((fun a b => if key b < key a then a else b) a b) c
      = (fun a b => if key b < key a then a else b) a ((fun a b => if key b < key a then a else b) b c) := by
  rcases lt_or_ge (key b) (key a) with h1 | h1 <;> rcases lt_or_ge (key c) (key b) with h2 | h2 <;>
    rcases lt_or_ge (key c) (key a) with h3 | h3 <;>
    simp only [h1, h2, h3, not_lt.mpr, if_true, if_false] <;> first
    | rfl
    | exact absurd (lt_of_lt_of_le h3 (le_trans h1 h2)) (lt_irrefl _)
    | exact absurd (lt_of_le_of_lt h3 (lt_trans h2 h1)) (lt_irrefl _)

theorem minBy_eq [LinearOrder K] (key : α → K) (t : Split α) : t.minBy key = Criterion.minBy key t.items := by
  unfold minBy
  rw [reduceWith_eq (minOp_assoc key)]
  cases t.items with
  | nil => rfl
  | cons a l =>
    simp only [List.foldl_cons, optJoin_none_left, Criterion.minBy]
    rw [foldl_optJoin_some]

theorem maxBy_eq [LinearOrder K] (key : α → K) (t : Split α) : t.maxBy key = Criterion.maxBy key t.items := by
  unfold maxBy
  rw [reduceWith_eq (maxOp_assoc key)]
  cases t.items with
  | nil => rfl
  | cons a l =>
    simp only [List.foldl_cons, optJoin_none_left, Criterion.maxBy]
    rw [foldl_optJoin_some]

end Split

namespace Ev

/-- What an event does to the content and the register of its own cell. -/
def cellStep (f : Nat → α → α) (p : Option α × Option α) : Ev → Option α × Option α
  | load _ => (p.1, p.1)
  | store i => match p.2 with
    | none => p
    | some a => (p.1.map fun _ => f i a, p.2)

theorem step_same (f : Nat → α → α) (m : Mem α) (e : Ev) :
    ((step f m e).1[e.cell]?, (step f m e).2 e.cell) = cellStep f (m.1[e.cell]?, m.2 e.cell) e := by
  cases e with
  | load i => simp [step, cell, cellStep]
  | store i =>
    simp only [step, cell, cellStep]
    cases h : m.2 i with
    | none => simp [h]
    | some a =>
      simp only [h, Prod.mk.injEq, and_true]
      rw [List.getElem?_set]
      by_cases hi : i < m.1.length
      · simp [hi]
      · simp [hi]

theorem step_other (f : Nat → α → α) (m : Mem α) (e : Ev) (j : Nat) (hj : e.cell ≠ j) :
    ((step f m e).1[j]?, (step f m e).2 j) = (m.1[j]?, m.2 j) := by
  cases e with
  | load i =>
    have : ¬ j = i := fun h => hj (by simp [cell, h])
    simp [step, this]
  | store i =>
    simp only [step]
    cases h : m.2 i with
    | none => rfl
    | some a =>
      have : i ≠ j := hj
      simp [List.getElem?_set, this]

/-- The final content of a cell depends only on the events that touch it. -/
theorem foldl_cell (f : Nat → α → α) (evs : List Ev) (m : Mem α) (j : Nat) :
    ((evs.foldl (step f) m).1[j]?, (evs.foldl (step f) m).2 j)
      = (evs.filter fun e => decide (e.cell = j)).foldl (cellStep f) (m.1[j]?, m.2 j) := by
  induction evs generalizing m with
  | nil => rfl
  | cons e evs ih =>
    simp only [List.foldl_cons]
    rw [ih]
    by_cases h : e.cell = j
    · subst h
      rw [step_same]
      simp
    · rw [step_other f m e j h]
      simp [h]

theorem forEach_getElem? {f : Nat → α → α} {n : Nat} {evs : List Ev} (h : Interleaving n evs) (v : List α) (i : Nat) :
    (forEach f evs v)[i]? = if i < n then v[i]?.map (f i) else v[i]? := by
  have hc := congrArg Prod.fst (foldl_cell f evs (v, fun _ => none) i)
  simp only at hc
  unfold forEach
  rw [hc]
  by_cases hi : i < n
  · rw [h.1 i hi]
    simp only [List.foldl_cons, List.foldl_nil, cellStep, hi, if_true]
    cases v[i]? <;> rfl
  · have : (evs.filter fun e => decide (e.cell = i)) = [] := by
      rw [List.filter_eq_nil_iff]
      intro e he
      have := h.2 e he
      simp only [decide_eq_true_eq]
      omega
    rw [this]
    simp [hi]

/-- One interleaving: the cells one after the other. -/
theorem interleaving_range (n : Nat) : Interleaving n ((List.range n).flatMap fun i => [load i, store i]) := by
  constructor
  · intro i hi
    rw [List.filter_flatMap]
    have : ∀ m, ((List.range m).flatMap fun j => List.filter (fun e : Ev => decide (e.cell = i)) [load j, store j])
        = if i < m then [load i, store i] else [] := by
      intro m
      induction m with
      | zero => simp
      | succ m ih =>
        rw [List.range_succ, List.flatMap_append, ih]
        by_cases h1 : i < m
        · have h2 : ¬ m = i := by omega
          have h3 : i < m + 1 := by omega
          simp [h1, h3, cell, h2]
        · by_cases h2 : m = i
          · subst h2; simp [cell]
          · have h3 : ¬ i < m + 1 := by omega
            simp [h1, h3, cell, h2]
    rw [this]; simp [hi]
  · intro e he
    simp only [List.mem_flatMap, List.mem_range] at he
    obtain ⟨i, hi, he⟩ := he
    simp at he
    rcases he with rfl | rfl <;> exact hi

end Ev

theorem updateZip_getElem? (f : α → β → α) (v : List α) (w : List β) (i : Nat) :
    (updateZip f v w)[i]? = match w[i]? with | some b => v[i]?.map fun a => f a b | none => v[i]? := by
  induction v generalizing w i with
  | nil => cases w <;> cases h : (_ : List β)[i]? <;> simp [updateZip]
  | cons a v ih =>
    cases w with
    | nil => simp [updateZip]
    | cons b w =>
      cases i with
      | zero => simp [updateZip]
      | succ i => simp [updateZip, ih]

theorem parUpdate_iff (f : α → β → α) (v : List α) (w : List β) (r : List α) : ParUpdate f v w r ↔ r = updateZip f v w := by
  have key : ∀ evs, Ev.Interleaving (min v.length w.length) evs →
      Ev.forEach (fun i a => match w[i]? with | some b => f a b | none => a) evs v = updateZip f v w := by
    intro evs h
    apply List.ext_getElem?
    intro i
    rw [Ev.forEach_getElem? h, updateZip_getElem?]
    by_cases hv : i < v.length
    · by_cases hw : i < w.length
      · simp [hv, hw]
      · have : w[i]? = none := by simp; omega
        simp [hw, this]
    · have : v[i]? = none := by simp; omega
      rw [this]
      cases w[i]? <;> simp
  constructor
  · rintro ⟨evs, h, rfl⟩; exact key evs h
  · rintro rfl; exact ⟨_, Ev.interleaving_range _, (key _ (Ev.interleaving_range _)).symm⟩

theorem parMap_iff (f : α → α) (v r : List α) : ParMap f v r ↔ r = v.map f := by
  have key : ∀ evs, Ev.Interleaving v.length evs → Ev.forEach (fun _ a => f a) evs v = v.map f := by
    intro evs h
    apply List.ext_getElem?
    intro i
    rw [Ev.forEach_getElem? h]
    by_cases hv : i < v.length
    · simp [hv]
    · simp [hv]
  constructor
  · rintro ⟨evs, h, rfl⟩; exact key evs h
  · rintro rfl; exact ⟨_, Ev.interleaving_range _, (key _ (Ev.interleaving_range _)).symm⟩

theorem updateZip_eq_zipWith (f : α → β → α) (v : List α) (w : List β) (h : v.length ≤ w.length) :
    updateZip f v w = List.zipWith f v w := by
  induction v generalizing w with
  | nil => cases w <;> simp [updateZip]
  | cons a v ih =>
    cases w with
    | nil => simp at h
    | cons b w => simp [updateZip, ih w (by simpa using h)]

theorem parInner_iff (v1 v2 : List ℝ) (r : ℝ) : ParInner v1 v2 r ↔ r = innerProduct v1 v2 := by
  constructor
  · rintro ⟨t, ht, rfl⟩
    rw [Split.sum_eq, ht]; rfl
  · rintro rfl
    exact ⟨.seq _, rfl, by rw [Split.sum_eq]; rfl⟩

theorem foldl_getD (v : List ℝ) (is : List Nat) (a : ℝ) :
    is.foldl (fun a j => logAddExp a (v.getD j 0)) a = (is.map fun j => v.getD j 0).foldl logAddExp a := by
  rw [List.foldl_map]

theorem map_getD_range (v : List ℝ) : (List.range v.length).map (fun j => v.getD j 0) = v := by
  apply List.ext_getElem?
  intro i
  by_cases h : i < v.length
  · simp [h]
  · simp [h]

/-- The normaliser does not depend on the order in which an unstable sort leaves equal values (nor on the order at all). -/
theorem normalizerOf_eq (v : List ℝ) (idx : List Nat) (h : idx.Perm (List.range v.length)) : normalizerOf v idx = logSumExpSorted v := by
  have hp : (idx.map fun j => v.getD j 0).Perm v := by
    have := h.map fun j => v.getD j 0
    rwa [map_getD_range] at this
  cases idx with
  | nil =>
    have : v = [] := by simpa using hp
    subst this; simp [normalizerOf, logSumExpSorted]
  | cons i is =>
    have hv : v ≠ [] := by rintro rfl; simp at h
    obtain ⟨z, hz, hez⟩ := logSumExpSorted_eq v hv
    rw [hz]
    simp only [normalizerOf, Option.some.injEq]
    apply exp_injective
    rw [foldl_getD, exp_foldl_logAddExp, hez]
    have := (hp.map exp).sum_eq
    simpa using this

/-- Some order of the indices is ascending. -/
theorem exists_sortedIndices [LinearOrder K] (v : List K) : ∃ idx, SortedIndices v idx := by
  let g : Nat → WithBot K := fun i => match v[i]? with | some a => (a : WithBot K) | none => ⊥
  refine ⟨(List.range v.length).mergeSort fun i j => decide (g i ≤ g j), List.mergeSort_perm _ _, ?_⟩
  have := List.pairwise_mergeSort (le := fun i j => decide (g i ≤ g j))
    (by intro a b c h1 h2; simp only [decide_eq_true_eq] at *; exact le_trans h1 h2)
    (by intro a b; simp only [Bool.or_eq_true, decide_eq_true_eq]; exact le_total _ _) (List.range v.length)
  refine this.imp ?_
  intro i j hij a b ha hb
  simp only [decide_eq_true_eq, g, ha, hb] at hij
  exact WithBot.coe_le_coe.mp hij

theorem parReweight_iff (d m : List ℝ) (w : ℝ) (r : Except Panic (List ℝ)) (h : d.length ≤ m.length) :
    ParReweight d m w r ↔ r = reweight d m w := by
  unfold ParReweight reweight
  simp only [parUpdate_iff, updateZip_eq_zipWith _ _ _ h]
  constructor
  · rintro ⟨ld, idx, rfl, hs, hr⟩
    rw [normalizerOf_eq _ _ hs.1] at hr
    cases hz : logSumExpSorted (List.zipWith (fun d p => log d - w * p) d m) with
    | none => rw [hz] at hr; simpa [hz] using hr
    | some z =>
      rw [hz] at hr
      obtain ⟨new, hn, rfl⟩ := hr
      rw [parMap_iff] at hn
      simp [hn]
  · rintro rfl
    obtain ⟨idx, hs⟩ := exists_sortedIndices (List.zipWith (fun d p => log d - w * p) d m)
    refine ⟨_, idx, rfl, hs, ?_⟩
    rw [normalizerOf_eq _ _ hs.1]
    cases hz : logSumExpSorted (List.zipWith (fun d p => log d - w * p) d m) with
    | none => simp
    | some z => exact ⟨_, (parMap_iff _ _ _).mpr rfl, by simp⟩

end Miniboosts
