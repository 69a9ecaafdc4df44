import Verif.Lemmas.Pack
import Mathlib.Tactic.LinearCombination
import Mathlib.Algebra.BigOperators.Field

set_option linter.unusedSectionVars false

namespace Miniboosts

open Spec

variable {K : Type*} [Field K] [LinearOrder K] [IsStrictOrderedRing K]

/-! ## More about maps -/

theorem HMap.keys_insert_of_mem {α β : Type*} [DecidableEq α] {m : List (α × β)} {k : α} {v : β} (h : k ∈ m.map Prod.fst) :
    (HMap.insert m k v).map Prod.fst = m.map Prod.fst := by
  induction m with
  | nil => simp at h
  | cons p m ih =>
    obtain ⟨a, b⟩ := p
    unfold HMap.insert
    by_cases h2 : a = k
    · simp [h2]
    · simp only [List.map_cons, List.mem_cons] at h
      rcases h with h | h
      · exact absurd h.symm h2
      · simp only [h2, if_false, List.map_cons, ih h]

theorem HMap.get?_remove {α β : Type*} [DecidableEq α] (m : List (α × β)) (k k' : α) :
    HMap.get? (HMap.remove m k) k' = if k = k' then none else HMap.get? m k' := by
  unfold HMap.remove
  induction m with
  | nil => simp [HMap.get?]
  | cons p m ih =>
    obtain ⟨a, b⟩ := p
    by_cases h : a = k
    · subst h
      simp only [List.filter_cons, ne_eq, not_true_eq_false, decide_false, Bool.false_eq_true, if_false] at ih ⊢
      rw [ih]
      by_cases h2 : a = k'
      · simp [h2]
      · simp [h2, HMap.get?]
    · simp only [List.filter_cons, ne_eq, h, not_false_eq_true, decide_true, if_true] at ih ⊢
      unfold HMap.get?
      rw [ih]
      by_cases h2 : a = k'
      · subst h2; simp [Ne.symm h]
      · simp [h2]

theorem HMap.nodup_remove {α β : Type*} [DecidableEq α] {m : List (α × β)} (h : (m.map Prod.fst).Nodup) (k : α) :
    ((HMap.remove m k).map Prod.fst).Nodup :=
  h.sublist (List.filter_sublist.map _)

theorem mapIs_insert {m : LabelMap K} {w : Int → K} (h : MapIs m w) {k : Int} {v : K} (hk : k ∈ m.map Prod.fst) :
    MapIs (HMap.insert m k v) (fun y => if k = y then v else w y) := by
  refine ⟨by rw [HMap.keys_insert_of_mem hk]; exact h.nodup, fun y => ?_⟩
  rw [HMap.get?_insert]
  by_cases hy : k = y
  · simp [hy]
  · simp only [hy, if_false]; exact h.val y

theorem mapIs_remove {m : LabelMap K} {w : Int → K} (h : MapIs m w) {k : Int} (hk : w k = 0) : MapIs (HMap.remove m k) w := by
  refine ⟨HMap.nodup_remove h.nodup k, fun y => ?_⟩
  rw [HMap.get?_remove]
  by_cases hy : k = y
  · subst hy; simp [hk]
  · simp only [hy, if_false]; exact h.val y

theorem mapIs_get {m : LabelMap K} {w : Int → K} (h : MapIs m w) {y : Int} (hy : w y ≠ 0) : HMap.get? m y = some (w y) := by
  have := h.val y
  cases hg : HMap.get? m y with
  | none => rw [hg] at this; exact absurd this.symm hy
  | some v => rw [hg] at this; simp at this; rw [this]

theorem get_mem_keys {m : LabelMap K} {y : Int} {v : K} (h : HMap.get? m y = some v) : y ∈ m.map Prod.fst := by
  by_contra hn
  rw [HMap.get?_eq_none_iff.mpr hn] at h; cases h

theorem sum_support {Y Z : Finset Int} {g : Int → K} (hY : ∀ y, g y ≠ 0 → y ∈ Y) (hZ : ∀ y, g y ≠ 0 → y ∈ Z) :
    ∑ y ∈ Y, g y = ∑ y ∈ Z, g y := by
  have e : ∀ {A B : Finset Int}, (∀ y, g y ≠ 0 → y ∈ A) → ∑ y ∈ A, g y = ∑ y ∈ A ∪ B, g y := by
    intro A B hA
    apply Finset.sum_subset Finset.subset_union_left
    intro y _ hy
    by_contra h; exact hy (hA y h)
  rw [e hY (B := Z), e hZ (B := Y), Finset.union_comm]

/-! ## Sums over rows -/

theorem rows_sum_label {rows : List (Row K)} {Y : Finset Int} (hY : ∀ r ∈ rows, r.lab ∈ Y) (P : Row K → Prop) [DecidablePred P]
    (g : Int → K) :
    ∑ y ∈ Y, g y * (rows.map (fun r => if P r ∧ r.lab = y then r.w else 0)).sum = (rows.map (fun r => if P r then g r.lab * r.w else 0)).sum := by
  induction rows with
  | nil => simp
  | cons r rows ih =>
    simp only [List.map_cons, List.sum_cons, mul_add, Finset.sum_add_distrib]
    rw [ih (fun s hs => hY s (List.mem_cons_of_mem _ hs))]
    congr 1
    by_cases hP : P r
    · simp only [hP, true_and, if_true, mul_ite, mul_zero]
      rw [Finset.sum_ite_eq, if_pos (hY r (by simp))]
    · simp [hP]

theorem mem_labels {rows : List (Row K)} : ∀ r ∈ rows, r.lab ∈ labels rows := by
  intro r hr
  simp only [labels, List.mem_toFinset]
  exact List.mem_map.mpr ⟨r, hr, rfl⟩

theorem rows_nonneg {rows : List (Row K)} (hw : ∀ r ∈ rows, 0 ≤ r.w) (P : Row K → Prop) [DecidablePred P] :
    0 ≤ (rows.map (fun r => if P r then r.w else 0)).sum := by
  apply List.sum_nonneg
  intro v hv
  obtain ⟨r, hr, rfl⟩ := List.mem_map.mp hv
  split
  · exact hw r hr
  · exact le_refl _

theorem rows_support {rows : List (Row K)} (P : Row K → Prop) [DecidablePred P] {y : Int}
    (h : (rows.map (fun r => if P r ∧ r.lab = y then r.w else 0)).sum ≠ 0) : y ∈ labels rows := by
  by_contra hn
  apply h
  apply List.sum_eq_zero
  intro v hv
  obtain ⟨r, hr, rfl⟩ := List.mem_map.mp hv
  have : r.lab ≠ y := by rintro rfl; exact hn (mem_labels r hr)
  simp [this]

theorem below_nonneg {rows : List (Row K)} (hw : ∀ r ∈ rows, 0 ≤ r.w) (t : K) (y : Int) : 0 ≤ below rows t y :=
  rows_nonneg hw (fun r => r.x < t ∧ r.lab = y)

theorem above_nonneg {rows : List (Row K)} (hw : ∀ r ∈ rows, 0 ≤ r.w) (t : K) (y : Int) : 0 ≤ above rows t y :=
  rows_nonneg hw (fun r => t ≤ r.x ∧ r.lab = y)

theorem between_nonneg {rows : List (Row K)} (hw : ∀ r ∈ rows, 0 ≤ r.w) (a b : K) (y : Int) : 0 ≤ between rows a b y :=
  rows_nonneg hw (fun r => (a ≤ r.x ∧ r.x < b) ∧ r.lab = y)

theorem below_support {rows : List (Row K)} {t : K} {y : Int} (h : below rows t y ≠ 0) : y ∈ labels rows :=
  rows_support (fun r => r.x < t) h

theorem above_support {rows : List (Row K)} {t : K} {y : Int} (h : above rows t y ≠ 0) : y ∈ labels rows :=
  rows_support (fun r => t ≤ r.x) h

theorem between_support {rows : List (Row K)} {a b : K} {y : Int} (h : between rows a b y ≠ 0) : y ∈ labels rows :=
  rows_support (fun r => a ≤ r.x ∧ r.x < b) h

theorem sum_below (rows : List (Row K)) (t : K) :
    ∑ y ∈ labels rows, below rows t y = (rows.map (fun r => if r.x < t then r.w else 0)).sum := by
  have := rows_sum_label (mem_labels (rows := rows)) (fun r => r.x < t) (fun _ => 1)
  simp only [one_mul] at this
  exact this

theorem sum_above (rows : List (Row K)) (t : K) :
    ∑ y ∈ labels rows, above rows t y = (rows.map (fun r => if t ≤ r.x then r.w else 0)).sum := by
  have := rows_sum_label (mem_labels (rows := rows)) (fun r => t ≤ r.x) (fun _ => 1)
  simp only [one_mul] at this
  exact this

theorem sum_below_add_above (rows : List (Row K)) (t : K) :
    ∑ y ∈ labels rows, below rows t y + ∑ y ∈ labels rows, above rows t y = (rows.map Row.w).sum := by
  rw [sum_below, sum_above]
  induction rows with
  | nil => simp
  | cons r rows ih =>
    simp only [List.map_cons, List.sum_cons]
    rw [← ih]
    by_cases h : r.x < t
    · simp only [h, not_le.mpr h, if_true, if_false]; ring
    · simp only [h, not_lt.mp h, if_true, if_false]; ring

theorem below_add_above (rows : List (Row K)) (t : K) (y : Int) :
    below rows t y + above rows t y = (rows.map (fun r => if r.lab = y then r.w else 0)).sum := by
  unfold below above
  induction rows with
  | nil => simp
  | cons r rows ih =>
    simp only [List.map_cons, List.sum_cons]
    rw [← ih]
    by_cases h : r.x < t
    · simp only [h, not_le.mpr h, true_and, false_and, if_false]; ring
    · simp only [h, not_lt.mp h, true_and, false_and, if_false]; ring

theorem below_start {rows : List (Row K)} {a : K} (h : ∀ r ∈ rows, a ≤ r.x) (y : Int) : below rows a y = 0 := by
  apply List.sum_eq_zero
  intro v hv
  obtain ⟨r, hr, rfl⟩ := List.mem_map.mp hv
  simp [not_lt.mpr (h r hr)]

theorem above_end {rows : List (Row K)} {a : K} (h : ∀ r ∈ rows, r.x < a) (y : Int) : above rows a y = 0 := by
  apply List.sum_eq_zero
  intro v hv
  obtain ⟨r, hr, rfl⟩ := List.mem_map.mp hv
  simp [not_le.mpr (h r hr)]

theorem same_below {rows : List (Row K)} {t t' : K} (h : SameSplit rows t t') (y : Int) : below rows t y = below rows t' y := by
  unfold below
  congr 1
  apply List.map_congr_left
  intro r hr
  simp only [h r hr]

theorem same_above {rows : List (Row K)} {t t' : K} (h : SameSplit rows t t') (y : Int) : above rows t y = above rows t' y := by
  unfold above
  congr 1
  apply List.map_congr_left
  intro r hr
  have : t ≤ r.x ↔ t' ≤ r.x := by rw [← not_lt, ← not_lt, h r hr]
  simp only [this]

theorem splitValue_same {ln : K → K} {rows : List (Row K)} {t t' : K} (h : SameSplit rows t t') (c : Criterion) :
    splitValue ln rows t c = splitValue ln rows t' c := by
  have e1 : below rows t = below rows t' := funext (same_below h)
  have e2 : above rows t = above rows t' := funext (same_above h)
  cases c with
  | entropy => simp only [splitValue, e1, e2]
  | gini => simp only [splitValue, e1, e2]
  | twoing => simp only [splitValue, e1, e2]
  | edge =>
    simp only [splitValue]
    congr 2
    apply List.map_congr_left
    intro r hr
    simp only [h r hr]

/-! ## Impurities -/

theorem isEmpty_total {m : LabelMap K} (h : m.isEmpty = true) : HMap.total m ≤ 0 := by
  rw [List.isEmpty_iff] at h
  subst h; simp [HMap.total]

theorem entropic_eq {env : TreeEnv K} {m : LabelMap K} {w : Int → K} (h : MapIs m w) {Y : Finset Int} (hY : ∀ y, w y ≠ 0 → y ∈ Y) :
    Criterion.entropicImpurity env m = entropyOf env.ln Y w := by
  have ht := mapIs_total h hY
  unfold Criterion.entropicImpurity entropyOf
  by_cases h0 : ∑ y ∈ Y, w y ≤ 0
  · rw [if_pos (Or.inl (by rw [ht]; exact h0)), if_pos h0]
  · rw [if_neg (by rintro (h1 | h1); exacts [h0 (by rw [← ht]; exact h1), h0 (by rw [← ht]; exact isEmpty_total h1)]), if_neg h0, ht]
    rw [mapIs_sum h hY (fun _ v => if v / (∑ z ∈ Y, w z) ≤ 0 then 0 else -(v / ∑ z ∈ Y, w z) * env.ln (v / ∑ z ∈ Y, w z))
      (fun y => by simp)]

theorem gini_nonneg {Y : Finset Int} {w : Int → K} (hw : ∀ y, 0 ≤ w y) : 0 ≤ giniOf Y w := by
  unfold giniOf
  split
  · exact le_refl _
  · rename_i h
    have hS : 0 < ∑ z ∈ Y, w z := not_le.mp h
    have h1 : ∑ y ∈ Y, (w y / ∑ z ∈ Y, w z) ^ 2 ≤ ∑ y ∈ Y, w y / ∑ z ∈ Y, w z := by
      apply Finset.sum_le_sum
      intro y hy
      have a1 : 0 ≤ w y / ∑ z ∈ Y, w z := div_nonneg (hw y) hS.le
      have a2 : w y / ∑ z ∈ Y, w z ≤ 1 := by
        rw [div_le_one hS]
        exact Finset.single_le_sum (fun z _ => hw z) hy
      nlinarith
    rw [← Finset.sum_div, div_self hS.ne'] at h1
    linarith

theorem gini_eq {m : LabelMap K} {w : Int → K} (h : MapIs m w) (hw : ∀ y, 0 ≤ w y) {Y : Finset Int} (hY : ∀ y, w y ≠ 0 → y ∈ Y) :
    Criterion.giniImpurity m = giniOf Y w := by
  have ht := mapIs_total h hY
  have hnn := gini_nonneg (Y := Y) hw
  unfold Criterion.giniImpurity
  unfold giniOf at hnn ⊢
  by_cases h0 : ∑ y ∈ Y, w y ≤ 0
  · rw [if_pos (Or.inl (by rw [ht]; exact h0)), if_pos h0]
  · rw [if_neg h0] at hnn
    rw [if_neg (by rintro (h1 | h1); exacts [h0 (by rw [← ht]; exact h1), h0 (by rw [← ht]; exact isEmpty_total h1)]), if_neg h0, ht]
    rw [mapIs_sum h hY (fun _ v => (v / ∑ z ∈ Y, w z) ^ 2) (fun y => by simp), max_eq_left hnn]

/-! ## Moving weights -/

/-- The weights of a map as a function. -/
def mval (m : LabelMap K) (y : Int) : K := (HMap.get? m y).getD 0

theorem mval_cons {y0 : Int} {w0 : K} {m : LabelMap K} (hn : y0 ∉ m.map Prod.fst) (y : Int) :
    mval ((y0, w0) :: m) y = (if y0 = y then w0 else 0) + mval m y := by
  unfold mval
  simp only [HMap.get?]
  by_cases h : y0 = y
  · subst h; simp [HMap.get?_eq_none_iff.mpr hn]
  · simp [h]

theorem moveEntropy_ok (m : LabelMap K) : ∀ (st : Criterion.ScanState K) (L R : Int → K), (m.map Prod.fst).Nodup →
    (∀ p ∈ m, 0 < p.2 ∧ p.2 ≤ R p.1) → MapIs st.left L → MapIs st.right R →
    ∃ l r, Criterion.moveEntropy m st = .ok ⟨l, st.leftSum + HMap.total m, r, st.bestScore, st.bestThreshold⟩ ∧
      MapIs l (fun y => L y + mval m y) ∧ MapIs r (fun y => R y - mval m y) := by
  induction m with
  | nil =>
    intro st L R _ _ hl hr
    exact ⟨st.left, st.right, by simp [Criterion.moveEntropy, HMap.total], mapIs_congr hl (fun y => by simp [mval, HMap.get?]),
      mapIs_congr hr (fun y => by simp [mval, HMap.get?])⟩
  | cons p m ih =>
    obtain ⟨y0, w0⟩ := p
    intro st L R hn hp hl hr
    simp only [List.map_cons, List.nodup_cons] at hn
    obtain ⟨hw0, hR0⟩ := hp (y0, w0) (by simp)
    simp only at hw0 hR0
    have hg := mapIs_get hr (y := y0) (by linarith)
    unfold Criterion.moveEntropy
    simp only [Criterion.subFrom, hg]
    obtain ⟨l, r, e1, e2, e3⟩ := ih ⟨HMap.addTo st.left y0 w0, st.leftSum + w0, HMap.insert st.right y0 (R y0 - w0), st.bestScore, st.bestThreshold⟩
      (fun y => L y + if y0 = y then w0 else 0) (fun y => if y0 = y then R y0 - w0 else R y) hn.2
      (by
        intro p hp'
        have hne : y0 ≠ p.1 := by
          rintro h; exact hn.1 (List.mem_map.mpr ⟨p, hp', h.symm⟩)
        simp only [hne, if_false]
        exact hp p (List.mem_cons_of_mem _ hp'))
      (mapIs_addTo hl y0 w0) (mapIs_insert hr (get_mem_keys hg))
    refine ⟨l, r, ?_, mapIs_congr e2 (fun y => ?_), mapIs_congr e3 (fun y => ?_)⟩
    · rw [e1]; simp only [HMap.total, List.map_cons, List.sum_cons]; congr 2; ring
    · rw [mval_cons hn.1]; ring
    · rw [mval_cons hn.1]
      by_cases h : y0 = y
      · subst h; simp; ring
      · simp [h]

theorem moveGini_ok (m : LabelMap K) : ∀ (st : Criterion.ScanState K) (L R : Int → K), (m.map Prod.fst).Nodup →
    (∀ p ∈ m, 0 < p.2 ∧ p.2 ≤ R p.1) → MapIs st.left L → MapIs st.right R →
    ∃ l r, Criterion.moveGini m st = .ok ⟨l, st.leftSum + HMap.total m, r, st.bestScore, st.bestThreshold⟩ ∧
      MapIs l (fun y => L y + mval m y) ∧ MapIs r (fun y => R y - mval m y) := by
  induction m with
  | nil =>
    intro st L R _ _ hl hr
    exact ⟨st.left, st.right, by simp [Criterion.moveGini, HMap.total], mapIs_congr hl (fun y => by simp [mval, HMap.get?]),
      mapIs_congr hr (fun y => by simp [mval, HMap.get?])⟩
  | cons p m ih =>
    obtain ⟨y0, w0⟩ := p
    intro st L R hn hp hl hr
    simp only [List.map_cons, List.nodup_cons] at hn
    obtain ⟨hw0, hR0⟩ := hp (y0, w0) (by simp)
    simp only at hw0 hR0
    have hg := mapIs_get hr (y := y0) (by linarith)
    unfold Criterion.moveGini
    simp only [hg]
    have hins : MapIs (HMap.insert st.right y0 (R y0 - w0)) (fun y => if y0 = y then R y0 - w0 else R y) :=
      mapIs_insert hr (get_mem_keys hg)
    have hright : MapIs (if R y0 - w0 ≤ 0 then HMap.remove (HMap.insert st.right y0 (R y0 - w0)) y0
        else HMap.insert st.right y0 (R y0 - w0)) (fun y => if y0 = y then R y0 - w0 else R y) := by
      split
      · rename_i h
        apply mapIs_remove hins
        simp only [if_true]; linarith
      · exact hins
    obtain ⟨l, r, e1, e2, e3⟩ := ih ⟨HMap.addTo st.left y0 w0, st.leftSum + w0, (if R y0 - w0 ≤ 0 then HMap.remove (HMap.insert st.right y0 (R y0 - w0)) y0
        else HMap.insert st.right y0 (R y0 - w0)), st.bestScore, st.bestThreshold⟩
      (fun y => L y + if y0 = y then w0 else 0) (fun y => if y0 = y then R y0 - w0 else R y) hn.2
      (by
        intro p hp'
        have hne : y0 ≠ p.1 := by
          rintro h; exact hn.1 (List.mem_map.mpr ⟨p, hp', h.symm⟩)
        simp only [hne, if_false]
        exact hp p (List.mem_cons_of_mem _ hp'))
      (mapIs_addTo hl y0 w0) hright
    refine ⟨l, r, ?_, mapIs_congr e2 (fun y => ?_), mapIs_congr e3 (fun y => ?_)⟩
    · rw [e1]; simp only [HMap.total, List.map_cons, List.sum_cons]; congr 2; ring
    · rw [mval_cons hn.1]; ring
    · rw [mval_cons hn.1]
      by_cases h : y0 = y
      · subst h; simp; ring
      · simp [h]

theorem moveTwoing_ok (m : LabelMap K) : ∀ (l0 r0 : LabelMap K) (L R : Int → K), (m.map Prod.fst).Nodup →
    (∀ y, 0 ≤ L y) → (∀ p ∈ m, 0 < p.2 ∧ p.2 ≤ R p.1) → MapIs l0 L → MapIs r0 R →
      MapIs (Criterion.moveTwoing m (l0, r0)).1 (fun y => L y + mval m y) ∧
      MapIs (Criterion.moveTwoing m (l0, r0)).2 (fun y => R y - mval m y) := by
  induction m with
  | nil =>
    intro l0 r0 L R _ _ _ hl hr
    exact ⟨mapIs_congr hl (fun y => by simp [mval, HMap.get?]), mapIs_congr hr (fun y => by simp [mval, HMap.get?])⟩
  | cons p m ih =>
    obtain ⟨y0, w0⟩ := p
    intro l0 r0 L R hn hL hp hl hr
    simp only [List.map_cons, List.nodup_cons] at hn
    obtain ⟨hw0, hR0⟩ := hp (y0, w0) (by simp)
    simp only at hw0 hR0
    have hg := mapIs_get hr (y := y0) (by linarith)
    unfold Criterion.moveTwoing
    simp only [hg]
    have hadd := mapIs_addTo hl y0 w0
    have hpos : ¬ (HMap.get? (HMap.addTo l0 y0 w0) y0).getD 0 ≤ 0 := by
      rw [hadd.val]; simp only [if_true]; have := hL y0; linarith
    rw [if_neg hpos]
    obtain ⟨e2, e3⟩ := ih (HMap.addTo l0 y0 w0) (HMap.insert r0 y0 (R y0 - w0)) (fun y => L y + if y0 = y then w0 else 0)
      (fun y => if y0 = y then R y0 - w0 else R y) hn.2
      (by intro y; have := hL y; split <;> linarith)
      (by
        intro p hp'
        have hne : y0 ≠ p.1 := by
          rintro h; exact hn.1 (List.mem_map.mpr ⟨p, hp', h.symm⟩)
        simp only [hne, if_false]
        exact hp p (List.mem_cons_of_mem _ hp'))
      hadd (mapIs_insert hr (get_mem_keys hg))
    refine ⟨mapIs_congr e2 (fun y => ?_), mapIs_congr e3 (fun y => ?_)⟩
    · rw [mval_cons hn.1]; ring
    · rw [mval_cons hn.1]
      by_cases h : y0 = y
      · subst h; simp; ring
      · simp [h]

/-! ## All label weights -/

theorem collectWeights_is (l : List (Int × K)) : ∀ (m : LabelMap K) (w : Int → K), MapIs m w →
    MapIs (Criterion.collectWeights l m) (fun y => w y + (l.map (fun p => if p.1 = y then p.2 else 0)).sum) := by
  induction l with
  | nil => intro m w h; exact mapIs_congr h (fun y => by simp)
  | cons p l ih =>
    intro m w h
    unfold Criterion.collectWeights
    exact mapIs_congr (ih _ _ (mapIs_addTo h p.1 p.2)) (fun y => by simp; ring)

theorem map_label_sum {m : LabelMap K} {w : Int → K} (h : MapIs m w) (y : Int) :
    (m.map (fun p => if p.1 = y then p.2 else 0)).sum = w y := by
  rw [← h.val y]
  have hn := h.nodup
  clear h
  induction m with
  | nil => simp [HMap.get?]
  | cons p m ih =>
    obtain ⟨a, b⟩ := p
    simp only [List.map_cons, List.nodup_cons] at hn
    simp only [List.map_cons, List.sum_cons, ih hn.2, HMap.get?]
    by_cases h : a = y
    · subst h; simp [HMap.get?_eq_none_iff.mpr hn.1]
    · simp [h]

theorem rep_label_sum {rows : List (Row K)} (pack : List (Bin K × LabelMap K)) : ∀ a, Rep rows a pack → ∀ y,
    ((pack.flatMap Prod.snd).map (fun p => if p.1 = y then p.2 else 0)).sum = above rows a y := by
  induction pack with
  | nil => intro a h y; simp [above_end h]
  | cons q pack ih =>
    obtain ⟨b, m⟩ := q
    intro a h y
    obtain ⟨h1, h2, h3, h4, h5⟩ := h
    simp only [List.flatMap_cons, List.map_append, List.sum_append, ih _ h5, map_label_sum h3]
    have := above_sub_between (rows := rows) h2.le y
    linarith

theorem allWeights_is {rows : List (Row K)} {pack : List (Bin K × LabelMap K)} {a : K} (h : Rep rows a pack) :
    MapIs (Criterion.allWeights pack) (above rows a) :=
  mapIs_congr (collectWeights_is _ _ _ mapIs_nil) (fun y => by rw [rep_label_sum pack a h, zero_add])

theorem rep_mem {rows : List (Row K)} {pack : List (Bin K × LabelMap K)} : ∀ {a}, Rep rows a pack → ∀ q ∈ pack, a < q.1.stop := by
  induction pack with
  | nil => intro a _ q hq; cases hq
  | cons q pack ih =>
    intro a h p hp
    rcases List.mem_cons.mp hp with rfl | hp
    · exact h.2.1
    · exact h.2.1.trans (ih h.2.2.2.2 p hp)

theorem weightSum_eq {rows : List (Row K)} (pack : List (Bin K × LabelMap K)) : ∀ a, Rep rows a pack →
    Criterion.weightSum pack = ∑ y ∈ labels rows, above rows a y := by
  induction pack with
  | nil =>
    intro a h
    simp [Criterion.weightSum, above_end h]
  | cons q pack ih =>
    obtain ⟨b, m⟩ := q
    intro a h
    obtain ⟨h1, h2, h3, h4, h5⟩ := h
    have e := ih _ h5
    unfold Criterion.weightSum at e ⊢
    simp only [List.map_cons, List.sum_cons, e]
    rw [mapIs_total h3 (fun y hy => between_support hy), ← Finset.sum_add_distrib]
    apply Finset.sum_congr rfl
    intro y _
    have := above_sub_between (rows := rows) h2.le y
    linarith

/-- One bin's map can be moved: its entries are positive and at most what is left on the right. -/
theorem rep_movable {rows : List (Row K)} (hw : ∀ r ∈ rows, 0 ≤ r.w) {a b : K} (hab : a < b) {m : LabelMap K}
    (h : MapIs m (between rows a b)) (hp : MapPos m) : ∀ p ∈ m, 0 < p.2 ∧ p.2 ≤ above rows a p.1 := by
  intro p hpm
  refine ⟨hp p hpm, ?_⟩
  rw [← mapIs_mem h hpm]
  have := above_sub_between (rows := rows) hab.le p.1
  have := above_nonneg hw b p.1
  linarith

/-! ## The scans -/

/-- What a scan must deliver: the reported score is the value of the reported threshold, which is `fmin` or the end
of a bin, and no such threshold is better. -/
def ScanOk (ln : K → K) (rows : List (Row K)) (c : Criterion) (fmin : K) (pack : List (Bin K × LabelMap K)) (t s : K) : Prop :=
  s = splitValue ln rows t c ∧ (t = fmin ∨ ∃ q ∈ pack, t = q.1.stop) ∧ betterEq c s (splitValue ln rows fmin c) ∧
  ∀ q ∈ pack, betterEq c s (splitValue ln rows q.1.stop c)

theorem impurityLoop_ok {rows : List (Row K)} (hw : ∀ r ∈ rows, 0 ≤ r.w) (h1 : (rows.map Row.w).sum = 1)
    {mv : LabelMap K → Criterion.ScanState K → Except Panic (Criterion.ScanState K)} {imp : LabelMap K → K} {V : K → K}
    (hmv : ∀ (m : LabelMap K) (st : Criterion.ScanState K) (L R : Int → K), (m.map Prod.fst).Nodup →
      (∀ p ∈ m, 0 < p.2 ∧ p.2 ≤ R p.1) → MapIs st.left L → MapIs st.right R →
      ∃ l r, mv m st = .ok ⟨l, st.leftSum + HMap.total m, r, st.bestScore, st.bestThreshold⟩ ∧
        MapIs l (fun y => L y + mval m y) ∧ MapIs r (fun y => R y - mval m y))
    (hV : ∀ t l r, MapIs l (below rows t) → MapIs r (above rows t) →
      V t = (∑ y ∈ labels rows, below rows t y) * imp l + (∑ y ∈ labels rows, above rows t y) * imp r)
    (pack : List (Bin K × LabelMap K)) : ∀ (a : K) (st : Criterion.ScanState K), Rep rows a pack →
      MapIs st.left (below rows a) → st.leftSum = ∑ y ∈ labels rows, below rows a y → MapIs st.right (above rows a) →
      ∃ st', Criterion.impurityLoop mv imp 1 pack st = .ok st' ∧
        ((st'.bestScore = st.bestScore ∧ st'.bestThreshold = st.bestThreshold) ∨
          (st'.bestScore = V st'.bestThreshold ∧ ∃ q ∈ pack, st'.bestThreshold = q.1.stop)) ∧
        st'.bestScore ≤ st.bestScore ∧ ∀ q ∈ pack, st'.bestScore ≤ V q.1.stop := by
  induction pack with
  | nil =>
    intro a st _ _ _ _
    exact ⟨st, rfl, Or.inl ⟨rfl, rfl⟩, le_refl _, fun q hq => by cases hq⟩
  | cons q pack ih =>
    obtain ⟨b, m⟩ := q
    intro a st hrep hl hs hr
    obtain ⟨r1, r2, r3, r4, r5⟩ := hrep
    obtain ⟨l, r, e1, e2, e3⟩ := hmv m st _ _ r3.nodup (rep_movable hw r2 r3 r4) hl hr
    unfold Criterion.impurityLoop
    simp only [e1]
    have hl' : MapIs l (below rows b.stop) := mapIs_congr e2 (fun y => by
      unfold mval; rw [r3.val]; exact below_add_between r2.le y)
    have hr' : MapIs r (above rows b.stop) := mapIs_congr e3 (fun y => by
      unfold mval; rw [r3.val]; exact above_sub_between r2.le y)
    have hs' : st.leftSum + HMap.total m = ∑ y ∈ labels rows, below rows b.stop y := by
      rw [hs, mapIs_total r3 (fun y hy => between_support hy), ← Finset.sum_add_distrib]
      exact Finset.sum_congr rfl (fun y _ => below_add_between r2.le y)
    have hsum := sum_below_add_above rows b.stop
    rw [h1] at hsum
    have hnn : 0 ≤ ∑ y ∈ labels rows, above rows b.stop y := Finset.sum_nonneg (fun y _ => above_nonneg hw _ y)
    have hrp : max (1 - (st.leftSum + HMap.total m) / 1) 0 = ∑ y ∈ labels rows, above rows b.stop y := by
      rw [div_one, hs', show 1 - ∑ y ∈ labels rows, below rows b.stop y = ∑ y ∈ labels rows, above rows b.stop y by linarith,
        max_eq_left hnn]
    have hscore : (st.leftSum + HMap.total m) / 1 * imp l + max (1 - (st.leftSum + HMap.total m) / 1) 0 * imp r = V b.stop := by
      rw [hrp, hV b.stop l r hl' hr', div_one, hs']
    rw [hscore]
    by_cases hlt : V b.stop < st.bestScore
    · rw [if_pos hlt]
      obtain ⟨st', f1, f2, f3, f4⟩ := ih b.stop ⟨l, st.leftSum + HMap.total m, r, V b.stop, b.stop⟩ r5 hl' hs' hr'
      simp only at f2 f3
      refine ⟨st', f1, Or.inr ?_, f3.trans hlt.le, ?_⟩
      · rcases f2 with ⟨g1, g2⟩ | ⟨g1, q, hq, g2⟩
        · exact ⟨by rw [g1, g2], (b, m), by simp, g2⟩
        · exact ⟨g1, q, List.mem_cons_of_mem _ hq, g2⟩
      · intro q hq
        rcases List.mem_cons.mp hq with rfl | hq
        · exact f3
        · exact f4 q hq
    · rw [if_neg hlt]
      obtain ⟨st', f1, f2, f3, f4⟩ := ih b.stop ⟨l, st.leftSum + HMap.total m, r, st.bestScore, st.bestThreshold⟩ r5 hl' hs' hr'
      simp only at f2 f3
      refine ⟨st', f1, ?_, f3, ?_⟩
      · rcases f2 with g | ⟨g1, q, hq, g2⟩
        · exact Or.inl g
        · exact Or.inr ⟨g1, q, List.mem_cons_of_mem _ hq, g2⟩
      · intro q hq
        rcases List.mem_cons.mp hq with rfl | hq
        · exact f3.trans (not_lt.mp hlt)
        · exact f4 q hq

theorem weightSum_one {rows : List (Row K)} (h1 : (rows.map Row.w).sum = 1) {a : K} (ha : ∀ r ∈ rows, a ≤ r.x)
    {pack : List (Bin K × LabelMap K)} (hrep : Rep rows a pack) : Criterion.weightSum pack = 1 := by
  rw [weightSum_eq pack a hrep]
  have := sum_below_add_above rows a
  rw [h1] at this
  simpa [below_start ha] using this

theorem splitByEntropy_ok {env : TreeEnv K} {rows : List (Row K)} (hw : ∀ r ∈ rows, 0 ≤ r.w) (h1 : (rows.map Row.w).sum = 1)
    (ha : ∀ r ∈ rows, env.fmin ≤ r.x) {pack : List (Bin K × LabelMap K)} (hrep : Rep rows env.fmin pack) :
    ∃ t s, Criterion.splitByEntropy env pack = .ok (t, s) ∧ ScanOk env.ln rows .entropy env.fmin pack t s := by
  have hV : ∀ t l r, MapIs l (below rows t) → MapIs r (above rows t) →
      splitValue env.ln rows t .entropy = (∑ y ∈ labels rows, below rows t y) * Criterion.entropicImpurity env l
        + (∑ y ∈ labels rows, above rows t y) * Criterion.entropicImpurity env r := by
    intro t l r hl hr
    rw [entropic_eq hl (fun y hy => below_support hy), entropic_eq hr (fun y hy => above_support hy)]
    rfl
  have hall := allWeights_is hrep
  have hb0 : MapIs ([] : LabelMap K) (below rows env.fmin) := mapIs_congr mapIs_nil (fun y => (below_start ha y).symm)
  obtain ⟨st, e1, e2, e3, e4⟩ := impurityLoop_ok hw h1 moveEntropy_ok hV pack env.fmin
    ⟨[], 0, Criterion.allWeights pack, Criterion.entropicImpurity env (Criterion.allWeights pack), env.fmin⟩ hrep hb0
    (by simp [below_start ha]) hall
  have hinit : Criterion.entropicImpurity env (Criterion.allWeights pack) = splitValue env.ln rows env.fmin .entropy := by
    rw [hV _ _ _ hb0 hall, ← weightSum_eq pack _ hrep, weightSum_one h1 ha hrep]
    simp [below_start ha]
  simp only [hinit] at e2 e3
  unfold Criterion.splitByEntropy
  rw [weightSum_one h1 ha hrep, e1]
  refine ⟨st.bestThreshold, st.bestScore, rfl, ?_, ?_, e3, e4⟩
  · rcases e2 with ⟨g1, g2⟩ | ⟨g1, _⟩
    · rw [g1, g2]
    · exact g1
  · rcases e2 with ⟨g1, g2⟩ | ⟨_, g⟩
    · exact Or.inl g2
    · exact Or.inr g

theorem splitByGini_ok {env : TreeEnv K} {rows : List (Row K)} (hw : ∀ r ∈ rows, 0 ≤ r.w) (h1 : (rows.map Row.w).sum = 1)
    (ha : ∀ r ∈ rows, env.fmin ≤ r.x) {pack : List (Bin K × LabelMap K)} (hrep : Rep rows env.fmin pack) :
    ∃ t s, Criterion.splitByGini env pack = .ok (t, s) ∧ ScanOk env.ln rows .gini env.fmin pack t s := by
  have hV : ∀ t l r, MapIs l (below rows t) → MapIs r (above rows t) →
      splitValue env.ln rows t .gini = (∑ y ∈ labels rows, below rows t y) * Criterion.giniImpurity l
        + (∑ y ∈ labels rows, above rows t y) * Criterion.giniImpurity r := by
    intro t l r hl hr
    rw [gini_eq hl (below_nonneg hw t) (fun y hy => below_support hy), gini_eq hr (above_nonneg hw t) (fun y hy => above_support hy)]
    rfl
  have hall := allWeights_is hrep
  have hb0 : MapIs ([] : LabelMap K) (below rows env.fmin) := mapIs_congr mapIs_nil (fun y => (below_start ha y).symm)
  obtain ⟨st, e1, e2, e3, e4⟩ := impurityLoop_ok hw h1 moveGini_ok hV pack env.fmin
    ⟨[], 0, Criterion.allWeights pack, Criterion.giniImpurity (Criterion.allWeights pack), env.fmin⟩ hrep hb0
    (by simp [below_start ha]) hall
  have hinit : Criterion.giniImpurity (Criterion.allWeights pack) = splitValue env.ln rows env.fmin .gini := by
    rw [hV _ _ _ hb0 hall, ← weightSum_eq pack _ hrep, weightSum_one h1 ha hrep]
    simp [below_start ha]
  simp only [hinit] at e2 e3
  unfold Criterion.splitByGini
  rw [weightSum_one h1 ha hrep, e1]
  refine ⟨st.bestThreshold, st.bestScore, rfl, ?_, ?_, e3, e4⟩
  · rcases e2 with ⟨g1, g2⟩ | ⟨g1, _⟩
    · rw [g1, g2]
    · exact g1
  · rcases e2 with ⟨g1, g2⟩ | ⟨_, g⟩
    · exact Or.inl g2
    · exact Or.inr g

/-! ### Edge -/

/-- The edge of the stump `x < t ↦ -1, else +1`. -/
def stumpEdge (rows : List (Row K)) (t : K) : K := (rows.map (fun r => (if r.x < t then -1 else 1) * ((r.lab : K) * r.w))).sum

theorem signedSum_between {rows : List (Row K)} {a b : K} {m : LabelMap K} (h : MapIs m (between rows a b)) :
    Criterion.signedSum m = (rows.map (fun r => if a ≤ r.x ∧ r.x < b then (r.lab : K) * r.w else 0)).sum := by
  unfold Criterion.signedSum
  rw [mapIs_sum h (fun y hy => between_support hy) (fun y v => (y : K) * v) (fun y => by simp)]
  exact rows_sum_label (mem_labels (rows := rows)) (fun r => a ≤ r.x ∧ r.x < b) (fun y => (y : K))

theorem stumpEdge_step {rows : List (Row K)} {a b : K} (hab : a ≤ b) {m : LabelMap K} (h : MapIs m (between rows a b)) :
    stumpEdge rows a - 2 * Criterion.signedSum m = stumpEdge rows b := by
  rw [signedSum_between h]
  clear h
  unfold stumpEdge
  induction rows with
  | nil => simp
  | cons r rows ih =>
    simp only [List.map_cons, List.sum_cons]
    rw [← ih]
    by_cases h1 : r.x < a
    · have h2 : r.x < b := h1.trans_le hab
      simp only [h1, h2, not_le.mpr h1, false_and, if_true, if_false]; ring
    · by_cases h2 : r.x < b
      · simp only [h1, h2, not_lt.mp h1, and_true, if_true, if_false]; ring
      · simp only [h1, h2, and_false, if_false]; ring

theorem signed_total {rows : List (Row K)} (pack : List (Bin K × LabelMap K)) : ∀ a, Rep rows a pack →
    (pack.map (fun p => Criterion.signedSum p.2)).sum = (rows.map (fun r => if a ≤ r.x then (r.lab : K) * r.w else 0)).sum := by
  induction pack with
  | nil =>
    intro a h
    simp only [List.map_nil, List.sum_nil]
    symm
    apply List.sum_eq_zero
    intro v hv
    obtain ⟨r, hr, rfl⟩ := List.mem_map.mp hv
    simp [not_le.mpr (h r hr)]
  | cons q pack ih =>
    obtain ⟨b, m⟩ := q
    intro a h
    obtain ⟨h1, h2, h3, h4, h5⟩ := h
    simp only [List.map_cons, List.sum_cons, ih _ h5, signedSum_between h3]
    clear ih h3 h5
    induction rows with
    | nil => simp
    | cons r rows ih =>
      simp only [List.map_cons, List.sum_cons]
      rw [← ih]
      by_cases g1 : a ≤ r.x
      · by_cases g2 : r.x < b.stop
        · simp only [g1, g2, not_le.mpr g2, and_self, if_true, if_false]; ring
        · simp only [g1, g2, not_lt.mp g2, and_false, if_true, if_false]; ring
      · have g2 : ¬ b.stop ≤ r.x := fun h => g1 (h2.le.trans h)
        simp only [g1, g2, false_and, if_false]; ring

theorem edgeLoop_ok {ln : K → K} {rows : List (Row K)} (pack : List (Bin K × LabelMap K)) : ∀ (a be bt : K), Rep rows a pack →
    ∃ t s, Criterion.edgeLoop pack (stumpEdge rows a) be bt = (t, s) ∧
      ((s = be ∧ t = bt) ∨ (s = splitValue ln rows t .edge ∧ ∃ q ∈ pack, t = q.1.stop)) ∧ be ≤ s ∧
      ∀ q ∈ pack, splitValue ln rows q.1.stop .edge ≤ s := by
  induction pack with
  | nil => intro a be bt _; exact ⟨bt, be, rfl, Or.inl ⟨rfl, rfl⟩, le_refl _, fun q hq => by cases hq⟩
  | cons q pack ih =>
    obtain ⟨b, m⟩ := q
    intro a be bt h
    obtain ⟨h1, h2, h3, h4, h5⟩ := h
    unfold Criterion.edgeLoop
    rw [stumpEdge_step h2.le h3]
    have hv : |stumpEdge rows b.stop| = splitValue ln rows b.stop .edge := rfl
    by_cases hlt : be < |stumpEdge rows b.stop|
    · rw [if_pos hlt]
      obtain ⟨t, s, e1, e2, e3, e4⟩ := ih b.stop |stumpEdge rows b.stop| b.stop h5
      refine ⟨t, s, e1, Or.inr ?_, hlt.le.trans e3, ?_⟩
      · rcases e2 with ⟨g1, g2⟩ | ⟨g1, q, hq, g2⟩
        · exact ⟨by rw [g1, g2]; exact hv, (b, m), by simp, g2⟩
        · exact ⟨g1, q, List.mem_cons_of_mem _ hq, g2⟩
      · intro q hq
        rcases List.mem_cons.mp hq with rfl | hq
        · rw [← hv]; exact e3
        · exact e4 q hq
    · rw [if_neg hlt]
      obtain ⟨t, s, e1, e2, e3, e4⟩ := ih b.stop be bt h5
      refine ⟨t, s, e1, ?_, e3, ?_⟩
      · rcases e2 with g | ⟨g1, q, hq, g2⟩
        · exact Or.inl g
        · exact Or.inr ⟨g1, q, List.mem_cons_of_mem _ hq, g2⟩
      · intro q hq
        rcases List.mem_cons.mp hq with rfl | hq
        · rw [← hv]; exact (not_lt.mp hlt).trans e3
        · exact e4 q hq

theorem splitByEdge_ok {env : TreeEnv K} {rows : List (Row K)} (ha : ∀ r ∈ rows, env.fmin ≤ r.x)
    {pack : List (Bin K × LabelMap K)} (hrep : Rep rows env.fmin pack) :
    ∃ t s, Criterion.splitByEdge env pack = (t, s) ∧ ScanOk env.ln rows .edge env.fmin pack t s := by
  have e0 : (pack.map (fun p => Criterion.signedSum p.2)).sum = stumpEdge rows env.fmin := by
    rw [signed_total pack _ hrep]
    unfold stumpEdge
    congr 1
    apply List.map_congr_left
    intro r hr
    simp [ha r hr, not_lt.mpr (ha r hr)]
  obtain ⟨t, s, e1, e2, e3, e4⟩ := edgeLoop_ok (ln := env.ln) pack env.fmin |stumpEdge rows env.fmin| env.fmin hrep
  unfold Criterion.splitByEdge
  rw [e0, e1]
  refine ⟨t, s, rfl, ?_, ?_, e3, e4⟩
  · rcases e2 with ⟨g1, g2⟩ | ⟨g1, _⟩
    · rw [g1, g2]; rfl
    · exact g1
  · rcases e2 with ⟨g1, g2⟩ | ⟨_, g⟩
    · exact Or.inl g2
    · exact Or.inr g

/-! ### Twoing -/

theorem twoingScore_eq {ln : K → K} {rows : List (Row K)} (h1 : (rows.map Row.w).sum = 1) {ls : List Int} (hnd : ls.Nodup)
    {t : K} (hls : ∀ y, (below rows t y ≠ 0 ∨ above rows t y ≠ 0) → y ∈ ls) {l r : LabelMap K} (hl : MapIs l (below rows t))
    (hr : MapIs r (above rows t)) : Criterion.twoingScore ls l r = .ok (splitValue ln rows t .twoing) := by
  have hsum := sum_below_add_above rows t
  rw [h1] at hsum
  unfold Criterion.twoingScore
  rw [mapIs_total hl (fun y hy => below_support hy), mapIs_total hr (fun y hy => above_support hy)]
  simp only [splitValue]
  by_cases h0 : ∑ y ∈ labels rows, below rows t y = 0 ∨ ∑ y ∈ labels rows, above rows t y = 0
  · rw [if_pos h0, if_pos h0]
  · rw [if_neg h0, if_neg h0, if_pos (by rw [hsum]; exact one_pos)]
    congr 5
    simp only [hl.val, hr.val]
    rw [← List.sum_toFinset _ hnd]
    apply sum_support
    · intro y hy
      rw [List.mem_toFinset]
      apply hls
      by_contra hn
      rw [not_or, not_not, not_not] at hn
      exact hy (by simp [hn.1, hn.2])
    · intro y hy
      by_contra hn
      apply hy
      have b0 : below rows t y = 0 := by by_contra h; exact hn (below_support h)
      have a0 : above rows t y = 0 := by by_contra h; exact hn (above_support h)
      simp [b0, a0]

theorem twoingLoop_ok {ln : K → K} {rows : List (Row K)} (hw : ∀ r ∈ rows, 0 ≤ r.w) (h1 : (rows.map Row.w).sum = 1) {ls : List Int}
    (hnd : ls.Nodup) (hls : ∀ y t, (below rows t y ≠ 0 ∨ above rows t y ≠ 0) → y ∈ ls)
    (pack : List (Bin K × LabelMap K)) : ∀ (a : K) (l r : LabelMap K) (bs bt : K), Rep rows a pack → MapIs l (below rows a) →
      MapIs r (above rows a) →
    ∃ t s, Criterion.twoingLoop ls pack (l, r) bs bt = .ok (t, s) ∧
      ((s = bs ∧ t = bt) ∨ (s = splitValue ln rows t .twoing ∧ ∃ q ∈ pack, t = q.1.stop)) ∧ bs ≤ s ∧
      ∀ q ∈ pack, splitValue ln rows q.1.stop .twoing ≤ s := by
  induction pack with
  | nil => intro a l r bs bt _ _ _; exact ⟨bt, bs, rfl, Or.inl ⟨rfl, rfl⟩, le_refl _, fun q hq => by cases hq⟩
  | cons q pack ih =>
    obtain ⟨b, m⟩ := q
    intro a l r bs bt h hl hr
    obtain ⟨r1, r2, r3, r4, r5⟩ := h
    obtain ⟨m1, m2⟩ := moveTwoing_ok m l r _ _ r3.nodup (below_nonneg hw a) (rep_movable hw r2 r3 r4) hl hr
    have hl' : MapIs (Criterion.moveTwoing m (l, r)).1 (below rows b.stop) := mapIs_congr m1 (fun y => by
      unfold mval; rw [r3.val]; exact below_add_between r2.le y)
    have hr' : MapIs (Criterion.moveTwoing m (l, r)).2 (above rows b.stop) := mapIs_congr m2 (fun y => by
      unfold mval; rw [r3.val]; exact above_sub_between r2.le y)
    unfold Criterion.twoingLoop
    rw [twoingScore_eq (ln := ln) h1 hnd (fun y => hls y b.stop) hl' hr']
    simp only
    by_cases hlt : bs < splitValue ln rows b.stop .twoing
    · rw [if_pos hlt]
      obtain ⟨t, s, e1, e2, e3, e4⟩ := ih b.stop _ _ (splitValue ln rows b.stop .twoing) b.stop r5 hl' hr'
      refine ⟨t, s, e1, Or.inr ?_, hlt.le.trans e3, ?_⟩
      · rcases e2 with ⟨g1, g2⟩ | ⟨g1, q, hq, g2⟩
        · exact ⟨by rw [g1, g2], (b, m), by simp, g2⟩
        · exact ⟨g1, q, List.mem_cons_of_mem _ hq, g2⟩
      · intro q hq
        rcases List.mem_cons.mp hq with rfl | hq
        · exact e3
        · exact e4 q hq
    · rw [if_neg hlt]
      obtain ⟨t, s, e1, e2, e3, e4⟩ := ih b.stop _ _ bs bt r5 hl' hr'
      refine ⟨t, s, e1, ?_, e3, ?_⟩
      · rcases e2 with g | ⟨g1, q, hq, g2⟩
        · exact Or.inl g
        · exact Or.inr ⟨g1, q, List.mem_cons_of_mem _ hq, g2⟩
      · intro q hq
        rcases List.mem_cons.mp hq with rfl | hq
        · exact (not_lt.mp hlt).trans e3
        · exact e4 q hq

theorem splitByTwoing_ok {env : TreeEnv K} {rows : List (Row K)} (hw : ∀ r ∈ rows, 0 ≤ r.w) (h1 : (rows.map Row.w).sum = 1)
    (ha : ∀ r ∈ rows, env.fmin ≤ r.x) {pack : List (Bin K × LabelMap K)} (hrep : Rep rows env.fmin pack) :
    ∃ t s, Criterion.splitByTwoing env pack = .ok (t, s) ∧ ScanOk env.ln rows .twoing env.fmin pack t s := by
  have hls : ∀ y t, (below rows t y ≠ 0 ∨ above rows t y ≠ 0) → y ∈ Criterion.labelSet pack := by
    intro y t h
    have e := below_add_above rows t y
    have e' := below_add_above rows env.fmin y
    rw [below_start ha, zero_add] at e'
    have hb := below_nonneg hw t y
    have hab := above_nonneg hw t y
    have hne : above rows env.fmin y ≠ 0 := by
      rw [e', ← e]
      rcases h with h | h
      · exact (add_pos_of_pos_of_nonneg (lt_of_le_of_ne hb (Ne.symm h)) hab).ne'
      · exact (add_pos_of_nonneg_of_pos hb (lt_of_le_of_ne hab (Ne.symm h))).ne'
    rw [← rep_label_sum pack _ hrep] at hne
    unfold Criterion.labelSet
    rw [List.mem_dedup]
    by_contra hn
    apply hne
    apply List.sum_eq_zero
    intro v hv
    obtain ⟨p, hp, rfl⟩ := List.mem_map.mp hv
    have : p.1 ≠ y := by rintro rfl; exact hn (List.mem_map.mpr ⟨p, hp, rfl⟩)
    simp [this]
  have hb0 : MapIs ([] : LabelMap K) (below rows env.fmin) := mapIs_congr mapIs_nil (fun y => (below_start ha y).symm)
  have hinit : (0 : K) = splitValue env.ln rows env.fmin .twoing := by
    simp [splitValue, below_start ha]
  obtain ⟨t, s, e1, e2, e3, e4⟩ := twoingLoop_ok (ln := env.ln) hw h1 (List.nodup_dedup _) hls pack env.fmin [] _ 0 env.fmin hrep hb0
    (allWeights_is hrep)
  refine ⟨t, s, e1, ?_, ?_, ?_, e4⟩
  · rcases e2 with ⟨g1, g2⟩ | ⟨g1, _⟩
    · rw [g1, g2]; exact hinit
    · exact g1
  · rcases e2 with ⟨g1, g2⟩ | ⟨_, g⟩
    · exact Or.inl g2
    · exact Or.inr g
  · show splitValue env.ln rows env.fmin .twoing ≤ s
    rw [← hinit]; exact e3

theorem splitBy_ok {env : TreeEnv K} {rows : List (Row K)} (hw : ∀ r ∈ rows, 0 ≤ r.w) (h1 : (rows.map Row.w).sum = 1)
    (ha : ∀ r ∈ rows, env.fmin ≤ r.x) {pack : List (Bin K × LabelMap K)} (hrep : Rep rows env.fmin pack) (c : Criterion) :
    ∃ t s, c.splitBy env pack = .ok (t, s) ∧ ScanOk env.ln rows c env.fmin pack t s := by
  cases c with
  | entropy => exact splitByEntropy_ok hw h1 ha hrep
  | gini => exact splitByGini_ok hw h1 ha hrep
  | twoing => exact splitByTwoing_ok hw h1 ha hrep
  | edge =>
    obtain ⟨t, s, e1, e2⟩ := splitByEdge_ok ha hrep
    exact ⟨t, s, by simp [Criterion.splitBy, e1], e2⟩

end Miniboosts
