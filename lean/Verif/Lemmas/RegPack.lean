import Verif.Spec.RegTree
import Verif.Lemmas.Tree

set_option linter.unusedSectionVars false

/-! # Histograms of gradients -/

namespace Miniboosts

open Spec

variable {K : Type*} [Field K] [LinearOrder K] [IsStrictOrderedRing K]

/-- The sum of `f` over the rows with value in `[a, b)`. -/
def seg (x f : Nat → K) (idx : List Nat) (a b : K) : K := (idx.map (fun i => if a ≤ x i ∧ x i < b then f i else 0)).sum

/-- The sum of `f` over the rows with value below `t`. -/
def lo (x f : Nat → K) (idx : List Nat) (t : K) : K := (idx.map (fun i => if x i < t then f i else 0)).sum

/-- The sum of `f` over the rows with value at least `t`. -/
def hi (x f : Nat → K) (idx : List Nat) (t : K) : K := (idx.map (fun i => if x i < t then 0 else f i)).sum

/-- `t` and `t'` divide the rows in the same way. -/
def SameCut (x : Nat → K) (idx : List Nat) (t t' : K) : Prop := ∀ i ∈ idx, (x i < t ↔ x i < t')

theorem sameCut_refl (x : Nat → K) (idx : List Nat) (t : K) : SameCut x idx t t := fun _ _ => Iff.rfl

theorem sameCut_symm {x : Nat → K} {idx : List Nat} {t t' : K} (h : SameCut x idx t t') : SameCut x idx t' t :=
  fun i hi => (h i hi).symm

theorem lo_congr {x : Nat → K} (f : Nat → K) {idx : List Nat} {t t' : K} (h : SameCut x idx t t') : lo x f idx t = lo x f idx t' := by
  unfold lo
  congr 1
  apply List.map_congr_left
  intro i hi
  simp only [h i hi]

theorem hi_congr {x : Nat → K} (f : Nat → K) {idx : List Nat} {t t' : K} (h : SameCut x idx t t') : hi x f idx t = hi x f idx t' := by
  unfold hi
  congr 1
  apply List.map_congr_left
  intro i hi
  simp only [h i hi]

theorem lo_add_hi (x f : Nat → K) (idx : List Nat) (t : K) : lo x f idx t + hi x f idx t = (idx.map f).sum := by
  unfold lo hi
  rw [← List.sum_map_add]
  congr 1
  apply List.map_congr_left
  intro i _
  split <;> simp

theorem lo_add_seg (x f : Nat → K) (idx : List Nat) {a b : K} (hab : a ≤ b) : lo x f idx a + seg x f idx a b = lo x f idx b := by
  unfold lo seg
  rw [← List.sum_map_add]
  congr 1
  apply List.map_congr_left
  intro i _
  by_cases h1 : x i < a
  · simp [h1, h1.trans_le hab, not_le.mpr h1]
  · simp [h1, not_lt.mp h1]

theorem hi_sub_seg (x f : Nat → K) (idx : List Nat) {a b : K} (hab : a ≤ b) : hi x f idx a - seg x f idx a b = hi x f idx b := by
  have h1 := lo_add_hi x f idx a
  have h2 := lo_add_hi x f idx b
  have h3 := lo_add_seg x f idx hab
  linear_combination h1 - h2 - h3

theorem seg_congr {x : Nat → K} (f : Nat → K) {idx : List Nat} {a b a' b' : K}
    (h : ∀ i ∈ idx, (a ≤ x i ∧ x i < b) ↔ (a' ≤ x i ∧ x i < b')) : seg x f idx a b = seg x f idx a' b' := by
  unfold seg
  congr 1
  apply List.map_congr_left
  intro i hi
  simp only [h i hi]

theorem seg_pos {x f : Nat → K} {idx : List Nat} (hf : ∀ i ∈ idx, 0 < f i) {a b : K} (h : seg x f idx a b = 0) :
    ∀ i ∈ idx, ¬ (a ≤ x i ∧ x i < b) := by
  intro i hi hx
  have hnn : ∀ v ∈ idx.map (fun i => if a ≤ x i ∧ x i < b then f i else 0), 0 ≤ v := by
    intro v hv
    obtain ⟨j, hj, rfl⟩ := List.mem_map.mp hv
    split
    · exact (hf j hj).le
    · exact le_refl _
  have hle := List.single_le_sum hnn _ (List.mem_map.mpr ⟨i, hi, rfl⟩)
  rw [if_pos hx] at hle
  have : seg x f idx a b ≤ 0 := h.le
  exact absurd (hle.trans this) (not_le.mpr (hf i hi))

/-- The table lists consecutive bins from `a` on, the sums of the rows in each, and nothing is left beyond the last. -/
def RRep (x g h : Nat → K) (idx : List Nat) : K → List (Bin K × K × K) → Prop
  | a, [] => ∀ i ∈ idx, x i < a
  | a, (b, p, q) :: l => b.start = a ∧ a < b.stop ∧ p = seg x g idx a b.stop ∧ q = seg x h idx a b.stop ∧ RRep x g h idx b.stop l

/-! ## Filling -/

/-- Each cell holds the sums of the rows processed so far which lie in its bin. -/
def RCells (x g h : Nat → K) (idx : List Nat) (bins : List (Bin K)) (packed : List (K × K)) : Prop :=
  packed.length = bins.length ∧ ∀ (k : Nat) b p, bins[k]? = some b → packed[k]? = some p →
    p = (seg x g idx b.start b.stop, seg x h idx b.start b.stop)

theorem seg_append (x f : Nat → K) (l1 l2 : List Nat) (a b : K) : seg x f (l1 ++ l2) a b = seg x f l1 a b + seg x f l2 a b := by
  simp [seg]

theorem rpackLoop_ok {a z : K} {bins : List (Bin K)} (ht : Tiles a bins z) {n : Nat} {f : Feature K}
    (hf : ColumnOk n f) {g h : List K} (hg : g.length = n) (hh : h.length = n) (idx : List Nat)
    (hidx : ∀ i ∈ idx, i < n ∧ a ≤ f.val i ∧ f.val i < z) : ∀ (done : List Nat) (packed : List (K × K)),
    RCells f.val (fun i => g.getD i 0) (fun i => h.getD i 0) done bins packed →
    ∃ packed', RegBins.packLoop bins f g h idx packed = .ok packed' ∧
      RCells f.val (fun i => g.getD i 0) (fun i => h.getD i 0) (done ++ idx) bins packed' := by
  induction idx with
  | nil => intro done packed hp; exact ⟨packed, rfl, by simpa using hp⟩
  | cons i idx ih =>
    intro done packed hp
    obtain ⟨hi, hx1, hx2⟩ := hidx i (by simp)
    unfold RegBins.packLoop
    rw [Feature.index_val hf hi]
    simp only
    obtain ⟨k, b, e1, e2, e3⟩ := position_ok ht hx1 hx2
    rw [e1]
    have hk : k < packed.length := by
      rw [hp.1]; exact (List.getElem?_eq_some_iff.mp e2).1
    simp only [List.getElem?_eq_getElem hk, vecAt_ok (show i < g.length by omega) 0, vecAt_ok (show i < h.length by omega) 0]
    have hnew : RCells f.val (fun i => g.getD i 0) (fun i => h.getD i 0) (done ++ [i]) bins
        (packed.set k (packed[k].1 + g.getD i 0, packed[k].2 + h.getD i 0)) := by
      refine ⟨by simpa using hp.1, ?_⟩
      intro k' b' p' hb' hp'
      rw [seg_append, seg_append]
      by_cases hkk : k' = k
      · subst hkk
        rw [List.getElem?_set_self hk, Option.some.injEq] at hp'
        subst hp'
        rw [e2, Option.some.injEq] at hb'
        subst hb'
        have := hp.2 k' b packed[k'] e2 (List.getElem?_eq_getElem hk)
        rw [contains_iff] at e3
        rw [this]
        simp [seg, e3]
      · rw [List.getElem?_set_ne (Ne.symm hkk)] at hp'
        have := hp.2 k' b' p' hb' hp'
        have hno : ¬ (b'.start ≤ f.val i ∧ f.val i < b'.stop) := by
          intro hc
          exact hkk (tiles_unique ht hb' e2 (contains_iff.mpr hc) e3)
        rw [this]
        simp [seg, hno]
    obtain ⟨packed', h1, h2⟩ := ih (fun j hj => hidx j (List.mem_cons_of_mem _ hj)) _ _ hnew
    exact ⟨packed', h1, by simpa using h2⟩

theorem rcells_start (x g h : Nat → K) (bins : List (Bin K)) : RCells x g h [] bins (List.replicate bins.length (0, 0)) := by
  refine ⟨by simp, ?_⟩
  intro k b p hb hp
  rw [List.getElem?_replicate] at hp
  split at hp
  · injection hp with hp; rw [← hp]; simp [seg]
  · cases hp

theorem rrep_of_cells {x g h : Nat → K} {idx : List Nat} {a z : K} {bins : List (Bin K)} (ht : Tiles a bins z) {packed : List (K × K)}
    (hc : RCells x g h idx bins packed) (hz : ∀ i ∈ idx, x i < z) : RRep x g h idx a (bins.zip packed) := by
  induction bins generalizing a packed with
  | nil =>
    have : a = z := ht
    subst this
    simpa [RRep] using hz
  | cons b bins ih =>
    cases packed with
    | nil => have := hc.1; simp at this
    | cons m packed =>
      obtain ⟨p, q⟩ := m
      simp only [List.zip_cons_cons, RRep]
      have h0 := hc.2 0 b (p, q) rfl rfl
      rw [Prod.mk.injEq] at h0
      refine ⟨ht.1, ht.2.1, by rw [← ht.1]; exact h0.1, by rw [← ht.1]; exact h0.2, ih ht.2.2 ⟨by have := hc.1; simpa using this, ?_⟩⟩
      intro k b' m' hb hm
      exact hc.2 (k + 1) b' m' hb hm

/-! ## Dropping empty bins -/

theorem nonzero_false {p : Bin K × K × K} : RegBins.nonzero p = false ↔ p.2.1 = 0 ∧ p.2.2 = 0 := by
  unfold RegBins.nonzero
  rw [decide_eq_false_iff_not, not_or, not_not, not_not]

/-- The merging loop: the result tiles from `prev.start`, holds the sums, its boundaries divide the rows as the boundaries of
the bins it was given do. -/
theorem rmergeLoop {x g h : Nat → K} {idx : List Nat} (hh : ∀ i ∈ idx, 0 < h i) (rest : List (Bin K × K × K)) :
    ∀ (prev : Bin K) (p q : K) (a : K), prev.start < prev.stop → prev.stop ≤ a →
      (∀ i ∈ idx, ¬ (prev.stop ≤ x i ∧ x i < a)) → RRep x g h idx a rest →
      p = seg x g idx prev.start prev.stop → q = seg x h idx prev.start prev.stop →
      RRep x g h idx prev.start (RegBins.mergeLoop prev p q (rest.filter RegBins.nonzero)) ∧
      (∀ t, (t = a ∨ ∃ p ∈ rest, t = p.1.stop) →
        ∃ r ∈ RegBins.mergeLoop prev p q (rest.filter RegBins.nonzero), SameCut x idx t r.1.stop) ∧
      (∀ r ∈ RegBins.mergeLoop prev p q (rest.filter RegBins.nonzero),
        ∃ t, (t = prev.stop ∨ ∃ p ∈ rest, t = p.1.stop) ∧ SameCut x idx r.1.stop t) := by
  induction rest with
  | nil =>
    intro prev p q a h1 h2 h3 h4 h5 h6
    simp only [List.filter_nil, RegBins.mergeLoop, RRep, List.mem_singleton, List.not_mem_nil, false_and, exists_false, or_false]
    refine ⟨⟨trivial, h1, h5, h6, ?_⟩, ?_, ?_⟩
    · intro i hi
      by_contra hn
      exact h3 i hi ⟨not_lt.mp hn, h4 i hi⟩
    · rintro t rfl
      refine ⟨_, rfl, fun i hi => ⟨fun h => ?_, fun h => h.trans_le h2⟩⟩
      by_contra hn
      exact h3 i hi ⟨not_lt.mp hn, h⟩
    · rintro r rfl
      exact ⟨prev.stop, rfl, sameCut_refl _ _ _⟩
  | cons c rest ih =>
    obtain ⟨b, p', q'⟩ := c
    intro prev p q a h1 h2 h3 h4 h5 h6
    obtain ⟨r1, r2, r3, r4, r5⟩ := h4
    by_cases hz : RegBins.nonzero (b, p', q') = true
    · rw [List.filter_cons_of_pos hz]
      simp only [RegBins.mergeLoop]
      set c := (prev.stop + b.start) / 2 with hc
      have hc1 : prev.stop ≤ c := by rw [hc, r1]; linarith
      have hc2 : c ≤ a := by rw [hc, r1]; linarith
      have hsegc : ∀ f : Nat → K, seg x f idx a b.stop = seg x f idx c b.stop := by
        intro f
        apply seg_congr
        intro i hi
        constructor
        · rintro ⟨h, h'⟩; exact ⟨hc2.trans h, h'⟩
        · rintro ⟨h, h'⟩
          refine ⟨?_, h'⟩
          by_contra hn
          exact h3 i hi ⟨hc1.trans h, not_le.mp hn⟩
      obtain ⟨i1, i2, i3⟩ := ih ⟨c, b.stop⟩ p' q' b.stop (by simp only; linarith) (le_refl _)
        (by intro i hi hx; simp only at hx; exact absurd hx.2 (not_lt.mpr hx.1)) r5 (by rw [r3]; exact hsegc g) (by rw [r4]; exact hsegc h)
      have hsegp : ∀ f : Nat → K, seg x f idx prev.start prev.stop = seg x f idx prev.start c := by
        intro f
        apply seg_congr
        intro i hi
        constructor
        · rintro ⟨h, h'⟩; exact ⟨h, h'.trans_le hc1⟩
        · rintro ⟨h, h'⟩
          refine ⟨h, ?_⟩
          by_contra hn
          exact h3 i hi ⟨not_lt.mp hn, h'.trans_le hc2⟩
      have hsame : ∀ t, prev.stop ≤ t → t ≤ a → SameCut x idx t c := by
        intro t t1 t2 i hi
        constructor
        · intro h
          by_contra hn
          exact h3 i hi ⟨hc1.trans (not_lt.mp hn), h.trans_le t2⟩
        · intro h
          by_contra hn
          exact h3 i hi ⟨t1.trans (not_lt.mp hn), h.trans_le hc2⟩
      refine ⟨⟨rfl, by linarith, by rw [h5]; exact hsegp g, by rw [h6]; exact hsegp h, i1⟩, ?_, ?_⟩
      · rintro t (rfl | ⟨p, hp, rfl⟩)
        · exact ⟨_, List.mem_cons_self, hsame t h2 (le_refl _)⟩
        · rcases List.mem_cons.mp hp with rfl | hp
          · obtain ⟨r, hr, hs⟩ := i2 b.stop (Or.inl rfl)
            exact ⟨r, List.mem_cons_of_mem _ hr, hs⟩
          · obtain ⟨r, hr, hs⟩ := i2 p.1.stop (Or.inr ⟨p, hp, rfl⟩)
            exact ⟨r, List.mem_cons_of_mem _ hr, hs⟩
      · intro r hr
        rcases List.mem_cons.mp hr with rfl | hr
        · exact ⟨prev.stop, Or.inl rfl, sameCut_symm (hsame prev.stop (le_refl _) h2)⟩
        · obtain ⟨t, ht, hs⟩ := i3 r hr
          refine ⟨t, Or.inr ?_, hs⟩
          rcases ht with rfl | ⟨p, hp, rfl⟩
          · exact ⟨_, List.mem_cons_self, rfl⟩
          · exact ⟨p, List.mem_cons_of_mem _ hp, rfl⟩
    · rw [List.filter_cons_of_neg hz]
      rw [Bool.not_eq_true, nonzero_false] at hz
      have hno := seg_pos (x := x) hh (a := a) (b := b.stop) (by rw [← r4]; exact hz.2)
      have h3' : ∀ i ∈ idx, ¬ (prev.stop ≤ x i ∧ x i < b.stop) := by
        intro i hi hx
        by_cases ha : x i < a
        · exact h3 i hi ⟨hx.1, ha⟩
        · exact hno i hi ⟨not_lt.mp ha, hx.2⟩
      obtain ⟨i1, i2, i3⟩ := ih prev p q b.stop h1 (h2.trans r2.le) h3' r5 h5 h6
      refine ⟨i1, ?_, ?_⟩
      · rintro t (rfl | ⟨p, hp, rfl⟩)
        · obtain ⟨r, hr, hs⟩ := i2 b.stop (Or.inl rfl)
          refine ⟨r, hr, fun i hi => ?_⟩
          rw [← hs i hi]
          constructor
          · intro h; exact h.trans r2
          · intro h
            by_contra hn
            exact hno i hi ⟨not_lt.mp hn, h⟩
        · rcases List.mem_cons.mp hp with rfl | hp
          · exact i2 b.stop (Or.inl rfl)
          · exact i2 _ (Or.inr ⟨p, hp, rfl⟩)
      · intro r hr
        obtain ⟨t, ht, hs⟩ := i3 r hr
        refine ⟨t, ?_, hs⟩
        rcases ht with rfl | ⟨p, hp, rfl⟩
        · exact Or.inl rfl
        · exact Or.inr ⟨p, List.mem_cons_of_mem _ hp, rfl⟩

/-- Skipping the empty bins at the beginning. -/
theorem rremoveZero {x g h : Nat → K} {idx : List Nat} (hne : idx ≠ []) (hh : ∀ i ∈ idx, 0 < h i) {a : K} {bins : List (Bin K)}
    {packed : List (K × K)} (ha : ∀ i ∈ idx, a ≤ x i) (hr : RRep x g h idx a (bins.zip packed)) (hz : bins ≠ [] ∧ packed.length = bins.length) :
    ∃ out, RegBins.removeZero bins packed = .ok out ∧ RRep x g h idx a out ∧ out ≠ [] ∧
      (∀ p ∈ bins.zip packed, SameCut x idx p.1.stop a ∨ ∃ q ∈ out, SameCut x idx p.1.stop q.1.stop) ∧
      (∀ q ∈ out, ∃ p ∈ bins.zip packed, SameCut x idx q.1.stop p.1.stop) := by
  have mne : ∀ (prev : Bin K) p q l, RegBins.mergeLoop prev p q l ≠ [] := by
    intro prev p q l
    cases l <;> simp [RegBins.mergeLoop]
  unfold RegBins.removeZero
  have hP : bins.zip packed ≠ [] := by
    cases bins with
    | nil => exact absurd rfl hz.1
    | cons b bins =>
      cases packed with
      | nil => have := hz.2; simp at this
      | cons m packed => simp
  generalize bins.zip packed = P at hr hP
  cases P with
  | nil => exact absurd rfl hP
  | cons c rest =>
    obtain ⟨b, p, q⟩ := c
    simp only
    obtain ⟨r1, r2, r3, r4, r5⟩ := hr
    subst r1
    by_cases hpq : p = 0 ∧ q = 0
    swap
    · rw [if_neg hpq]
      obtain ⟨i1, i2, i3⟩ := rmergeLoop hh rest b p q b.stop r2 (le_refl _)
        (by intro i _ hx; exact absurd hx.2 (not_lt.mpr hx.1)) r5 r3 r4
      refine ⟨_, rfl, i1, mne _ _ _ _, ?_, ?_⟩
      · intro c hc
        right
        rcases List.mem_cons.mp hc with rfl | hc
        · exact i2 b.stop (Or.inl rfl)
        · exact i2 _ (Or.inr ⟨c, hc, rfl⟩)
      · intro r hr
        obtain ⟨t, ht, hs⟩ := i3 r hr
        rcases ht with rfl | ⟨c, hc, rfl⟩
        · exact ⟨_, List.mem_cons_self, hs⟩
        · exact ⟨c, List.mem_cons_of_mem _ hc, hs⟩
    · rw [if_pos hpq]
      have key : ∀ (l : List (Bin K × K × K)) (c : K), b.start < c → (∀ i ∈ idx, c ≤ x i) → RRep x g h idx c l →
          ∃ nb ng nh rest', l.filter RegBins.nonzero = (nb, ng, nh) :: rest' ∧
            RRep x g h idx b.start (RegBins.mergeLoop ⟨b.start, nb.stop⟩ ng nh rest') ∧
            (∀ p ∈ l, SameCut x idx p.1.stop b.start ∨
              ∃ q ∈ RegBins.mergeLoop ⟨b.start, nb.stop⟩ ng nh rest', SameCut x idx p.1.stop q.1.stop) ∧
            (∀ q ∈ RegBins.mergeLoop ⟨b.start, nb.stop⟩ ng nh rest', ∃ p ∈ l, SameCut x idx q.1.stop p.1.stop) := by
        intro l
        induction l with
        | nil =>
          intro c _ hc hl
          obtain ⟨i, hi⟩ := List.exists_mem_of_ne_nil idx hne
          exact absurd (hl i hi) (not_lt.mpr (hc i hi))
        | cons w l ih =>
          obtain ⟨d, dp, dq⟩ := w
          intro c hbc hc hl
          obtain ⟨s1, s2, s3, s4, s5⟩ := hl
          by_cases hnz : RegBins.nonzero (d, dp, dq) = true
          · have hs : ∀ f : Nat → K, seg x f idx c d.stop = seg x f idx b.start d.stop := by
              intro f
              apply seg_congr
              intro i hi
              exact ⟨fun h => ⟨ha i hi, h.2⟩, fun h => ⟨hc i hi, h.2⟩⟩
            obtain ⟨i1, i2, i3⟩ := rmergeLoop hh l ⟨b.start, d.stop⟩ dp dq d.stop (hbc.trans s2) (le_refl _)
              (by intro i _ hx; simp only at hx; exact absurd hx.2 (not_lt.mpr hx.1)) s5 (by rw [s3]; exact hs g) (by rw [s4]; exact hs h)
            refine ⟨d, dp, dq, _, List.filter_cons_of_pos hnz, i1, ?_, ?_⟩
            · intro p hp
              rcases List.mem_cons.mp hp with rfl | hp
              · exact Or.inr (i2 d.stop (Or.inl rfl))
              · exact Or.inr (i2 p.1.stop (Or.inr ⟨p, hp, rfl⟩))
            · intro r hr
              obtain ⟨t, ht, hs⟩ := i3 r hr
              rcases ht with rfl | ⟨c, hc, rfl⟩
              · exact ⟨_, List.mem_cons_self, hs⟩
              · exact ⟨c, List.mem_cons_of_mem _ hc, hs⟩
          · rw [Bool.not_eq_true] at hnz
            have hq := (nonzero_false.mp hnz).2
            have hno := seg_pos (x := x) hh (a := c) (b := d.stop) (by rw [← s4]; exact hq)
            have hc' : ∀ i ∈ idx, d.stop ≤ x i := by
              intro i hi
              by_contra hn
              exact hno i hi ⟨hc i hi, not_le.mp hn⟩
            obtain ⟨nb, ng, nh, rest', e1, e2, e3, e4⟩ := ih d.stop (hbc.trans s2) hc' s5
            refine ⟨nb, ng, nh, rest', by rw [List.filter_cons_of_neg (by rw [hnz]; simp)]; exact e1, e2, ?_, ?_⟩
            · intro p hp
              rcases List.mem_cons.mp hp with rfl | hp
              · left
                intro i hi
                constructor
                · intro h; exact absurd h (not_lt.mpr (hc' i hi))
                · intro h; exact absurd h (not_lt.mpr (ha i hi))
              · exact e3 p hp
            · intro r hr
              obtain ⟨p, hp, hs⟩ := e4 r hr
              exact ⟨p, List.mem_cons_of_mem _ hp, hs⟩
      have hno := seg_pos (x := x) hh (a := b.start) (b := b.stop) (by rw [← r4]; exact hpq.2)
      have hc' : ∀ i ∈ idx, b.stop ≤ x i := by
        intro i hi
        by_contra hn
        exact hno i hi ⟨ha i hi, not_le.mp hn⟩
      obtain ⟨nb, ng, nh, rest', e1, e2, e3, e4⟩ := key rest b.stop r2 hc' r5
      rw [e1]
      refine ⟨_, rfl, e2, mne _ _ _ _, ?_, ?_⟩
      · intro p hp
        rcases List.mem_cons.mp hp with rfl | hp
        · left
          intro i hi
          constructor
          · intro h; exact absurd h (not_lt.mpr (hc' i hi))
          · intro h; exact absurd h (not_lt.mpr (ha i hi))
        · exact e3 p hp
      · intro r hr
        obtain ⟨p, hp, hs⟩ := e4 r hr
        exact ⟨p, List.mem_cons_of_mem _ hp, hs⟩

theorem tiles_starts {a z : K} {bins : List (Bin K)} (h : Tiles a bins z) : ∀ b ∈ bins, b.start = a ∨ ∃ c ∈ bins, b.start = c.stop := by
  induction bins generalizing a with
  | nil => intro b hb; cases hb
  | cons c bins ih =>
    intro b hb
    rcases List.mem_cons.mp hb with rfl | hb
    · exact Or.inl h.1
    · rcases ih h.2.2 b hb with e | ⟨d, hd, e⟩
      · exact Or.inr ⟨c, by simp, e⟩
      · exact Or.inr ⟨d, List.mem_cons_of_mem _ hd, e⟩

/-- The table of a feature for rows with positive second derivatives. -/
theorem rpack_ok {a z : K} (haz : a < z) {bins : List (Bin K)} (ht : Tiles a bins z) {n : Nat} {f : Feature K}
    (hf : ColumnOk n f) {g h : List K} (hg : g.length = n) (hh : h.length = n) {idx : List Nat} (hne : idx ≠ [])
    (hidx : ∀ i ∈ idx, i < n ∧ 0 < h.getD i 0 ∧ a ≤ f.val i ∧ f.val i < z) :
    ∃ out, RegBins.pack bins idx f g h = .ok out ∧ out ≠ [] ∧
      RRep f.val (fun i => g.getD i 0) (fun i => h.getD i 0) idx a out ∧
      (∀ b ∈ bins, ∀ t, t = b.start ∨ t = b.stop → (SameCut f.val idx t a ∨ ∃ q ∈ out, SameCut f.val idx t q.1.stop)) ∧
      ∀ q ∈ out, ∃ b ∈ bins, SameCut f.val idx q.1.stop b.stop := by
  obtain ⟨packed, e1, e2⟩ := rpackLoop_ok ht hf hg hh idx (fun i hi => ⟨(hidx i hi).1, (hidx i hi).2.2⟩) [] _ (rcells_start _ _ _ bins)
  rw [List.nil_append] at e2
  have hbne : bins ≠ [] := by
    rintro rfl
    exact haz.ne ht
  have hrep := rrep_of_cells ht e2 (fun i hi => (hidx i hi).2.2.2)
  obtain ⟨out, o1, o2, o3, o4, o5⟩ := rremoveZero hne (fun i hi => (hidx i hi).2.1) (fun i hi => (hidx i hi).2.2.1) hrep ⟨hbne, e2.1⟩
  have hstop : ∀ b ∈ bins, SameCut f.val idx b.stop a ∨ ∃ q ∈ out, SameCut f.val idx b.stop q.1.stop := by
    intro b hb
    obtain ⟨p, hp, rfl⟩ := zip_mem_left e2.1 hb
    exact o4 p hp
  refine ⟨out, by unfold RegBins.pack; rw [e1]; exact o1, o3, o2, ?_, ?_⟩
  · rintro b hb t (rfl | rfl)
    · rcases tiles_starts ht b hb with e | ⟨c, hc, e⟩
      · left; rw [e]; exact sameCut_refl _ _ _
      · rw [e]; exact hstop c hc
    · exact hstop b hb
  · intro q hq
    obtain ⟨p, hp, hs⟩ := o5 q hq
    exact ⟨p.1, (List.of_mem_zip (a := p.1) (b := p.2) hp).1, hs⟩

end Miniboosts
