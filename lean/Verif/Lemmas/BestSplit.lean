import Verif.Lemmas.Criterion

set_option linter.unusedSectionVars false

namespace Miniboosts

open Spec

variable {K : Type*} [Field K] [LinearOrder K] [IsStrictOrderedRing K]

/-! ## Reported thresholds divide the rows as bin boundaries do -/

theorem mergeLoop_stops {W : K} {rows : List (Row K)} (hw : ∀ r ∈ rows, 0 < r.w)
    (rest : List (Bin K × LabelMap K)) : ∀ (prev : Bin K) (pw : LabelMap K) (a : K), prev.stop ≤ a →
      (∀ r ∈ rows, ¬ (prev.stop ≤ r.x ∧ r.x < a)) → Rep rows a rest →
      ∀ q ∈ Bins.mergeLoop W prev pw (rest.filter (fun p => !p.2.isEmpty)),
        ∃ t, (t = prev.stop ∨ ∃ p ∈ rest, t = p.1.stop) ∧ SameSplit rows q.1.stop t := by
  induction rest with
  | nil =>
    intro prev pw a _ _ _ q hq
    simp only [List.filter_nil, Bins.mergeLoop, List.mem_singleton] at hq
    subst hq
    exact ⟨prev.stop, Or.inl rfl, fun r _ => Iff.rfl⟩
  | cons p rest ih =>
    obtain ⟨b, m⟩ := p
    intro prev pw a h2 h3 h4 q hq
    obtain ⟨r1, r2, r3, r4, r5⟩ := h4
    cases m with
    | nil =>
      have hno := empty_no_rows hw r3
      have e : List.filter (fun p : Bin K × LabelMap K => !p.2.isEmpty) ((b, []) :: rest) = rest.filter (fun p => !p.2.isEmpty) := by
        simp
      rw [e] at hq
      obtain ⟨t, ht, hs⟩ := ih prev pw b.stop (h2.trans r2.le) (by
        intro r hr hx
        by_cases ha : r.x < a
        · exact h3 r hr ⟨hx.1, ha⟩
        · exact hno r hr ⟨not_lt.mp ha, hx.2⟩) r5 q hq
      refine ⟨t, ?_, hs⟩
      rcases ht with ht | ⟨p, hp, ht⟩
      · exact Or.inl ht
      · exact Or.inr ⟨p, List.mem_cons_of_mem _ hp, ht⟩
    | cons p0 m =>
      have e : List.filter (fun p : Bin K × LabelMap K => !p.2.isEmpty) ((b, p0 :: m) :: rest)
          = (b, p0 :: m) :: rest.filter (fun p => !p.2.isEmpty) := by simp
      rw [e] at hq
      simp only [Bins.mergeLoop] at hq
      rcases List.mem_cons.mp hq with rfl | hq
      · refine ⟨prev.stop, Or.inl rfl, fun r hr => ?_⟩
        simp only
        have hc1 : prev.stop ≤ (prev.stop + b.start) / 2 := by rw [r1]; linarith
        have hc2 : (prev.stop + b.start) / 2 ≤ a := by rw [r1]; linarith
        constructor
        · intro h
          by_contra hn
          exact h3 r hr ⟨not_lt.mp hn, h.trans_le hc2⟩
        · intro h; exact h.trans_le hc1
      · obtain ⟨t, ht, hs⟩ := ih ⟨(prev.stop + b.start) / 2, b.stop⟩ _ b.stop (le_refl _)
          (by intro r hr hx; exact absurd hx.2 (not_lt.mpr hx.1)) r5 q hq
        refine ⟨t, Or.inr ?_, hs⟩
        rcases ht with ht | ⟨p, hp, ht⟩
        · exact ⟨(b, p0 :: m), by simp, ht⟩
        · exact ⟨p, List.mem_cons_of_mem _ hp, ht⟩

theorem removeZeroWeight_stops {rows : List (Row K)} (hw : ∀ r ∈ rows, 0 < r.w) {a : K} {bins : List (Bin K)}
    {packed : List (LabelMap K)} (h : Rep rows a (bins.zip packed)) {out : List (Bin K × LabelMap K)}
    (ho : Bins.removeZeroWeight bins packed = .ok out) :
    ∀ q ∈ out, ∃ p ∈ bins.zip packed, SameSplit rows q.1.stop p.1.stop := by
  unfold Bins.removeZeroWeight at ho
  simp only at ho
  split at ho
  swap
  · cases ho
  generalize bins.zip packed = P at h ho
  generalize (packed.map HMap.total).sum = W at ho
  cases P with
  | nil => cases ho
  | cons p rest =>
    obtain ⟨b, m⟩ := p
    simp only at ho
    obtain ⟨r1, r2, r3, r4, r5⟩ := h
    cases m with
    | cons p0 m =>
      simp only [List.isEmpty_cons, Bool.false_eq_true, if_false, Except.ok.injEq] at ho
      subst ho
      intro q hq
      obtain ⟨t, ht, hs⟩ := mergeLoop_stops hw rest b _ b.stop (le_refl _)
        (by intro r hr hx; exact absurd hx.2 (not_lt.mpr hx.1)) r5 q hq
      rcases ht with rfl | ⟨p, hp, rfl⟩
      · exact ⟨(b, p0 :: m), by simp, hs⟩
      · exact ⟨p, List.mem_cons_of_mem _ hp, hs⟩
    | nil =>
      simp only [List.isEmpty_nil, if_true] at ho
      have key : ∀ (l : List (Bin K × LabelMap K)) (c : K), Rep rows c l → ∀ nb nw rest',
          l.filter (fun p => !p.2.isEmpty) = (nb, nw) :: rest' → ∀ v pw, ∀ q ∈ Bins.mergeLoop W ⟨v, nb.stop⟩ pw rest',
            ∃ p ∈ l, SameSplit rows q.1.stop p.1.stop := by
        intro l
        induction l with
        | nil => intro c _ nb nw rest' e; simp at e
        | cons p l ih =>
          obtain ⟨d, w⟩ := p
          intro c hc nb nw rest' e v pw q hq
          obtain ⟨s1, s2, s3, s4, s5⟩ := hc
          cases w with
          | nil =>
            obtain ⟨p, hp, hs⟩ := ih _ s5 nb nw rest' (by simpa using e) v pw q hq
            exact ⟨p, List.mem_cons_of_mem _ hp, hs⟩
          | cons p0 w =>
            have e' : (d, p0 :: w) :: l.filter (fun p => !p.2.isEmpty) = (nb, nw) :: rest' := by
              rw [← e]; simp
            injection e' with e1 e2
            injection e1 with e1 e3
            subst e1; subst e2
            obtain ⟨t, ht, hs⟩ := mergeLoop_stops hw l ⟨v, d.stop⟩ pw d.stop (le_refl _)
              (by intro r hr hx; exact absurd hx.2 (not_lt.mpr hx.1)) s5 q hq
            rcases ht with rfl | ⟨p, hp, rfl⟩
            · exact ⟨(d, p0 :: w), by simp, hs⟩
            · exact ⟨p, List.mem_cons_of_mem _ hp, hs⟩
      cases hf : rest.filter (fun p => !p.2.isEmpty) with
      | nil => rw [hf] at ho; cases ho
      | cons p' rest' =>
        obtain ⟨nb, nw⟩ := p'
        rw [hf] at ho
        simp only [Except.ok.injEq] at ho
        subst ho
        intro q hq
        obtain ⟨p, hp, hs⟩ := key rest b.stop r5 nb nw rest' hf _ _ q hq
        exact ⟨p, List.mem_cons_of_mem _ hp, hs⟩

/-! ## The table built for a feature -/

theorem zip_mem_left {A B : Type*} {l : List A} {l' : List B} (h : l'.length = l.length) {a : A} (ha : a ∈ l) :
    ∃ p ∈ l.zip l', p.1 = a := by
  induction l generalizing l' with
  | nil => cases ha
  | cons c l ih =>
    cases l' with
    | nil => simp at h
    | cons d l' =>
      rcases List.mem_cons.mp ha with rfl | ha
      · exact ⟨(a, d), by simp, rfl⟩
      · obtain ⟨p, hp, e⟩ := ih (by simpa using h) ha
        exact ⟨p, by simp [hp], e⟩

theorem pack_ok [FloorRing K] {a z : K} (haz : a < z) {bins : List (Bin K)} (ht : Tiles a bins z) {n : Nat} {f : Feature K}
    (hf : ColumnOk n f) {y dist : List K} (hy : y.length = n) (hd : dist.length = n) {idx : List Nat} (hne : idx ≠ [])
    (hidx : ∀ i ∈ idx, i < n ∧ 0 < dist.getD i 0 ∧ a ≤ f.val i ∧ f.val i < z) :
    ∃ out, Bins.pack bins idx f y dist = .ok out ∧
      Rep (scaled ((idx.map (fun i => dist.getD i 0)).sum) (idx.map (rowOf f y dist))) a out ∧
      (∀ b ∈ bins, ∀ t, t = b.start ∨ t = b.stop →
        (SameSplit (idx.map (rowOf f y dist)) t a ∨ ∃ q ∈ out, SameSplit (idx.map (rowOf f y dist)) t q.1.stop)) ∧
      ∀ q ∈ out, ∃ b ∈ bins, SameSplit (idx.map (rowOf f y dist)) q.1.stop b.stop := by
  obtain ⟨packed, e1, e2⟩ := packLoop_ok ht hf hy hd idx hidx [] _ (cellsOk_start bins)
  rw [List.nil_append] at e2
  set rows := idx.map (rowOf f y dist) with hrows
  have hw : ∀ r ∈ rows, 0 < r.w := by
    intro r hr
    obtain ⟨i, hi, rfl⟩ := List.mem_map.mp hr
    exact (hidx i hi).2.1
  have hx : ∀ r ∈ rows, a ≤ r.x ∧ r.x < z := by
    intro r hr
    obtain ⟨i, hi, rfl⟩ := List.mem_map.mp hr
    exact (hidx i hi).2.2
  have hbne : bins ≠ [] := by
    rintro rfl
    exact haz.ne ht
  have hrep := rep_of_cells ht e2.1 e2.2.2 (fun r hr => (hx r hr).2)
  obtain ⟨out, o1, o2, o3⟩ := removeZeroWeight_rep (by rw [hrows]; simpa using hne) hw e2.2.1 (fun r hr => (hx r hr).1) hrep
    ⟨hbne, e2.1⟩
  have hW : (rows.map Row.w).sum = (idx.map (fun i => dist.getD i 0)).sum := by
    rw [hrows, List.map_map]; rfl
  rw [hW] at o2
  refine ⟨out, by unfold Bins.pack; rw [e1]; exact o1, o2, ?_, ?_⟩
  · intro b hb t htt
    obtain ⟨p, hp, rfl⟩ := zip_mem_left e2.1 hb
    exact o3 p hp t htt
  · intro q hq
    obtain ⟨p, hp, hs⟩ := removeZeroWeight_stops hw hrep o1 q hq
    exact ⟨p.1, (List.of_mem_zip (a := p.1) (b := p.2) hp).1, hs⟩

/-! ## Scaling -/

theorem below_scaled (W : K) (rows : List (Row K)) (t : K) (y : Int) : below (scaled W rows) t y = below rows t y / W := by
  unfold below scaled
  rw [List.map_map]
  induction rows with
  | nil => simp
  | cons r rows ih =>
    simp only [List.map_cons, List.sum_cons, Function.comp_apply] at ih ⊢
    rw [ih, add_div]
    congr 1
    split <;> simp

theorem above_scaled (W : K) (rows : List (Row K)) (t : K) (y : Int) : above (scaled W rows) t y = above rows t y / W := by
  unfold above scaled
  rw [List.map_map]
  induction rows with
  | nil => simp
  | cons r rows ih =>
    simp only [List.map_cons, List.sum_cons, Function.comp_apply] at ih ⊢
    rw [ih, add_div]
    congr 1
    split <;> simp

theorem labels_scaled (W : K) (rows : List (Row K)) : labels (scaled W rows) = labels rows := by
  unfold labels scaled
  rw [List.map_map]
  rfl

theorem ratio_scaled {W : K} (hW : 0 < W) (Y : Finset Int) (w : Int → K) (y : Int) :
    w y / W / (∑ z ∈ Y, w z / W) = w y / ∑ z ∈ Y, w z := by
  rw [← Finset.sum_div, div_div_div_cancel_right₀ hW.ne']

theorem sum_scaled_le {W : K} (hW : 0 < W) (Y : Finset Int) (w : Int → K) : (∑ z ∈ Y, w z / W ≤ 0) ↔ ∑ z ∈ Y, w z ≤ 0 := by
  rw [← Finset.sum_div, div_le_iff₀ hW, zero_mul]

theorem entropyOf_scaled {W : K} (hW : 0 < W) (ln : K → K) (Y : Finset Int) (w : Int → K) :
    entropyOf ln Y (fun y => w y / W) = entropyOf ln Y w := by
  unfold entropyOf
  simp only [ratio_scaled hW, sum_scaled_le hW]

theorem giniOf_scaled {W : K} (hW : 0 < W) (Y : Finset Int) (w : Int → K) : giniOf Y (fun y => w y / W) = giniOf Y w := by
  unfold giniOf
  simp only [ratio_scaled hW, sum_scaled_le hW]

theorem splitValue_scaled {W : K} (hW : 0 < W) (ln : K → K) (rows : List (Row K)) (t : K) (c : Criterion) :
    splitValue ln (scaled W rows) t c = splitValue ln rows t c / (if c = .twoing then 1 else W) := by
  have eb : below (scaled W rows) t = fun y => below rows t y / W := funext (below_scaled W rows t)
  have ea : above (scaled W rows) t = fun y => above rows t y / W := funext (above_scaled W rows t)
  cases c with
  | entropy =>
    simp only [splitValue, labels_scaled, eb, ea, entropyOf_scaled hW, reduceCtorEq, if_false]
    rw [← Finset.sum_div, ← Finset.sum_div]
    ring
  | gini =>
    simp only [splitValue, labels_scaled, eb, ea, giniOf_scaled hW, reduceCtorEq, if_false]
    rw [← Finset.sum_div, ← Finset.sum_div]
    ring
  | edge =>
    simp only [splitValue, reduceCtorEq, if_false]
    rw [← abs_of_pos hW, ← abs_div, abs_of_pos hW]
    congr 1
    unfold scaled
    rw [List.map_map]
    induction rows with
    | nil => simp
    | cons r rows ih =>
      simp only [List.map_cons, List.sum_cons, Function.comp_apply] at ih ⊢
      rw [ih, add_div]
      · congr 1; ring
      · exact funext (below_scaled W rows t)
      · exact funext (above_scaled W rows t)
  | twoing =>
    simp only [splitValue, labels_scaled, eb, ea, if_true, div_one]
    simp only [← Finset.sum_div, div_div_div_cancel_right₀ hW.ne', div_eq_zero_iff, hW.ne', or_false]
    split
    · rfl
    · rename_i h
      rw [not_or] at h
      by_cases hs : (∑ y ∈ labels rows, below rows t y) + ∑ y ∈ labels rows, above rows t y = 0
      · rw [hs, ← add_div, hs]; simp
      · rw [← add_div]
        have := hW.ne'
        field_simp

/-! ## One feature -/

/-- What the search over one feature must deliver, in terms of the rows themselves. -/
def FeatureOk (ln : K → K) (c : Criterion) (fmin : K) (bins : List (Bin K)) (rows : List (Row K)) (W t s : K) : Prop :=
  s = splitValue ln rows t c / (if c = .twoing then 1 else W) ∧
  (SameSplit rows t fmin ∨ ∃ b ∈ bins, SameSplit rows t b.stop) ∧
  ∀ b ∈ bins, ∀ t', t' = b.start ∨ t' = b.stop → betterEq c s (splitValue ln rows t' c / (if c = .twoing then 1 else W))

theorem featureSplit_ok [FloorRing K] {env : TreeEnv K} (hext : env.fmin < env.fmax) (c : Criterion) {s : Sample K} (hs : SampleOk s)
    {binsMap : List (String × List (Bin K))} {dist : List K} (hd : dist.length = s.nSample) {idx : List Nat} (hne : idx ≠ [])
    {f : Feature K} (hf : f ∈ s.features) {bins : List (Bin K)} (hb : HMap.get? binsMap f.name = some bins)
    (ht : Tiles env.fmin bins env.fmax)
    (hidx : ∀ i ∈ idx, i < s.nSample ∧ 0 < dist.getD i 0 ∧ env.fmin ≤ f.val i ∧ f.val i < env.fmax) :
    ∃ t v, c.featureSplit env binsMap s dist idx f = .ok (v, f.name, t) ∧
      FeatureOk env.ln c env.fmin bins (idx.map (rowOf f s.target dist)) ((idx.map (fun i => dist.getD i 0)).sum) t v := by
  obtain ⟨out, e1, e2, e3, e4⟩ := pack_ok hext ht (hs.columns f hf) hs.labels hd hne hidx
  set rows := idx.map (rowOf f s.target dist) with hrows
  set W := (idx.map (fun i => dist.getD i 0)).sum with hWd
  have hW : 0 < W := by
    apply List.sum_pos
    · intro v hv
      obtain ⟨i, hi, rfl⟩ := List.mem_map.mp hv
      exact (hidx i hi).2.1
    · simpa using hne
  have hsw : ∀ r ∈ scaled W rows, 0 ≤ r.w := by
    intro r hr
    obtain ⟨q, hq, rfl⟩ := List.mem_map.mp hr
    obtain ⟨i, hi, rfl⟩ := List.mem_map.mp hq
    exact div_nonneg (hidx i hi).2.1.le hW.le
  have hs1 : ((scaled W rows).map Row.w).sum = 1 := by
    have : ((scaled W rows).map Row.w).sum = (rows.map Row.w).sum / W := by
      unfold scaled
      rw [List.map_map]
      generalize rows = l
      induction l with
      | nil => simp
      | cons r l ih => simp only [List.map_cons, List.sum_cons, Function.comp_apply, add_div] at ih ⊢; rw [ih]
    rw [this, show (rows.map Row.w).sum = W by rw [hrows, List.map_map]; rfl, div_self hW.ne']
  have hsa : ∀ r ∈ scaled W rows, env.fmin ≤ r.x := by
    rw [scaled_x (P := fun x => env.fmin ≤ x)]
    intro r hr
    obtain ⟨i, hi, rfl⟩ := List.mem_map.mp hr
    exact (hidx i hi).2.2.1
  obtain ⟨t, v, g1, g2, g3, g4, g5⟩ := splitBy_ok hsw hs1 hsa e2 c
  refine ⟨t, v, ?_, ?_, ?_, ?_⟩
  · unfold Criterion.featureSplit
    rw [hb]; simp only [e1, g1]; rfl
  · rw [g2, splitValue_scaled hW]
  · rcases g3 with rfl | ⟨q, hq, rfl⟩
    · exact Or.inl (fun r _ => Iff.rfl)
    · exact Or.inr (e4 q hq)
  · intro b hb' t' ht'
    rcases e3 b hb' t' ht' with h | ⟨q, hq, h⟩
    · rw [splitValue_same h, ← splitValue_scaled hW]; exact g4
    · rw [splitValue_same h, ← splitValue_scaled hW]; exact g5 q hq

/-! ## All features -/

theorem foldl_min {A : Type*} (key : A → K) (l : List A) : ∀ a,
    (l.foldl (fun best x => if key x < key best then x else best) a = a ∨
      l.foldl (fun best x => if key x < key best then x else best) a ∈ l) ∧
    key (l.foldl (fun best x => if key x < key best then x else best) a) ≤ key a ∧
    ∀ x ∈ l, key (l.foldl (fun best x => if key x < key best then x else best) a) ≤ key x := by
  induction l with
  | nil => intro a; simp
  | cons b l ih =>
    intro a
    simp only [List.foldl_cons]
    by_cases h : key b < key a
    · rw [if_pos h]
      obtain ⟨i1, i2, i3⟩ := ih b
      refine ⟨Or.inr ?_, i2.trans h.le, ?_⟩
      · rcases i1 with i1 | i1
        · rw [i1]; simp
        · exact List.mem_cons_of_mem _ i1
      · intro x hx
        rcases List.mem_cons.mp hx with rfl | hx
        · exact i2
        · exact i3 x hx
    · rw [if_neg h]
      obtain ⟨i1, i2, i3⟩ := ih a
      refine ⟨?_, i2, ?_⟩
      · rcases i1 with i1 | i1
        · exact Or.inl i1
        · exact Or.inr (List.mem_cons_of_mem _ i1)
      · intro x hx
        rcases List.mem_cons.mp hx with rfl | hx
        · exact i2.trans (not_lt.mp h)
        · exact i3 x hx

theorem foldl_max {A : Type*} (key : A → K) (l : List A) : ∀ a,
    (l.foldl (fun best x => if key x < key best then best else x) a = a ∨
      l.foldl (fun best x => if key x < key best then best else x) a ∈ l) ∧
    key a ≤ key (l.foldl (fun best x => if key x < key best then best else x) a) ∧
    ∀ x ∈ l, key x ≤ key (l.foldl (fun best x => if key x < key best then best else x) a) := by
  induction l with
  | nil => intro a; simp
  | cons b l ih =>
    intro a
    simp only [List.foldl_cons]
    by_cases h : key b < key a
    · rw [if_pos h]
      obtain ⟨i1, i2, i3⟩ := ih a
      refine ⟨?_, i2, ?_⟩
      · rcases i1 with i1 | i1
        · exact Or.inl i1
        · exact Or.inr (List.mem_cons_of_mem _ i1)
      · intro x hx
        rcases List.mem_cons.mp hx with rfl | hx
        · exact h.le.trans i2
        · exact i3 x hx
    · rw [if_neg h]
      obtain ⟨i1, i2, i3⟩ := ih b
      refine ⟨Or.inr ?_, (not_lt.mp h).trans i2, ?_⟩
      · rcases i1 with i1 | i1
        · rw [i1]; simp
        · exact List.mem_cons_of_mem _ i1
      · intro x hx
        rcases List.mem_cons.mp hx with rfl | hx
        · exact i2
        · exact i3 x hx

theorem minBy_spec {A : Type*} (key : A → K) {l : List A} (hl : l ≠ []) :
    ∃ a, Criterion.minBy key l = some a ∧ a ∈ l ∧ ∀ x ∈ l, key a ≤ key x := by
  cases l with
  | nil => exact absurd rfl hl
  | cons b l =>
    obtain ⟨i1, i2, i3⟩ := foldl_min key l b
    refine ⟨_, rfl, ?_, ?_⟩
    · rcases i1 with i1 | i1
      · rw [i1]; simp
      · exact List.mem_cons_of_mem _ i1
    · intro x hx
      rcases List.mem_cons.mp hx with rfl | hx
      · exact i2
      · exact i3 x hx

theorem maxBy_spec {A : Type*} (key : A → K) {l : List A} (hl : l ≠ []) :
    ∃ a, Criterion.maxBy key l = some a ∧ a ∈ l ∧ ∀ x ∈ l, key x ≤ key a := by
  cases l with
  | nil => exact absurd rfl hl
  | cons b l =>
    obtain ⟨i1, i2, i3⟩ := foldl_max key l b
    refine ⟨_, rfl, ?_, ?_⟩
    · rcases i1 with i1 | i1
      · rw [i1]; simp
      · exact List.mem_cons_of_mem _ i1
    · intro x hx
      rcases List.mem_cons.mp hx with rfl | hx
      · exact i2
      · exact i3 x hx

theorem mapAll_exists {A : Type*} {f : Feature K → Except Panic A} {P : Feature K → A → Prop} {l : List (Feature K)}
    (h : ∀ c ∈ l, ∃ a, f c = .ok a ∧ P c a) :
    ∃ r, Sample.mapAll f l = .ok r ∧ r.length = l.length ∧ (∀ a ∈ r, ∃ c ∈ l, P c a) ∧ ∀ c ∈ l, ∃ a ∈ r, P c a := by
  induction l with
  | nil => exact ⟨[], rfl, rfl, by simp, by simp⟩
  | cons c l ih =>
    obtain ⟨a, h1, h2⟩ := h c (by simp)
    obtain ⟨r, r1, r2, r3, r4⟩ := ih (fun c hc => h c (List.mem_cons_of_mem _ hc))
    refine ⟨a :: r, ?_, by simp [r2], ?_, ?_⟩
    · unfold Sample.mapAll; rw [h1, r1]; rfl
    · intro x hx
      rcases List.mem_cons.mp hx with rfl | hx
      · exact ⟨c, by simp, h2⟩
      · obtain ⟨d, hd, hp⟩ := r3 x hx
        exact ⟨d, List.mem_cons_of_mem _ hd, hp⟩
    · intro x hx
      rcases List.mem_cons.mp hx with rfl | hx
      · exact ⟨a, by simp, h2⟩
      · obtain ⟨d, hd, hp⟩ := r4 x hx
        exact ⟨d, List.mem_cons_of_mem _ hd, hp⟩

theorem betterEq_trans {c : Criterion} {x y z : K} (h1 : betterEq c x y) (h2 : betterEq c y z) : betterEq c x z := by
  cases c <;> simp only [betterEq] at * <;> linarith

theorem betterEq_div {c : Criterion} {x y W : K} (hW : 0 < W) : betterEq c (x / W) (y / W) ↔ betterEq c x y := by
  cases c <;> simp only [betterEq, div_le_div_iff_of_pos_right hW]

theorem bestSplit_ok [FloorRing K] {env : TreeEnv K} (hext : env.fmin < env.fmax) (c : Criterion) {s : Sample K} (hs : SampleOk s)
    (hfe : s.features ≠ []) {binsMap : List (String × List (Bin K))} {dist : List K} (hd : dist.length = s.nSample)
    {idx : List Nat} (hne : idx ≠ [])
    (hb : ∀ f ∈ s.features, ∃ bins, HMap.get? binsMap f.name = some bins ∧ Tiles env.fmin bins env.fmax)
    (hidx : ∀ i ∈ idx, i < s.nSample ∧ 0 < dist.getD i 0)
    (hval : ∀ f ∈ s.features, ∀ i < s.nSample, env.fmin ≤ f.val i ∧ f.val i < env.fmax) :
    ∃ f ∈ s.features, ∃ t, c.bestSplit env binsMap s dist idx = .ok (f.name, t) ∧
      (∃ bins b, HMap.get? binsMap f.name = some bins ∧ b ∈ bins ∧
        (SameSplit (idx.map (rowOf f s.target dist)) t b.start ∨ SameSplit (idx.map (rowOf f s.target dist)) t b.stop)) ∧
      ∀ g ∈ s.features, ∀ bins, HMap.get? binsMap g.name = some bins → ∀ b ∈ bins, ∀ t', t' = b.start ∨ t' = b.stop →
        betterEq c (splitValue env.ln (idx.map (rowOf f s.target dist)) t c)
          (splitValue env.ln (idx.map (rowOf g s.target dist)) t' c) := by
  set W := (idx.map (fun i => dist.getD i 0)).sum with hWd
  have hW : 0 < W := by
    apply List.sum_pos
    · intro v hv
      obtain ⟨i, hi, rfl⟩ := List.mem_map.mp hv
      exact (hidx i hi).2
    · simpa using hne
  have hW' : 0 < (if c = .twoing then 1 else W) := by split <;> [exact one_pos; exact hW]
  obtain ⟨r, e1, e2, e3, e4⟩ := mapAll_exists (l := s.features) (f := c.featureSplit env binsMap s dist idx)
    (P := fun f a => a.2.1 = f.name ∧ ∀ bins, HMap.get? binsMap f.name = some bins →
      FeatureOk env.ln c env.fmin bins (idx.map (rowOf f s.target dist)) W a.2.2 a.1) (by
    intro f hf
    obtain ⟨bins, b1, b2⟩ := hb f hf
    obtain ⟨t, v, g1, g2⟩ := featureSplit_ok hext c hs hd hne hf b1 b2
      (fun i hi => ⟨(hidx i hi).1, (hidx i hi).2, hval f hf i (hidx i hi).1⟩)
    refine ⟨_, g1, rfl, ?_⟩
    intro bins' hb'
    rw [b1] at hb'; injection hb' with hb'
    subst hb'
    exact g2)
  have hr : r ≠ [] := by
    rintro rfl
    exact hfe (List.length_eq_zero_iff.mp e2.symm)
  have hbest : ∃ p ∈ r, c.bestSplit env binsMap s dist idx = .ok p.2 ∧ ∀ q ∈ r, betterEq c p.1 q.1 := by
    obtain ⟨p, p1, p2, p3⟩ := minBy_spec (fun p : K × String × K => p.1) hr
    obtain ⟨q, q1, q2, q3⟩ := maxBy_spec (fun p : K × String × K => p.1) hr
    unfold Criterion.bestSplit
    rw [e1]
    cases c with
    | entropy => exact ⟨p, p2, by simp only [p1], p3⟩
    | gini => exact ⟨p, p2, by simp only [p1], p3⟩
    | edge => exact ⟨q, q2, by simp only [q1], q3⟩
    | twoing => exact ⟨q, q2, by simp only [q1], q3⟩
  obtain ⟨p, p1, p2, p3⟩ := hbest
  obtain ⟨f, hf, f1, f2⟩ := e3 p p1
  obtain ⟨bins, b1, b2⟩ := hb f hf
  obtain ⟨g1, g2, g3⟩ := f2 bins b1
  refine ⟨f, hf, p.2.2, ?_, ?_, ?_⟩
  · rw [p2, ← f1]
  · rcases g2 with h | ⟨b, hb', h⟩
    · cases bins with
      | nil => exact absurd b2 hext.ne
      | cons b bins =>
        refine ⟨_, b, b1, by simp, Or.inl ?_⟩
        rw [b2.1]; exact h
    · exact ⟨_, b, b1, hb', Or.inr h⟩
  · intro g hg bins' hb' b hbm t' ht'
    obtain ⟨q, q1, q2, q3⟩ := e4 g hg
    obtain ⟨_, _, k3⟩ := q3 bins' hb'
    have := betterEq_trans (p3 q q1) (k3 b hbm t' ht')
    rw [g1, betterEq_div hW'] at this
    exact this

end Miniboosts
