import Verif.Lemmas.Bins
import Verif.Lemmas.CrossValidation

set_option linter.unusedSectionVars false

namespace Miniboosts

open Spec

variable {K : Type*} [Field K] [LinearOrder K] [IsStrictOrderedRing K]

/-! ## Label maps -/

/-- The map stores the weights `w` (absent labels have weight zero). -/
structure MapIs (m : LabelMap K) (w : Int → K) : Prop where
  nodup : (m.map Prod.fst).Nodup
  val : ∀ y, (HMap.get? m y).getD 0 = w y

/-- All stored weights are positive. -/
def MapPos (m : LabelMap K) : Prop := ∀ p ∈ m, 0 < p.2

theorem mapIs_nil : MapIs ([] : LabelMap K) (fun _ => 0) := ⟨by simp, fun y => rfl⟩

theorem mapIs_addTo {m : LabelMap K} {w : Int → K} (h : MapIs m w) (k : Int) (d : K) :
    MapIs (HMap.addTo m k d) (fun y => w y + if k = y then d else 0) :=
  ⟨HMap.nodup_addTo h.nodup k d, fun y => by rw [HMap.get?_addTo, h.val]⟩

theorem mapIs_mem {m : LabelMap K} {w : Int → K} (h : MapIs m w) {p : Int × K} (hp : p ∈ m) : w p.1 = p.2 := by
  rw [← h.val, HMap.get?_of_nodup h.nodup (show (p.1, p.2) ∈ m from hp)]; rfl

theorem mapIs_not_mem {m : LabelMap K} {w : Int → K} (h : MapIs m w) {y : Int} (hy : y ∉ m.map Prod.fst) : w y = 0 := by
  rw [← h.val, HMap.get?_eq_none_iff.mpr hy]; rfl

/-- A sum over a map is a sum over any set of labels containing its keys, when absent labels contribute zero. -/
theorem mapIs_sum {m : LabelMap K} {w : Int → K} (h : MapIs m w) {Y : Finset Int} (hY : ∀ y, w y ≠ 0 → y ∈ Y)
    (g : Int → K → K) (hg : ∀ y, g y 0 = 0) : (m.map (fun p => g p.1 p.2)).sum = ∑ y ∈ Y, g y (w y) := by
  have e1 : (m.map (fun p => g p.1 p.2)).sum = ((m.map Prod.fst).map (fun y => g y (w y))).sum := by
    rw [List.map_map]
    congr 1
    apply List.map_congr_left
    intro p hp
    simp only [Function.comp, mapIs_mem h hp]
  rw [e1, ← List.sum_toFinset _ h.nodup]
  have e2 : ∑ y ∈ (m.map Prod.fst).toFinset, g y (w y) = ∑ y ∈ (m.map Prod.fst).toFinset ∪ Y, g y (w y) := by
    apply Finset.sum_subset Finset.subset_union_left
    intro y _ hy
    rw [List.mem_toFinset] at hy
    rw [mapIs_not_mem h hy, hg]
  rw [e2]
  symm
  apply Finset.sum_subset Finset.subset_union_right
  intro y _ hy
  have : w y = 0 := by
    by_contra hne
    exact hy (hY y hne)
  rw [this, hg]

theorem mapIs_total {m : LabelMap K} {w : Int → K} (h : MapIs m w) {Y : Finset Int} (hY : ∀ y, w y ≠ 0 → y ∈ Y) :
    HMap.total m = ∑ y ∈ Y, w y := mapIs_sum h hY (fun _ v => v) (fun _ => rfl)

theorem mapIs_congr {m : LabelMap K} {w w' : Int → K} (h : MapIs m w) (hw : ∀ y, w y = w' y) : MapIs m w' :=
  ⟨h.nodup, fun y => by rw [h.val, hw]⟩

/-! ## Rows -/

/-- The weight of the rows with label `y` whose value is in `[a, b)`. -/
def between (rows : List (Row K)) (a b : K) (y : Int) : K :=
  (rows.map (fun r => if (a ≤ r.x ∧ r.x < b) ∧ r.lab = y then r.w else 0)).sum

theorem between_congr {rows : List (Row K)} {a b a' b' : K}
    (h : ∀ r ∈ rows, (a ≤ r.x ∧ r.x < b) ↔ (a' ≤ r.x ∧ r.x < b')) (y : Int) :
    between rows a b y = between rows a' b' y := by
  unfold between
  congr 1
  apply List.map_congr_left
  intro r hr
  simp only [h r hr]

theorem between_pos {rows : List (Row K)} (hw : ∀ r ∈ rows, 0 < r.w) {a b : K} {r : Row K} (hr : r ∈ rows)
    (hx : a ≤ r.x ∧ r.x < b) : 0 < between rows a b r.lab := by
  unfold between
  induction rows with
  | nil => cases hr
  | cons q rows ih =>
    simp only [List.map_cons, List.sum_cons]
    have hnn : 0 ≤ (rows.map (fun s => if (a ≤ s.x ∧ s.x < b) ∧ s.lab = r.lab then s.w else 0)).sum := by
      apply List.sum_nonneg
      intro v hv
      obtain ⟨s, hs, rfl⟩ := List.mem_map.mp hv
      split
      · exact (hw s (List.mem_cons_of_mem _ hs)).le
      · exact le_refl _
    rcases List.mem_cons.mp hr with rfl | hr
    · rw [if_pos ⟨hx, rfl⟩]
      exact add_pos_of_pos_of_nonneg (hw _ (by simp)) hnn
    · have h2 := ih (fun s hs => hw s (List.mem_cons_of_mem _ hs)) hr
      have h1 : 0 ≤ (if (a ≤ q.x ∧ q.x < b) ∧ q.lab = r.lab then q.w else 0) := by
        split
        · exact (hw q (by simp)).le
        · exact le_refl _
      exact add_pos_of_nonneg_of_pos h1 h2

theorem below_add_between {rows : List (Row K)} {a b : K} (hab : a ≤ b) (y : Int) :
    below rows a y + between rows a b y = below rows b y := by
  unfold below between
  induction rows with
  | nil => simp
  | cons r rows ih =>
    simp only [List.map_cons, List.sum_cons]
    rw [← ih]
    by_cases hl : r.lab = y
    · by_cases h1 : r.x < a
      · have h2 : r.x < b := h1.trans_le hab
        simp only [h1, h2, hl, not_le.mpr h1, and_true, false_and, if_true, if_false]; ring
      · by_cases h2 : r.x < b
        · simp only [h1, h2, hl, not_lt.mp h1, and_true, false_and, if_true, if_false]; ring
        · simp only [h1, h2, and_false, false_and, if_false]; ring
    · simp only [hl, and_false, if_false]; ring

theorem above_sub_between {rows : List (Row K)} {a b : K} (hab : a ≤ b) (y : Int) :
    above rows a y - between rows a b y = above rows b y := by
  unfold above between
  induction rows with
  | nil => simp
  | cons r rows ih =>
    simp only [List.map_cons, List.sum_cons]
    rw [← ih]
    by_cases hl : r.lab = y
    · by_cases h1 : a ≤ r.x
      · by_cases h2 : r.x < b
        · simp only [h1, h2, hl, not_le.mpr h2, and_true, false_and, if_true, if_false]; ring
        · simp only [h1, h2, hl, not_lt.mp h2, and_true, and_false, false_and, if_true, if_false]; ring
      · have h2 : ¬ b ≤ r.x := fun h => h1 (hab.trans h)
        simp only [h1, h2, false_and, if_false]; ring
    · simp only [hl, and_false, if_false]; ring

/-- The table lists consecutive bins from `a` on, the label weights of the rows in each, and nothing is left
beyond the last one. -/
def Rep (rows : List (Row K)) : K → List (Bin K × LabelMap K) → Prop
  | a, [] => ∀ r ∈ rows, r.x < a
  | a, (b, m) :: l => b.start = a ∧ a < b.stop ∧ MapIs m (between rows a b.stop) ∧ MapPos m ∧ Rep rows b.stop l

/-! ## Filling the bins -/

theorem vecAt_ok {A : Type*} {v : List A} {i : Nat} (h : i < v.length) (d : A) : vecAt v i = .ok (v.getD i d) := by
  simp [vecAt, List.getElem?_eq_getElem h, List.getD_eq_getElem?_getD]

theorem sum_map_set {A : Type*} (g : A → K) {l : List A} {k : Nat} {a a' : A} (h : l[k]? = some a) :
    ((l.set k a').map g).sum = (l.map g).sum + (g a' - g a) := by
  induction l generalizing k with
  | nil => cases h
  | cons b l ih =>
    cases k with
    | zero =>
      simp only [List.getElem?_cons_zero, Option.some.injEq] at h
      subst h
      simp; ring
    | succ k =>
      simp only [List.getElem?_cons_succ] at h
      simp only [List.set_cons_succ, List.map_cons, List.sum_cons, ih h]; ring

/-- Each cell of the table holds the weights of the rows processed so far which lie in its bin. -/
def CellsOk (bins : List (Bin K)) (packed : List (LabelMap K)) (rows : List (Row K)) : Prop :=
  packed.length = bins.length ∧ (packed.map HMap.total).sum = (rows.map Row.w).sum ∧
  ∀ (k : Nat) b m, bins[k]? = some b → packed[k]? = some m → MapIs m (between rows b.start b.stop) ∧ MapPos m

theorem cellsOk_start (bins : List (Bin K)) : CellsOk bins (List.replicate bins.length []) [] := by
  refine ⟨by simp, by simp [HMap.total], ?_⟩
  intro k b m hb hm
  have : m = [] := by
    rw [List.getElem?_replicate] at hm
    split at hm
    · injection hm with hm; exact hm.symm
    · cases hm
  subst this
  exact ⟨mapIs_congr mapIs_nil (fun y => by simp [between]), by intro p hp; cases hp⟩

theorem packLoop_ok [FloorRing K] {a z : K} {bins : List (Bin K)} (ht : Tiles a bins z) {n : Nat} {f : Feature K}
    (hf : ColumnOk n f) {y dist : List K} (hy : y.length = n) (hd : dist.length = n) (idx : List Nat)
    (hidx : ∀ i ∈ idx, i < n ∧ 0 < dist.getD i 0 ∧ a ≤ f.val i ∧ f.val i < z) (done : List (Row K))
    (packed : List (LabelMap K)) (hp : CellsOk bins packed done) :
    ∃ packed', Bins.packLoop bins f y dist idx packed = .ok packed' ∧ CellsOk bins packed' (done ++ idx.map (rowOf f y dist)) := by
  induction idx generalizing done packed with
  | nil => exact ⟨packed, rfl, by simpa using hp⟩
  | cons i idx ih =>
    obtain ⟨hi, hpos, hx1, hx2⟩ := hidx i (by simp)
    unfold Bins.packLoop
    rw [Feature.index_val hf hi, vecAt_ok (by omega) 0, vecAt_ok (by omega) 0]
    simp only
    obtain ⟨k, b, e1, e2, e3⟩ := position_ok ht hx1 hx2
    rw [e1]
    simp only
    have hk : k < packed.length := by
      rw [hp.1]; exact (List.getElem?_eq_some_iff.mp e2).1
    rw [List.getElem?_eq_getElem hk]
    simp only
    have hm := hp.2.2 k b packed[k] e2 (List.getElem?_eq_getElem hk)
    have hnew : CellsOk bins (packed.set k (HMap.addTo packed[k] (asI32 (y.getD i 0)) (dist.getD i 0)))
        (done ++ [rowOf f y dist i]) := by
      refine ⟨by simpa using hp.1, ?_, ?_⟩
      · rw [sum_map_set _ (List.getElem?_eq_getElem hk), HMap.total_addTo, hp.2.1]
        simp [rowOf]
      · intro k' b' m' hb' hm'
        have hbt : between (done ++ [rowOf f y dist i]) b'.start b'.stop
            = fun lab => between done b'.start b'.stop lab +
              (if (b'.start ≤ f.val i ∧ f.val i < b'.stop) ∧ asI32 (y.getD i 0) = lab then dist.getD i 0 else 0) := by
          funext lab
          simp [between, rowOf]
        rw [hbt]
        by_cases hkk : k' = k
        · subst hkk
          rw [List.getElem?_set_self hk, Option.some.injEq] at hm'
          subst hm'
          rw [e2, Option.some.injEq] at hb'
          subst hb'
          refine ⟨mapIs_congr (mapIs_addTo hm.1 _ _) (fun lab => ?_), HMap.mem_addTo_pos hm.2 _ hpos⟩
          rw [contains_iff] at e3
          simp [e3]
        · rw [List.getElem?_set_ne (Ne.symm hkk)] at hm'
          obtain ⟨c1, c2⟩ := hp.2.2 k' b' m' hb' hm'
          refine ⟨mapIs_congr c1 (fun lab => ?_), c2⟩
          have : ¬ (b'.start ≤ f.val i ∧ f.val i < b'.stop) := by
            intro hc
            exact hkk (tiles_unique ht hb' e2 (contains_iff.mpr hc) e3)
          simp [this]
    obtain ⟨packed', h1, h2⟩ := ih (fun j hj => hidx j (List.mem_cons_of_mem _ hj)) _ _ hnew
    exact ⟨packed', h1, by simpa using h2⟩

theorem rep_of_cells {a z : K} {bins : List (Bin K)} (ht : Tiles a bins z) {packed : List (LabelMap K)} {rows : List (Row K)}
    (hp : packed.length = bins.length)
    (hc : ∀ (k : Nat) b m, bins[k]? = some b → packed[k]? = some m → MapIs m (between rows b.start b.stop) ∧ MapPos m)
    (hz : ∀ r ∈ rows, r.x < z) : Rep rows a (bins.zip packed) := by
  induction bins generalizing a packed with
  | nil =>
    have : a = z := ht
    subst this
    simpa [Rep] using hz
  | cons b bins ih =>
    cases packed with
    | nil => simp at hp
    | cons m packed =>
      simp only [List.zip_cons_cons, Rep]
      have h0 := hc 0 b m rfl rfl
      refine ⟨ht.1, ht.2.1, by rw [← ht.1]; exact h0.1, h0.2, ih ht.2.2 (by simpa using hp) ?_⟩
      intro k b' m' hb hm
      exact hc (k + 1) b' m' hb hm

/-! ## Dropping empty bins, normalising -/

/-- Rows with their weights divided by `W`. -/
def scaled (W : K) (rows : List (Row K)) : List (Row K) := rows.map (fun r => { r with w := r.w / W })

theorem between_scaled (W : K) (rows : List (Row K)) (a b : K) (y : Int) :
    between (scaled W rows) a b y = between rows a b y / W := by
  unfold between scaled
  rw [List.map_map]
  induction rows with
  | nil => simp
  | cons r rows ih =>
    simp only [List.map_cons, List.sum_cons, Function.comp_apply] at ih ⊢
    rw [ih, add_div]
    congr 1
    split <;> simp

theorem divide_get (W : K) (m : LabelMap K) (y : Int) :
    (HMap.get? (Bins.divide W m) y).getD 0 = (HMap.get? m y).getD 0 / W := by
  unfold Bins.divide
  induction m with
  | nil => simp [HMap.get?]
  | cons p m ih =>
    simp only [List.map_cons, HMap.get?]
    by_cases hp : p.1 = y
    · simp [hp]
    · simp only [hp, if_false]
      exact ih

theorem divide_is {W : K} {m : LabelMap K} {w : Int → K} (h : MapIs m w) : MapIs (Bins.divide W m) (fun y => w y / W) := by
  constructor
  · have : (Bins.divide W m).map Prod.fst = m.map Prod.fst := by simp [Bins.divide, List.map_map, Function.comp_def]
    rw [this]; exact h.nodup
  · intro y
    rw [divide_get, h.val]

theorem divide_pos {W : K} (hW : 0 < W) {m : LabelMap K} (h : MapPos m) : MapPos (Bins.divide W m) := by
  intro p hp
  obtain ⟨q, hq, rfl⟩ := List.mem_map.mp hp
  exact div_pos (h q hq) hW

theorem divide_rep {W : K} {m : LabelMap K} {rows : List (Row K)} {a b : K} (h : MapIs m (between rows a b)) :
    MapIs (Bins.divide W m) (between (scaled W rows) a b) :=
  mapIs_congr (divide_is h) (fun y => (between_scaled W rows a b y).symm)

theorem scaled_same {W : K} {rows : List (Row K)} {t t' : K} : SameSplit (scaled W rows) t t' ↔ SameSplit rows t t' := by
  unfold SameSplit scaled
  constructor
  · intro h r hr
    exact h { r with w := r.w / W } (List.mem_map.mpr ⟨r, hr, rfl⟩)
  · intro h r hr
    obtain ⟨q, hq, rfl⟩ := List.mem_map.mp hr
    exact h q hq

theorem scaled_x {W : K} {rows : List (Row K)} {P : K → Prop} : (∀ r ∈ scaled W rows, P r.x) ↔ ∀ r ∈ rows, P r.x := by
  unfold scaled
  constructor
  · intro h r hr
    exact h { r with w := r.w / W } (List.mem_map.mpr ⟨r, hr, rfl⟩)
  · intro h r hr
    obtain ⟨q, hq, rfl⟩ := List.mem_map.mp hr
    exact h q hq

theorem empty_no_rows {rows : List (Row K)} (hw : ∀ r ∈ rows, 0 < r.w) {a b : K} (h : MapIs ([] : LabelMap K) (between rows a b)) :
    ∀ r ∈ rows, ¬ (a ≤ r.x ∧ r.x < b) := by
  intro r hr hx
  have h1 := between_pos hw hr hx
  have h2 := h.val r.lab
  rw [← h2] at h1
  simp [HMap.get?] at h1

/-- The merging loop: the result tiles from `prev.start`, holds the normalised weights, and every boundary of the
bins it was given divides the rows as one of its own does. -/
theorem mergeLoop_rep {W : K} (hW : 0 < W) {rows : List (Row K)} (hw : ∀ r ∈ rows, 0 < r.w)
    (rest : List (Bin K × LabelMap K)) : ∀ (prev : Bin K) (pw : LabelMap K) (a : K), prev.start < prev.stop → prev.stop ≤ a →
      (∀ r ∈ rows, ¬ (prev.stop ≤ r.x ∧ r.x < a)) → Rep rows a rest →
      MapIs pw (between (scaled W rows) prev.start prev.stop) → MapPos pw →
      Rep (scaled W rows) prev.start (Bins.mergeLoop W prev pw (rest.filter (fun p => !p.2.isEmpty))) ∧
      ∀ t, (t = a ∨ ∃ p ∈ rest, t = p.1.stop) →
        ∃ p ∈ Bins.mergeLoop W prev pw (rest.filter (fun p => !p.2.isEmpty)), SameSplit rows t p.1.stop := by
  have hrefl : ∀ (t p a : K), p ≤ t → t ≤ a → (∀ r ∈ rows, ¬ (p ≤ r.x ∧ r.x < a)) → SameSplit rows a t := by
    intro t p a h1 h2 h3 r hr
    constructor
    · intro h
      by_contra hn
      exact h3 r hr ⟨h1.trans (not_lt.mp hn), h⟩
    · intro h; exact h.trans_le h2
  induction rest with
  | nil =>
    intro prev pw a h1 h2 h3 h4 h5 h6
    simp only [List.filter_nil, Bins.mergeLoop, Rep, List.mem_singleton, List.not_mem_nil, false_and, exists_false, or_false]
    refine ⟨⟨by trivial, h1, h5, h6, ?_⟩, ?_⟩
    · rw [scaled_x (P := fun x => x < prev.stop)]
      intro r hr
      by_contra hn
      exact h3 r hr ⟨not_lt.mp hn, h4 r hr⟩
    · rintro t rfl
      exact ⟨_, rfl, hrefl prev.stop prev.stop t (le_refl _) h2 h3⟩
  | cons q rest ih =>
    obtain ⟨b, m⟩ := q
    intro prev pw a h1 h2 h3 h4 h5 h6
    obtain ⟨r1, r2, r3, r4, r5⟩ := h4
    cases m with
    | nil =>
      have hno := empty_no_rows hw r3
      have h3' : ∀ r ∈ rows, ¬ (prev.stop ≤ r.x ∧ r.x < b.stop) := by
        intro r hr hx
        by_cases ha : r.x < a
        · exact h3 r hr ⟨hx.1, ha⟩
        · exact hno r hr ⟨not_lt.mp ha, hx.2⟩
      obtain ⟨i1, i2⟩ := ih prev pw b.stop h1 (h2.trans r2.le) h3' r5 h5 h6
      have e : List.filter (fun p : Bin K × LabelMap K => !p.2.isEmpty) ((b, []) :: rest) = rest.filter (fun p => !p.2.isEmpty) := by
        simp
      rw [e]
      refine ⟨i1, ?_⟩
      rintro t (rfl | ⟨p, hp, rfl⟩)
      · obtain ⟨p, hp, hs⟩ := i2 b.stop (Or.inl rfl)
        refine ⟨p, hp, fun r hr => ?_⟩
        rw [← hs r hr]
        constructor
        · intro h; exact h.trans r2
        · intro h
          by_contra hn
          exact hno r hr ⟨not_lt.mp hn, h⟩
      · rcases List.mem_cons.mp hp with rfl | hp
        · exact i2 b.stop (Or.inl rfl)
        · exact i2 _ (Or.inr ⟨p, hp, rfl⟩)
    | cons p0 m =>
      have e : List.filter (fun p : Bin K × LabelMap K => !p.2.isEmpty) ((b, p0 :: m) :: rest)
          = (b, p0 :: m) :: rest.filter (fun p => !p.2.isEmpty) := by simp
      rw [e]
      simp only [Bins.mergeLoop]
      set c := (prev.stop + b.start) / 2 with hc
      have hc1 : prev.stop ≤ c := by rw [hc, r1]; linarith
      have hc2 : c ≤ a := by rw [hc, r1]; linarith
      obtain ⟨i1, i2⟩ := ih ⟨c, b.stop⟩ (Bins.divide W (p0 :: m)) b.stop (by simp only; linarith) (le_refl _)
        (by intro r hr hx; simp only at hx; exact absurd hx.2 (not_lt.mpr hx.1)) r5
        (by
          refine mapIs_congr (divide_rep r3) (fun y => ?_)
          apply between_congr
          rw [scaled_x (P := fun x => (a ≤ x ∧ x < b.stop) ↔ (c ≤ x ∧ x < b.stop))]
          intro r hr
          constructor
          · rintro ⟨h, h'⟩; exact ⟨hc2.trans h, h'⟩
          · rintro ⟨h, h'⟩
            refine ⟨?_, h'⟩
            by_contra hn
            exact h3 r hr ⟨hc1.trans h, not_le.mp hn⟩)
        (divide_pos hW r4)
      refine ⟨⟨rfl, by linarith, ?_, h6, i1⟩, ?_⟩
      · refine mapIs_congr h5 (fun y => ?_)
        apply between_congr
        rw [scaled_x (P := fun x => (prev.start ≤ x ∧ x < prev.stop) ↔ (prev.start ≤ x ∧ x < c))]
        intro r hr
        constructor
        · rintro ⟨h, h'⟩; exact ⟨h, h'.trans_le hc1⟩
        · rintro ⟨h, h'⟩
          refine ⟨h, ?_⟩
          by_contra hn
          exact h3 r hr ⟨not_lt.mp hn, h'.trans_le hc2⟩
      · rintro t (rfl | ⟨p, hp, rfl⟩)
        · exact ⟨_, List.mem_cons_self, hrefl c prev.stop t hc1 hc2 h3⟩
        · rcases List.mem_cons.mp hp with rfl | hp
          · obtain ⟨p, hp, hs⟩ := i2 b.stop (Or.inl rfl)
            exact ⟨p, List.mem_cons_of_mem _ hp, hs⟩
          · obtain ⟨p', hp', hs⟩ := i2 p.1.stop (Or.inr ⟨p, hp, rfl⟩)
            exact ⟨p', List.mem_cons_of_mem _ hp', hs⟩

/-- Skipping the empty bins at the beginning. -/
theorem removeZeroWeight_rep {rows : List (Row K)} (hne : rows ≠ []) (hw : ∀ r ∈ rows, 0 < r.w) {a : K} {bins : List (Bin K)}
    {packed : List (LabelMap K)} (htot : (packed.map HMap.total).sum = (rows.map Row.w).sum)
    (ha : ∀ r ∈ rows, a ≤ r.x) (h : Rep rows a (bins.zip packed)) (hz : bins ≠ [] ∧ packed.length = bins.length) :
    ∃ out, Bins.removeZeroWeight bins packed = .ok out ∧ Rep (scaled (rows.map Row.w).sum rows) a out ∧
      ∀ p ∈ bins.zip packed, ∀ t, t = p.1.start ∨ t = p.1.stop →
        (SameSplit rows t a ∨ ∃ q ∈ out, SameSplit rows t q.1.stop) := by
  have hW : 0 < (rows.map Row.w).sum := by
    obtain ⟨r, hr⟩ := List.exists_mem_of_ne_nil rows hne
    apply List.sum_pos
    · intro v hv
      obtain ⟨s, hs, rfl⟩ := List.mem_map.mp hv
      exact hw s hs
    · simpa using hne
  set W := (rows.map Row.w).sum with hWdef
  unfold Bins.removeZeroWeight
  simp only [htot, ← hWdef, if_pos hW]
  have hP : bins.zip packed ≠ [] := by
    cases bins with
    | nil => exact absurd rfl hz.1
    | cons b bins =>
      cases packed with
      | nil => have := hz.2; simp at this
      | cons m packed => simp
  generalize bins.zip packed = P at h hP
  cases P with
  | nil => exact absurd rfl hP
  | cons q rest =>
    obtain ⟨b, m⟩ := q
    simp only
    obtain ⟨r1, r2, r3, r4, r5⟩ := h
    subst r1
    -- starts of later bins are stops of earlier ones, or `a`
    have starts : ∀ (l : List (Bin K × LabelMap K)) (c : K), Rep rows c l → ∀ p ∈ l, p.1.start = c ∨ ∃ q ∈ l, p.1.start = q.1.stop := by
      intro l
      induction l with
      | nil => intro c _ p hp; cases hp
      | cons q l ih =>
        intro c hc p hp
        rcases List.mem_cons.mp hp with rfl | hp
        · exact Or.inl hc.1
        · rcases ih _ hc.2.2.2.2 p hp with h | ⟨q', hq', h⟩
          · exact Or.inr ⟨q, by simp, h⟩
          · exact Or.inr ⟨q', List.mem_cons_of_mem _ hq', h⟩
    cases m with
    | cons p0 m =>
      simp only [List.isEmpty_cons, Bool.false_eq_true, if_false]
      obtain ⟨i1, i2⟩ := mergeLoop_rep hW hw rest b (Bins.divide W (p0 :: m)) b.stop r2 (le_refl _)
        (by intro r _ hx; exact absurd hx.2 (not_lt.mpr hx.1)) r5 (divide_rep r3) (divide_pos hW r4)
      refine ⟨_, rfl, i1, ?_⟩
      have hstop : ∀ p ∈ (b, p0 :: m) :: rest, ∃ q ∈ Bins.mergeLoop W b (Bins.divide W (p0 :: m)) (rest.filter (fun p => !p.2.isEmpty)),
          SameSplit rows p.1.stop q.1.stop := by
        intro p hp
        rcases List.mem_cons.mp hp with rfl | hp
        · exact i2 b.stop (Or.inl rfl)
        · exact i2 p.1.stop (Or.inr ⟨p, hp, rfl⟩)
      intro p hp t ht
      rcases ht with rfl | rfl
      · rcases List.mem_cons.mp hp with rfl | hp
        · left; intro r _; exact Iff.rfl
        · rcases starts rest b.stop r5 p hp with h | ⟨q, hq, h⟩
          · rw [h]; right; exact hstop (b, p0 :: m) (by simp)
          · rw [h]; right; exact hstop q (List.mem_cons_of_mem _ hq)
      · right; exact hstop p hp
    | nil =>
      simp only [List.isEmpty_nil, if_true]
      -- find the next nonempty bin
      have key : ∀ (l : List (Bin K × LabelMap K)) (c : K), b.start < c → (∀ r ∈ rows, c ≤ r.x) → Rep rows c l →
          ∃ nb nw rest', l.filter (fun p => !p.2.isEmpty) = (nb, nw) :: rest' ∧
            Rep (scaled W rows) b.start (Bins.mergeLoop W ⟨b.start, nb.stop⟩ (Bins.divide W nw) rest') ∧
            ∀ p ∈ l, SameSplit rows p.1.stop b.start ∨
              ∃ q ∈ Bins.mergeLoop W ⟨b.start, nb.stop⟩ (Bins.divide W nw) rest', SameSplit rows p.1.stop q.1.stop := by
        intro l
        induction l with
        | nil =>
          intro c _ hc hl
          obtain ⟨r, hr⟩ := List.exists_mem_of_ne_nil rows hne
          exact absurd (hl r hr) (not_lt.mpr (hc r hr))
        | cons q l ih =>
          obtain ⟨d, w⟩ := q
          intro c hbc hc hl
          obtain ⟨s1, s2, s3, s4, s5⟩ := hl
          cases w with
          | nil =>
            have hno := empty_no_rows hw s3
            have hc' : ∀ r ∈ rows, d.stop ≤ r.x := by
              intro r hr
              by_contra hn
              exact hno r hr ⟨hc r hr, not_le.mp hn⟩
            obtain ⟨nb, nw, rest', e1, e2, e3⟩ := ih d.stop (hbc.trans s2) hc' s5
            refine ⟨nb, nw, rest', by simpa using e1, e2, ?_⟩
            intro p hp
            rcases List.mem_cons.mp hp with rfl | hp
            · left
              intro r hr
              constructor
              · intro h; exact absurd h (not_lt.mpr (hc' r hr))
              · intro h; exact absurd h (not_lt.mpr (ha r hr))
            · exact e3 p hp
          | cons p0 w =>
            obtain ⟨i1, i2⟩ := mergeLoop_rep hW hw l ⟨b.start, d.stop⟩ (Bins.divide W (p0 :: w)) d.stop
              (hbc.trans s2) (le_refl _)
              (by intro r _ hx; simp only at hx; exact absurd hx.2 (not_lt.mpr hx.1)) s5
              (by
                refine mapIs_congr (divide_rep s3) (fun y => ?_)
                apply between_congr
                rw [scaled_x (P := fun x => (c ≤ x ∧ x < d.stop) ↔ (b.start ≤ x ∧ x < d.stop))]
                intro r hr
                exact ⟨fun h => ⟨ha r hr, h.2⟩, fun h => ⟨hc r hr, h.2⟩⟩)
              (divide_pos hW s4)
            refine ⟨d, p0 :: w, l.filter (fun p => !p.2.isEmpty), by simp, i1, ?_⟩
            intro p hp
            rcases List.mem_cons.mp hp with rfl | hp
            · exact Or.inr (i2 d.stop (Or.inl rfl))
            · exact Or.inr (i2 p.1.stop (Or.inr ⟨p, hp, rfl⟩))
      have hno := empty_no_rows hw r3
      have hc' : ∀ r ∈ rows, b.stop ≤ r.x := by
        intro r hr
        by_contra hn
        exact hno r hr ⟨ha r hr, not_le.mp hn⟩
      obtain ⟨nb, nw, rest', e1, e2, e3⟩ := key rest b.stop r2 hc' r5
      rw [e1]
      simp only
      refine ⟨_, rfl, e2, ?_⟩
      have hstop : ∀ p ∈ (b, []) :: rest, SameSplit rows p.1.stop b.start ∨
          ∃ q ∈ Bins.mergeLoop W ⟨b.start, nb.stop⟩ (Bins.divide W nw) rest', SameSplit rows p.1.stop q.1.stop := by
        intro p hp
        rcases List.mem_cons.mp hp with rfl | hp
        · left
          intro r hr
          constructor
          · intro h; exact absurd h (not_lt.mpr (hc' r hr))
          · intro h; exact absurd h (not_lt.mpr (ha r hr))
        · exact e3 p hp
      intro p hp t ht
      rcases ht with rfl | rfl
      · rcases List.mem_cons.mp hp with rfl | hp
        · left; intro r _; exact Iff.rfl
        · rcases starts rest b.stop r5 p hp with h | ⟨q, hq, h⟩
          · rw [h]; exact hstop (b, []) (by simp)
          · rw [h]; exact hstop q (List.mem_cons_of_mem _ hq)
      · exact hstop p hp

end Miniboosts
