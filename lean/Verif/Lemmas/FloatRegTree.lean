import Verif.Model.FloatRegTree
import Verif.Lemmas.FloatMeans

/-! # Regression trees in `f64`: growing never gets stuck -/

namespace Miniboosts.FReg

open Miniboosts F64 Spec

/-- Exact addition of small integers. -/
theorem add_int {a b : ℤ} (h : |a + b| < 2 ^ 53) : add (fin (a : ℝ)) (fin (b : ℝ)) = fin ((a + b : ℤ) : ℝ) := by
  have hr : F64.Rep ((a + b : ℤ) : ℝ) := ⟨a + b, 0, h, by norm_num, by simp⟩
  have hb : |((a + b : ℤ) : ℝ)| ≤ 10 ^ 20 := by
    rw [← Int.cast_abs]
    have : ((|a + b| : ℤ) : ℝ) < 2 ^ 53 := by exact_mod_cast h
    linarith [show (2 : ℝ) ^ 53 ≤ 10 ^ 20 by norm_num]
  rw [add, ← Int.cast_add, rnd_small hb, round_of_rep hr]

theorem foldl_int : ∀ (zs : List ℤ) (a : ℤ), (∀ z ∈ zs, |z| ≤ 1) → |a| + zs.length < 2 ^ 53 →
    (zs.map fun z : ℤ => fin (z : ℝ)).foldl add (fin (a : ℝ)) = fin ((a + zs.sum : ℤ) : ℝ) := by
  intro zs
  induction zs with
  | nil => intro a _ _; simp
  | cons z zs ih =>
    intro a hz hb
    have h1 := hz z (by simp)
    simp only [List.length_cons] at hb
    push_cast at hb
    have h2 : |a + z| ≤ |a| + 1 := (abs_add_le a z).trans (by linarith)
    rw [List.map_cons, List.foldl_cons, add_int (by omega), ih (a + z) (fun w hw => hz w (List.mem_cons_of_mem _ hw)) (by omega), List.sum_cons]
    congr 1
    push_cast
    ring

theorem foldl_nan : ∀ (xs : List F64), xs.foldl add nan = nan := by
  intro xs
  induction xs with
  | nil => rfl
  | cons x xs ih => rw [List.foldl_cons]; cases x <;> exact ih

theorem add_nan (a : F64) : add a nan = nan := by cases a <;> rfl

theorem foldl_has_nan : ∀ (xs : List F64) (a : F64), nan ∈ xs → xs.foldl add a = nan := by
  intro xs
  induction xs with
  | nil => intro a h; simp at h
  | cons x xs ih =>
    intro a h
    rw [List.foldl_cons]
    rcases List.mem_cons.mp h with rfl | h
    · rw [add_nan]; exact foldl_nan xs
    · exact ih _ h

theorem abs_sum_int (zs : List ℤ) (hz : ∀ z ∈ zs, |z| ≤ 1) : |zs.sum| ≤ zs.length := by
  induction zs with
  | nil => simp
  | cons z zs ih =>
    have h1 := hz z (by simp)
    have h2 := ih fun w hw => hz w (List.mem_cons_of_mem _ hw)
    rw [List.sum_cons, List.length_cons]
    push_cast
    exact (abs_add_le _ _).trans (by linarith)

/-- A sum of small integers is exact, however the work is divided. -/
theorem split_int : ∀ (t : Split F64) (zs : List ℤ), t.items = zs.map (fun z : ℤ => fin (z : ℝ)) → (∀ z ∈ zs, |z| ≤ 1) → zs.length < 2 ^ 53 →
    t.sum add (fin 0) = fin ((zs.sum : ℤ) : ℝ) := by
  intro t
  induction t with
  | seq l =>
    intro zs hi hz hl
    simp only [Split.items] at hi
    have := foldl_int zs 0 hz (by simpa using (by exact_mod_cast hl : (zs.length : ℤ) < 2 ^ 53))
    subst hi
    have e : (Split.seq (zs.map fun z : ℤ => fin (z : ℝ))).sum add (fin 0) = (zs.map fun z : ℤ => fin (z : ℝ)).foldl add (fin 0) := rfl
    rw [e]
    simpa using this
  | join l r hl hr =>
    intro zs hi hz hn
    simp only [Split.items] at hi
    obtain ⟨ys, ws, rfl, h2, h3⟩ := List.append_eq_map_iff.mp hi
    rw [List.length_append] at hn
    have e1 := hl ys h2.symm (fun z h => hz z (by simp [h])) (by omega)
    have e2 := hr ws h3.symm (fun z h => hz z (by simp [h])) (by omega)
    have := abs_sum_int (ys ++ ws) hz
    rw [List.length_append, List.sum_append] at this
    push_cast at this
    show add (l.sum add (fin 0)) (r.sum add (fin 0)) = _
    rw [e1, e2, add_int (by omega), List.sum_append]

theorem sumOf_nan : ∀ (t : Split F64), nan ∈ t.items → t.sum add (fin 0) = nan := by
  intro t
  induction t with
  | seq l => intro h; exact foldl_has_nan _ _ h
  | join l r hl hr =>
    intro h
    show add (l.sum add (fin 0)) (r.sum add (fin 0)) = _
    rcases List.mem_append.mp h with h | h
    · rw [hl h]; cases r.sum add (fin 0) <;> rfl
    · rw [hr h, add_nan]

/-! ## Packing -/

/-- The rows of a node, for lists `g`, `h` with one entry for each row of the sample. -/
structure Rows (s : Sample ℝ) (g h : List F64) (idx : List ℕ) : Prop where
  row : ∀ i ∈ idx, i < s.nSample
  grad : g.length = s.nSample
  hess : h.length = s.nSample
  few : idx.length < 2 ^ 53

theorem Rows.filter {s : Sample ℝ} {g h : List F64} {idx : List ℕ} (hr : Rows s g h idx) (p : ℕ → Bool) : Rows s g h (idx.filter p) :=
  ⟨fun i hi => hr.row i (List.mem_filter.mp hi).1, hr.grad, hr.hess, (List.length_filter_le _ _).trans_lt hr.few⟩

/-- The number of the bin of a row. -/
noncomputable def binOf (rb : List (Bin ℝ)) (f : Feature ℝ) (i : ℕ) : ℕ := (FTree.position (rb.map FTree.toF) (f.val i)).getD 0

theorem binOf_ok {rb : List (Bin ℝ)} (ht : Tiles (-maxVal) rb maxVal) {f : Feature ℝ} {i : ℕ} (hv : |f.val i| < maxVal) :
    FTree.position (rb.map FTree.toF) (f.val i) = some (binOf rb f i) ∧ binOf rb f i < rb.length := by
  have hx := abs_lt.mp hv
  obtain ⟨pos, b, e1, e2, -⟩ := position_ok ht hx.1.le hx.2
  rw [← FTree.position_eq ht] at e1
  unfold binOf
  rw [e1]
  exact ⟨rfl, (List.getElem?_eq_some_iff.mp e2).1⟩

/-- What packing leaves in each bin. -/
theorem packLoop_eq {rb : List (Bin ℝ)} (ht : Tiles (-maxVal) rb maxVal) {s : Sample ℝ} (hs : SampleOk s) {f : Feature ℝ} (hf : f ∈ s.features)
    (hv : ∀ i < s.nSample, |f.val i| < maxVal) {g h : List F64} : ∀ (idx : List ℕ), Rows s g h idx → ∀ (packed : List (F64 × F64)), packed.length = rb.length →
      ∃ res, packLoop (rb.map FTree.toF) f g h idx packed = some res ∧ res.length = rb.length ∧
        ∀ k m, packed[k]? = some m → res[k]? = some
          (((idx.filter fun i => decide (binOf rb f i = k)).map fun i => g.getD i nan).foldl add m.1,
            ((idx.filter fun i => decide (binOf rb f i = k)).map fun i => h.getD i nan).foldl add m.2) := by
  intro idx
  induction idx with
  | nil => intro _ packed hl; exact ⟨packed, rfl, hl, fun k m hm => by simpa using hm⟩
  | cons i idx ih =>
    intro hr packed hl
    have hi := hr.row i (by simp)
    obtain ⟨p1, p2⟩ := binOf_ok ht (hv i hi)
    have hr' : Rows s g h idx := ⟨fun j hj => hr.row j (List.mem_cons_of_mem _ hj), hr.grad, hr.hess, by have := hr.few; simp only [List.length_cons] at this; omega⟩
    have hk : binOf rb f i < packed.length := by omega
    have hg : g[i]? = some (g.getD i nan) := by
      rw [List.getD_eq_getElem?_getD, List.getElem?_eq_getElem (by rw [hr.grad]; exact hi)]; rfl
    have hh : h[i]? = some (h.getD i nan) := by
      rw [List.getD_eq_getElem?_getD, List.getElem?_eq_getElem (by rw [hr.hess]; exact hi)]; rfl
    obtain ⟨res, e1, e2, e3⟩ := ih hr' (packed.set (binOf rb f i) (add packed[binOf rb f i].1 (g.getD i nan), add packed[binOf rb f i].2 (h.getD i nan)))
      (by simpa using hl)
    refine ⟨res, ?_, e2, ?_⟩
    · unfold packLoop
      simp only [Feature.index_val (hs.columns f hf) hi, p1, List.getElem?_eq_getElem hk, hg, hh]
      exact e1
    · intro k m hm
      by_cases hc : binOf rb f i = k
      · subst hc
        have hm' : m = packed[binOf rb f i] := by
          rw [List.getElem?_eq_getElem hk] at hm; exact (Option.some.inj hm).symm
        rw [e3 (binOf rb f i) _ (by rw [List.getElem?_set_self hk])]
        simp [hm']
      · rw [e3 k m (by rw [List.getElem?_set_ne hc]; exact hm)]
        simp [hc]

/-- The removal of empty bins succeeds when a bin is not empty. -/
theorem removeZero_ok {bins : List (Bin F64)} {packed : List (F64 × F64)} (hl : packed.length = bins.length)
    (h : ∃ p ∈ packed, p.1 ≠ fin 0 ∨ p.2 ≠ fin 0) : ∃ r, removeZero bins packed = some r := by
  classical
  obtain ⟨p, hp, hp0⟩ := h
  unfold removeZero
  cases bins with
  | nil =>
    rw [List.length_nil, List.length_eq_zero_iff] at hl
    subst hl
    simp at hp
  | cons b bins =>
    cases packed with
    | nil => simp at hl
    | cons q packed =>
      simp only [List.length_cons, Nat.add_right_cancel_iff] at hl
      simp only [List.zip_cons_cons]
      by_cases hq : q.1 = fin 0 ∧ q.2 = fin 0
      · rw [if_pos hq]
        have hp' : p ∈ packed := by
          rcases List.mem_cons.mp hp with rfl | hp
          · rcases hp0 with h | h
            · exact absurd hq.1 h
            · exact absurd hq.2 h
          · exact hp
        obtain ⟨k, hk, rfl⟩ := List.getElem_of_mem hp'
        have hmem : (bins[k]'(by omega), packed[k]) ∈ bins.zip packed := by
          rw [List.mem_iff_getElem]
          exact ⟨k, by simp; omega, by simp⟩
        have hne : (bins.zip packed).filter nonzero ≠ [] :=
          List.ne_nil_of_mem (List.mem_filter.mpr ⟨hmem, by unfold nonzero; exact decide_eq_true hp0⟩)
        obtain ⟨⟨nb, ng, nh⟩, rest, e⟩ := List.exists_cons_of_ne_nil hne
        rw [e]
        exact ⟨_, rfl⟩
      · rw [if_neg hq]
        exact ⟨_, rfl⟩

theorem scan_ne_nan (lam : F64) : ∀ (p : List (Bin F64 × F64 × F64)) (lg lh rg rh bs bt : F64), bs ≠ nan → (scan lam p lg lh rg rh bs bt).1 ≠ nan := by
  intro p
  induction p with
  | nil => intro _ _ _ _ bs bt h; exact h
  | cons q p ih =>
    obtain ⟨bin, g, h⟩ := q
    intro lg lh rg rh bs bt hb
    unfold scan
    split
    · rename_i hlt
      exact ih _ _ _ _ _ _ (FTree.lt_ne_nan hlt).2
    · exact ih _ _ _ _ _ _ hb

/-- In no column are all the bins of these rows empty. -/
def Live (s : Sample ℝ) (bins : List (String × List (Bin F64))) (g h : List F64) (idx : List ℕ) : Prop :=
  ∀ f ∈ s.features, ∃ b p, HMap.get? bins f.name = some b ∧ pack b idx f g h = some p

/-- The learner's bins suit the sample. -/
structure BinsOk (bins : List (String × List (Bin F64))) (s : Sample ℝ) : Prop where
  sample : SampleOk s
  some_feature : s.features ≠ []
  values : ∀ f ∈ s.features, ∀ i < s.nSample, |f.val i| < maxVal
  bins : ∀ f ∈ s.features, ∃ rb : List (Bin ℝ), HMap.get? bins f.name = some (rb.map FTree.toF) ∧ Tiles (-maxVal) rb maxVal

theorem live_of {bins : List (String × List (Bin F64))} {s : Sample ℝ} (hb : BinsOk bins s) {g h : List F64} {idx : List ℕ} (hr : Rows s g h idx)
    (hn : ∀ (n : ℕ) (pos : ℕ → ℕ), (∀ i ∈ idx, pos i < n) → ∃ k < n,
      ((idx.filter fun i => decide (pos i = k)).map fun i => g.getD i nan).foldl add (fin 0) ≠ fin 0 ∨
      ((idx.filter fun i => decide (pos i = k)).map fun i => h.getD i nan).foldl add (fin 0) ≠ fin 0) : Live s bins g h idx := by
  intro f hf
  obtain ⟨rb, b1, b2⟩ := hb.bins f hf
  obtain ⟨res, e1, e2, e3⟩ := packLoop_eq b2 hb.sample hf (hb.values f hf) idx hr (List.replicate (rb.map FTree.toF).length (fin 0, fin 0)) (by simp)
  obtain ⟨k, hk, hne⟩ := hn rb.length (binOf rb f) fun i hi => (binOf_ok b2 (hb.values f hf i (hr.row i hi))).2
  have hres := e3 k (fin 0, fin 0) (by rw [List.getElem?_replicate, if_pos (by simpa using hk)])
  obtain ⟨p, hp⟩ := removeZero_ok (bins := rb.map FTree.toF) (packed := res) (by simpa using e2) ⟨_, List.mem_of_getElem? hres, hne⟩
  refine ⟨_, p, b1, ?_⟩
  unfold pack
  rw [e1]
  exact hp

/-! ## Growing -/

theorem featureSplit_ok {s : Sample ℝ} {bins : List (String × List (Bin F64))} {g h : List F64} {lam : F64} {idx : List ℕ} (hl : Live s bins g h idx)
    {f : Feature ℝ} (hf : f ∈ s.features) :
    (∃ o, FeatureSplit bins g h lam idx f o) ∧ ∀ o, FeatureSplit bins g h lam idx f o → ∃ k thr : F64, o = some (k, f.name, thr) ∧ k ≠ nan := by
  obtain ⟨b, p, h1, h2⟩ := hl f hf
  unfold FeatureSplit
  rw [h1]
  simp only [h2]
  constructor
  · obtain ⟨rg, e1⟩ := FTree.exists_sumOf (p.map fun q => q.2.1)
    obtain ⟨rh, e2⟩ := FTree.exists_sumOf (p.map fun q => q.2.2)
    exact ⟨_, _, ⟨rg, rh, e1, e2, rfl⟩, rfl⟩
  · rintro o ⟨r, ⟨rg, rh, -, -, rfl⟩, rfl⟩
    exact ⟨_, _, rfl, scan_ne_nan _ _ _ _ _ _ _ _ (by simp)⟩

theorem bestSplit_ok {s : Sample ℝ} (hsf : s.features ≠ []) {bins : List (String × List (Bin F64))} {g h : List F64} {lam : F64} {idx : List ℕ} (hl : Live s bins g h idx) :
    (∃ o, BestSplit bins s g h idx lam o) ∧ ∀ o, BestSplit bins s g h idx lam o → ∃ f ∈ s.features, ∃ thr : F64, o = some (f.name, thr) := by
  have hex : ∀ l : List (Feature ℝ), (∀ f ∈ l, f ∈ s.features) → ∃ os, List.Forall₂ (FeatureSplit bins g h lam idx) l os := by
    intro l
    induction l with
    | nil => intro _; exact ⟨[], .nil⟩
    | cons f l ih =>
      intro hl'
      obtain ⟨os, h⟩ := ih fun g hg => hl' g (List.mem_cons_of_mem _ hg)
      obtain ⟨⟨o, ho⟩, -⟩ := featureSplit_ok (lam := lam) hl (hl' f (by simp))
      exact ⟨o :: os, .cons ho h⟩
  have hall : ∀ (l : List (Feature ℝ)) os, (∀ f ∈ l, f ∈ s.features) → List.Forall₂ (FeatureSplit bins g h lam idx) l os →
      os.length = l.length ∧ ∀ o ∈ os, ∃ f ∈ s.features, ∃ k thr : F64, o = some (k, f.name, thr) ∧ k ≠ nan := by
    intro l
    induction l with
    | nil => intro os _ h; cases h; simp
    | cons f l ih =>
      intro os hl' h
      obtain ⟨o, os, rfl⟩ : ∃ o l, os = o :: l := by cases h; exact ⟨_, _, rfl⟩
      rw [List.forall₂_cons] at h
      obtain ⟨i1, i2⟩ := ih os (fun g hg => hl' g (List.mem_cons_of_mem _ hg)) h.2
      refine ⟨by simp [i1], fun o' ho' => ?_⟩
      rcases List.mem_cons.mp ho' with rfl | ho'
      · obtain ⟨k, thr, h1, h2⟩ := (featureSplit_ok hl (hl' f (by simp))).2 _ h.1
        exact ⟨f, hl' f (by simp), k, thr, h1, h2⟩
      · exact i2 o' ho'
  have main : ∀ os, List.Forall₂ (FeatureSplit bins g h lam idx) s.features os →
      ∃ cands : List (F64 × String × F64), Par.allSome os = some cands ∧ cands ≠ [] ∧ ∀ a ∈ cands, a.1 ≠ nan ∧ ∃ f ∈ s.features, a.2.1 = f.name := by
    intro os hos
    obtain ⟨h1, h2⟩ := hall s.features os (fun f hf => hf) hos
    obtain ⟨l, e1, rfl⟩ := FTree.allSome_ok os fun o ho => by obtain ⟨f, hf, k, thr, e, -⟩ := h2 o ho; exact ⟨_, e⟩
    refine ⟨l, e1, ?_, ?_⟩
    · rintro rfl
      exact hsf (List.length_eq_zero_iff.mp (by simpa using h1.symm))
    · intro a ha
      obtain ⟨f, hf, k, thr, e, hk⟩ := h2 (some a) (List.mem_map.mpr ⟨a, ha, rfl⟩)
      obtain rfl := Option.some.inj e
      exact ⟨hk, f, hf, rfl⟩
  constructor
  · obtain ⟨os, hos⟩ := hex s.features fun f hf => hf
    obtain ⟨cands, c1, c2, c3⟩ := main os hos
    obtain ⟨⟨x, hx⟩, -⟩ := FTree.extremum_ok (smallest := false) (key := fun p : F64 × String × F64 => p.1) c2 fun a ha => (c3 a ha).1
    exact ⟨_, os, hos, by rw [c1]; exact ⟨x, hx, rfl⟩⟩
  · rintro o ⟨os, hos, ho⟩
    obtain ⟨cands, c1, c2, c3⟩ := main os hos
    rw [c1] at ho
    obtain ⟨x, hx, rfl⟩ := ho
    obtain ⟨a, ha, rfl⟩ := (FTree.extremum_ok c2 fun a ha => (c3 a ha).1).2 x hx
    obtain ⟨-, f, hf, hfe⟩ := c3 a ha
    exact ⟨f, hf, a.2.2, by simp [← hfe]⟩

/-- The sum over the rows of a node. -/
theorem sumAt_rows {s : Sample ℝ} {g h : List F64} {idx : List ℕ} (hr : Rows s g h idx) {v : List F64} (hv : v.length = s.nSample) (o : Option F64) :
    FTree.SumAt v idx o ↔ ∃ r, FTree.SumOf (idx.map fun i => v.getD i nan) r ∧ o = some r := by
  have : Par.allSome (idx.map fun i => v[i]?) = some (idx.map fun i => v.getD i nan) := by
    obtain ⟨hrow, -, -, -⟩ := hr
    induction idx with
    | nil => rfl
    | cons i idx ih =>
      have hi : v[i]? = some (v.getD i nan) := by
        rw [List.getD_eq_getElem?_getD, List.getElem?_eq_getElem (by rw [hv]; exact hrow i (by simp))]; rfl
      rw [List.map_cons, hi]
      simp [Par.allSome, ih fun j hj => hrow j (List.mem_cons_of_mem _ hj)]
  unfold FTree.SumAt
  rw [this]

theorem predLoss_iff {s : Sample ℝ} {g h : List F64} {lam : F64} {idx : List ℕ} (hr : Rows s g h idx) (o : Option (F64 × F64)) :
    PredLoss idx g h lam o ↔ ∃ a b, FTree.SumOf (idx.map fun i => g.getD i nan) a ∧ FTree.SumOf (idx.map fun i => h.getD i nan) b ∧
      o = some (leafValues a b lam) := by
  unfold PredLoss
  constructor
  · rintro ⟨a, b, ha, hb, ho⟩
    obtain ⟨a, ha', rfl⟩ := (sumAt_rows hr hr.grad _).mp ha
    obtain ⟨b, hb', rfl⟩ := (sumAt_rows hr hr.hess _).mp hb
    exact ⟨a, b, ha', hb', ho⟩
  · rintro ⟨a, b, ha, hb, rfl⟩
    exact ⟨some a, some b, (sumAt_rows hr hr.grad _).mpr ⟨a, ha, rfl⟩, (sumAt_rows hr hr.hess _).mpr ⟨b, hb, rfl⟩, rfl⟩

theorem exists_predLoss {s : Sample ℝ} {g h : List F64} (lam : F64) {idx : List ℕ} (hr : Rows s g h idx) : ∃ p, PredLoss idx g h lam (some p) := by
  obtain ⟨a, ha⟩ := FTree.exists_sumOf (idx.map fun i => g.getD i nan)
  obtain ⟨b, hb⟩ := FTree.exists_sumOf (idx.map fun i => h.getD i nan)
  exact ⟨_, (predLoss_iff hr _).mpr ⟨a, b, ha, hb, rfl⟩⟩

/-- The tree describes the rows that reach it: every leaf holds a value computed from its rows, and a path tests at most `depth` times. -/
def TreeOf (s : Sample ℝ) (g h : List F64) (lam : F64) : ℕ → TreeNode F64 → List ℕ → Prop
  | _, .leaf c, idx => idx ≠ [] ∧ ∃ l, PredLoss idx g h lam (some (c, l))
  | 0, .branch .., _ => False
  | d + 1, .branch rule lt rt, idx => (∃ f ∈ s.features, rule.feature = f.name) ∧
      ∃ p : ℕ → Bool, (∀ i ∈ idx, FTree.goesLeft rule s i = some (p i)) ∧ TreeOf s g h lam d lt (idx.filter p) ∧ TreeOf s g h lam d rt (idx.filter fun i => !p i)

open Classical in
theorem fullTree_ok {t : Tree} {s : Sample ℝ} (hb : BinsOk t.bins s) {g h : List F64}
    (hS : ∀ idx, Rows s g h idx → idx ≠ [] → ∀ c l, PredLoss idx g h t.lambdaL2 (some (c, l)) → l ≠ fin 0 → Live s t.bins g h idx) :
    ∀ (depth : ℕ) (idx : List ℕ), Rows s g h idx → idx ≠ [] →
      (∃ o, FullTree t s g h depth idx o) ∧ ∀ o, FullTree t s g h depth idx o → ∃ tree, o = some tree ∧ TreeOf s g h t.lambdaL2 (depth - 1) tree idx := by
  intro depth
  induction depth with
  | zero =>
    intro idx hr hne
    unfold FullTree
    constructor
    · obtain ⟨p, hp⟩ := exists_predLoss t.lambdaL2 hr
      exact ⟨_, _, hp, rfl⟩
    · rintro o ⟨c, hc, rfl⟩
      obtain ⟨a, b, ha, hb', rfl⟩ := (predLoss_iff hr c).mp hc
      exact ⟨_, rfl, hne, _, hc⟩
  | succ depth ih =>
    intro idx hr hne
    have leafOk : ∀ {c l}, PredLoss idx g h t.lambdaL2 (some (c, l)) → TreeOf s g h t.lambdaL2 (depth + 1 - 1) (.leaf c) idx := by
      intro c l hc
      cases depth <;> exact ⟨hne, l, hc⟩
    unfold FullTree
    constructor
    · obtain ⟨⟨c, l⟩, hc⟩ := exists_predLoss t.lambdaL2 hr
      by_cases hl : l = fin 0 ∨ depth = 0
      · exact ⟨_, _, hc, Or.inl ⟨hl, rfl⟩⟩
      · have hlive := hS idx hr hne c l hc fun e => hl (Or.inl e)
        obtain ⟨⟨b, hbs⟩, hball⟩ := bestSplit_ok hb.some_feature (lam := t.lambdaL2) hlive
        obtain ⟨f, hf, thr, rfl⟩ := hball b hbs
        have hsr := FTree.splitRows_f64 hb.sample hf thr idx hr.row
        set p := fun i => decide (F64.Lt (fin (f.val i)) thr) with hp
        by_cases he : idx.filter p = [] ∨ (idx.filter fun i => !p i) = []
        · refine ⟨some (.leaf c), _, hc, Or.inr ⟨hl, _, hbs, ?_⟩⟩
          simp only [hsr]
          rw [if_pos he]
          trivial
        · push Not at he
          obtain ⟨⟨lt, hlt⟩, hlall⟩ := ih _ (hr.filter p) he.1
          obtain ⟨⟨rt, hrt⟩, hrall⟩ := ih _ (hr.filter fun i => !p i) he.2
          obtain ⟨lt, rfl, -⟩ := hlall lt hlt
          obtain ⟨rt, rfl, -⟩ := hrall rt hrt
          refine ⟨some (.branch ⟨f.name, thr⟩ lt rt), _, hc, Or.inr ⟨hl, _, hbs, ?_⟩⟩
          simp only [hsr]
          rw [if_neg (not_or.mpr ⟨he.1, he.2⟩)]
          exact ⟨_, _, hlt, hrt, rfl⟩
    · rintro o ⟨cl, hc, ho⟩
      obtain ⟨a, b, ha, hb', rfl⟩ := (predLoss_iff hr cl).mp hc
      rcases ho with ⟨-, ho⟩ | ⟨hl, b, hbs, ho⟩
      · exact ⟨_, ho, leafOk hc⟩
      · have hlive := hS idx hr hne _ _ hc fun e => hl (Or.inl e)
        obtain ⟨f, hf, thr, rfl⟩ := (bestSplit_ok hb.some_feature hlive).2 b hbs
        have hsr := FTree.splitRows_f64 hb.sample hf thr idx hr.row
        set p := fun i => decide (F64.Lt (fin (f.val i)) thr) with hp
        simp only [hsr] at ho
        by_cases he : idx.filter p = [] ∨ (idx.filter fun i => !p i) = []
        · rw [if_pos he] at ho
          exact ⟨_, ho, leafOk hc⟩
        · rw [if_neg he] at ho
          push Not at he
          obtain ⟨lt, rt, hlt, hrt, ho⟩ := ho
          obtain ⟨lt, rfl, gl⟩ := (ih _ (hr.filter p) he.1).2 lt hlt
          obtain ⟨rt, rfl, gr⟩ := (ih _ (hr.filter fun i => !p i) he.2).2 rt hrt
          obtain ⟨d, rfl⟩ := Nat.exists_eq_succ_of_ne_zero fun e => hl (Or.inr e)
          exact ⟨_, ho, ⟨f, hf, rfl⟩, p, fun i hi => FTree.goesLeft_f64 hb.sample hf thr (hr.row i hi), gl, gr⟩

/-! ## The two losses -/

theorem live_l2 {bins : List (String × List (Bin F64))} {s : Sample ℝ} (hb : BinsOk bins s) {g h : List F64} {idx : List ℕ} (hr : Rows s g h idx) (hne : idx ≠ [])
    (hh : ∀ i < s.nSample, h.getD i nan = fin 1) : Live s bins g h idx := by
  refine live_of hb hr fun n pos hp => ?_
  obtain ⟨i, l, rfl⟩ := List.exists_cons_of_ne_nil hne
  refine ⟨pos i, hp i (by simp), Or.inr ?_⟩
  set J := (i :: l).filter fun j => decide (pos j = pos i) with hJ
  have hmem : i ∈ J := List.mem_filter.mpr ⟨by simp, by simp⟩
  have h1 : J.map (fun j => h.getD j nan) = (List.replicate J.length (1 : ℤ)).map fun z : ℤ => fin (z : ℝ) := by
    rw [List.map_replicate, List.eq_replicate_iff]
    refine ⟨by simp, fun b hb' => ?_⟩
    obtain ⟨j, hj, rfl⟩ := List.mem_map.mp hb'
    rw [hh j (hr.row j (List.mem_filter.mp hj).1)]
    norm_num
  have hlen : J.length < 2 ^ 53 := (List.length_filter_le _ _).trans_lt hr.few
  have h2 := foldl_int (List.replicate J.length (1 : ℤ)) 0 (fun z hz => by rw [List.eq_of_mem_replicate hz]; simp) (by
    simp only [abs_zero, List.length_replicate, zero_add]; exact_mod_cast hlen)
  rw [h1]
  simp only [Int.cast_zero] at h2
  rw [h2]
  simp only [List.sum_replicate, zero_add, ne_eq, F64.fin.injEq]
  have : 0 < J.length := List.length_pos_of_mem hmem
  simp
  exact List.ne_nil_of_mem hmem

/-- The integer behind a gradient of the absolute loss. -/
theorem live_l1 {bins : List (String × List (Bin F64))} {s : Sample ℝ} (hb : BinsOk bins s) {g h : List F64} {idx : List ℕ} (hr : Rows s g h idx)
    (hg : ∀ i < s.nSample, g.getD i nan = nan ∨ ∃ z : ℤ, |z| ≤ 1 ∧ g.getD i nan = fin (z : ℝ)) {a : F64}
    (ha : FTree.SumOf (idx.map fun i => g.getD i nan) a) (h0 : a ≠ fin 0) : Live s bins g h idx := by
  refine live_of hb hr fun n pos hp => ?_
  by_cases hn : ∃ i ∈ idx, g.getD i nan = nan
  · obtain ⟨i, hi, e⟩ := hn
    refine ⟨pos i, hp i hi, Or.inl ?_⟩
    rw [foldl_has_nan _ _ (List.mem_map.mpr ⟨i, List.mem_filter.mpr ⟨hi, by simp⟩, e⟩)]
    simp
  · push Not at hn
    have hz : ∀ i ∈ idx, ∃ z : ℤ, |z| ≤ 1 ∧ g.getD i nan = fin (z : ℝ) := fun i hi => (hg i (hr.row i hi)).resolve_left (hn i hi)
    choose! z hz1 hz2 using hz
    have hmap : ∀ J : List ℕ, (∀ i ∈ J, i ∈ idx) → J.map (fun i => g.getD i nan) = (J.map z).map fun z : ℤ => fin (z : ℝ) := by
      intro J hJ
      rw [List.map_map]
      exact List.map_congr_left fun i hi => hz2 i (hJ i hi)
    obtain ⟨t, ht, rfl⟩ := ha
    have hs := split_int t (idx.map z) (by rw [ht, hmap idx fun i h => h]) (by
      simp only [List.mem_map]; rintro _ ⟨i, hi, rfl⟩; exact hz1 i hi) (by simpa using hr.few)
    rw [hs] at h0
    by_contra hcon
    push Not at hcon
    have hzero : ∀ k < n, ((idx.filter fun i => decide (pos i = k)).map z).sum = 0 := by
      intro k hk
      have h1 := (hcon k hk).1
      have h2 := foldl_int ((idx.filter fun i => decide (pos i = k)).map z) 0 (by
        simp only [List.mem_map]; rintro _ ⟨i, hi, rfl⟩; exact hz1 i (List.mem_filter.mp hi).1) (by
        simp only [abs_zero, List.length_map, zero_add]
        exact_mod_cast (List.length_filter_le _ _).trans_lt hr.few)
      rw [Int.cast_zero, ← hmap _ fun i hi => (List.mem_filter.mp hi).1, h1] at h2
      have h3 := F64.fin.inj h2
      rw [zero_add] at h3
      exact_mod_cast h3.symm
    have hsum : ∀ J : List ℕ, (∀ i ∈ J, pos i < n) → (J.map z).sum = ∑ k ∈ Finset.range n, ((J.filter fun i => decide (pos i = k)).map z).sum := by
      intro J
      induction J with
      | nil => intro _; simp
      | cons i J ih =>
        intro hJ
        have e : ∀ k, (((i :: J).filter fun j => decide (pos j = k)).map z).sum = (if pos i = k then z i else 0) + ((J.filter fun j => decide (pos j = k)).map z).sum := by
          intro k
          by_cases hc : pos i = k <;> simp [hc]
        simp only [e, Finset.sum_add_distrib, Finset.sum_ite_eq, Finset.mem_range, hJ i (by simp), if_true, List.map_cons, List.sum_cons]
        rw [ih fun j hj => hJ j (List.mem_cons_of_mem _ hj)]
    refine h0 ?_
    rw [hsum idx hp, Finset.sum_eq_zero fun k hk => hzero k (Finset.mem_range.mp hk)]
    simp

end Miniboosts.FReg
