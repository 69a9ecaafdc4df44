import Verif.Lemmas.RegPack

set_option linter.unusedSectionVars false

/-! # The gain search of regression trees -/

namespace Miniboosts

open Spec

variable {K : Type*} [Field K] [LinearOrder K] [IsStrictOrderedRing K]

/-- The gain at a threshold. -/
def gainF (lam : K) (x g h : Nat → K) (idx : List Nat) (t : K) : K :=
  lo x g idx t ^ 2 / (lo x h idx t + lam) + hi x g idx t ^ 2 / (hi x h idx t + lam)

/-- Both denominators are nonzero. -/
def FinAt (lam : K) (x h : Nat → K) (idx : List Nat) (t : K) : Prop := lo x h idx t + lam ≠ 0 ∧ hi x h idx t + lam ≠ 0

theorem gainF_congr {lam : K} {x : Nat → K} (g h : Nat → K) {idx : List Nat} {t t' : K} (hs : SameCut x idx t t') :
    gainF lam x g h idx t = gainF lam x g h idx t' := by
  unfold gainF
  rw [lo_congr g hs, lo_congr h hs, hi_congr g hs, hi_congr h hs]

theorem finAt_congr {lam : K} {x : Nat → K} (h : Nat → K) {idx : List Nat} {t t' : K} (hs : SameCut x idx t t') :
    FinAt lam x h idx t ↔ FinAt lam x h idx t' := by
  unfold FinAt
  rw [lo_congr h hs, hi_congr h hs]

theorem rrep_sums {x g h : Nat → K} {idx : List Nat} (l : List (Bin K × K × K)) : ∀ a, RRep x g h idx a l →
    (l.map (fun p => p.2.1)).sum = hi x g idx a ∧ (l.map (fun p => p.2.2)).sum = hi x h idx a := by
  induction l with
  | nil =>
    intro a hr
    have : ∀ f : Nat → K, hi x f idx a = 0 := by
      intro f
      unfold hi
      apply List.sum_eq_zero
      intro v hv
      obtain ⟨i, hi, rfl⟩ := List.mem_map.mp hv
      rw [if_pos (hr i hi)]
    simp [this]
  | cons c l ih =>
    obtain ⟨b, p, q⟩ := c
    intro a hr
    obtain ⟨r1, r2, r3, r4, r5⟩ := hr
    obtain ⟨i1, i2⟩ := ih _ r5
    simp only [List.map_cons, List.sum_cons, i1, i2, r3, r4]
    constructor
    · rw [← hi_sub_seg x g idx r2.le]; ring
    · rw [← hi_sub_seg x h idx r2.le]; ring

theorem scan_spec {lam : K} {x g h : Nat → K} {idx : List Nat}
    (hL : ∀ t, lo x h idx t + lam = 0 → lo x g idx t = 0) (hR : ∀ t, hi x h idx t + lam = 0 → hi x g idx t = 0)
    (l : List (Bin K × K × K)) : ∀ a bs bt, RRep x g h idx a l →
    ∃ bs' bt', RegSplit.scan lam l (lo x g idx a) (lo x h idx a) (hi x g idx a) (hi x h idx a) bs bt = .ok (bs', bt') ∧
      bs ≤ bs' ∧ ((bs' = bs ∧ bt' = bt) ∨ ∃ q ∈ l, FinAt lam x h idx q.1.stop ∧ bt' = q.1.stop ∧ bs' = gainF lam x g h idx q.1.stop) ∧
      ∀ q ∈ l, FinAt lam x h idx q.1.stop → gainF lam x g h idx q.1.stop ≤ bs' := by
  induction l with
  | nil => intro a bs bt _; exact ⟨bs, bt, rfl, le_refl _, Or.inl ⟨rfl, rfl⟩, by simp⟩
  | cons c l ih =>
    obtain ⟨b, p, q⟩ := c
    intro a bs bt hr
    obtain ⟨r1, r2, r3, r4, r5⟩ := hr
    unfold RegSplit.scan
    rw [r3, r4, lo_add_seg x g idx r2.le, lo_add_seg x h idx r2.le, hi_sub_seg x g idx r2.le, hi_sub_seg x h idx r2.le]
    have skip : ¬ FinAt lam x h idx b.stop →
        ∃ bs' bt', RegSplit.scan lam l (lo x g idx b.stop) (lo x h idx b.stop) (hi x g idx b.stop) (hi x h idx b.stop) bs bt = .ok (bs', bt') ∧
      bs ≤ bs' ∧ ((bs' = bs ∧ bt' = bt) ∨ ∃ q_1 ∈ (b, seg x g idx a b.stop, seg x h idx a b.stop) :: l, FinAt lam x h idx q_1.1.stop ∧ bt' = q_1.1.stop ∧ bs' = gainF lam x g h idx q_1.1.stop) ∧
      ∀ q_1 ∈ (b, seg x g idx a b.stop, seg x h idx a b.stop) :: l, FinAt lam x h idx q_1.1.stop → gainF lam x g h idx q_1.1.stop ≤ bs' := by
      intro hn
      obtain ⟨bs', bt', e1, e2, e3, e4⟩ := ih b.stop bs bt r5
      refine ⟨bs', bt', e1, e2, ?_, ?_⟩
      · rcases e3 with h | ⟨q, hq, h⟩
        · exact Or.inl h
        · exact Or.inr ⟨q, List.mem_cons_of_mem _ hq, h⟩
      · intro q hq hfin
        rcases List.mem_cons.mp hq with rfl | hq
        · exact absurd hfin hn
        · exact e4 q hq hfin
    by_cases h1 : lo x h idx b.stop + lam = 0
    · have e : RegSplit.term lam (lo x g idx b.stop) (lo x h idx b.stop) = .ok none := by
        unfold RegSplit.term; rw [if_pos h1, if_pos (hL _ h1)]
      by_cases h2 : hi x h idx b.stop + lam = 0
      · have e' : RegSplit.term lam (hi x g idx b.stop) (hi x h idx b.stop) = .ok none := by
          unfold RegSplit.term; rw [if_pos h2, if_pos (hR _ h2)]
        rw [e, e']
        exact skip (fun hf => hf.1 h1)
      · have e' : RegSplit.term lam (hi x g idx b.stop) (hi x h idx b.stop) = .ok (some (hi x g idx b.stop ^ 2 / (hi x h idx b.stop + lam))) := by
          unfold RegSplit.term; rw [if_neg h2]
        rw [e, e']
        exact skip (fun hf => hf.1 h1)
    · have e : RegSplit.term lam (lo x g idx b.stop) (lo x h idx b.stop) = .ok (some (lo x g idx b.stop ^ 2 / (lo x h idx b.stop + lam))) := by
        unfold RegSplit.term; rw [if_neg h1]
      by_cases h2 : hi x h idx b.stop + lam = 0
      · have e' : RegSplit.term lam (hi x g idx b.stop) (hi x h idx b.stop) = .ok none := by
          unfold RegSplit.term; rw [if_pos h2, if_pos (hR _ h2)]
        rw [e, e']
        exact skip (fun hf => hf.2 h2)
      · have e' : RegSplit.term lam (hi x g idx b.stop) (hi x h idx b.stop) = .ok (some (hi x g idx b.stop ^ 2 / (hi x h idx b.stop + lam))) := by
          unfold RegSplit.term; rw [if_neg h2]
        rw [e, e']
        simp only
        change ∃ bs' bt', (if bs < gainF lam x g h idx b.stop then _ else _) = _ ∧ _
        have hG : lo x g idx b.stop ^ 2 / (lo x h idx b.stop + lam) + hi x g idx b.stop ^ 2 / (hi x h idx b.stop + lam) = gainF lam x g h idx b.stop := rfl
        rw [hG]
        by_cases hlt : bs < gainF lam x g h idx b.stop
        · rw [if_pos hlt]
          obtain ⟨bs', bt', e1, e2, e3, e4⟩ := ih b.stop (gainF lam x g h idx b.stop) b.stop r5
          refine ⟨bs', bt', e1, hlt.le.trans e2, Or.inr ?_, ?_⟩
          · rcases e3 with ⟨ha, hb⟩ | ⟨q, hq, h⟩
            · exact ⟨_, List.mem_cons_self, ⟨h1, h2⟩, hb, ha⟩
            · exact ⟨q, List.mem_cons_of_mem _ hq, h⟩
          · intro q hq hfin
            rcases List.mem_cons.mp hq with rfl | hq
            · exact e2
            · exact e4 q hq hfin
        · rw [if_neg hlt]
          obtain ⟨bs', bt', e1, e2, e3, e4⟩ := ih b.stop bs bt r5
          refine ⟨bs', bt', e1, e2, ?_, ?_⟩
          · rcases e3 with h | ⟨q, hq, h⟩
            · exact Or.inl h
            · exact Or.inr ⟨q, List.mem_cons_of_mem _ hq, h⟩
          · intro q hq hfin
            rcases List.mem_cons.mp hq with rfl | hq
            · exact (not_lt.mp hlt).trans e2
            · exact e4 q hq hfin

/-! ## Cauchy's inequality for two quotients -/

theorem two_quotients {a b x y : K} (hx : 0 < x) (hy : 0 < y) : (a + b) ^ 2 / (x + y) ≤ a ^ 2 / x + b ^ 2 / y := by
  rw [div_add_div _ _ hx.ne' hy.ne', div_le_div_iff₀ (by positivity) (by positivity)]
  nlinarith [sq_nonneg (a * y - b * x), mul_pos hx hy]

/-- The value of not splitting. -/
def base (lam : K) (g h : Nat → K) (idx : List Nat) : K := (idx.map g).sum ^ 2 / ((idx.map h).sum + lam)

theorem lo_nonneg {x h : Nat → K} {idx : List Nat} (hh : ∀ i ∈ idx, 0 ≤ h i) (t : K) : 0 ≤ lo x h idx t := by
  apply List.sum_nonneg
  intro v hv
  obtain ⟨i, hi, rfl⟩ := List.mem_map.mp hv
  split
  · exact hh i hi
  · exact le_refl _

theorem hi_nonneg {x h : Nat → K} {idx : List Nat} (hh : ∀ i ∈ idx, 0 ≤ h i) (t : K) : 0 ≤ hi x h idx t := by
  apply List.sum_nonneg
  intro v hv
  obtain ⟨i, hi, rfl⟩ := List.mem_map.mp hv
  split
  · exact le_refl _
  · exact hh i hi

theorem lo_zero {x h : Nat → K} {idx : List Nat} (hh : ∀ i ∈ idx, 0 < h i) {t : K} (hz : lo x h idx t = 0) : ∀ i ∈ idx, ¬ x i < t := by
  intro i hi hx
  have hnn : ∀ v ∈ idx.map (fun i => if x i < t then h i else 0), 0 ≤ v := by
    intro v hv
    obtain ⟨j, hj, rfl⟩ := List.mem_map.mp hv
    split
    · exact (hh j hj).le
    · exact le_refl _
  have hle := List.single_le_sum hnn _ (List.mem_map.mpr ⟨i, hi, rfl⟩)
  rw [if_pos hx] at hle
  have : lo x h idx t ≤ 0 := hz.le
  exact absurd (hle.trans this) (not_le.mpr (hh i hi))

theorem hi_zero {x h : Nat → K} {idx : List Nat} (hh : ∀ i ∈ idx, 0 < h i) {t : K} (hz : hi x h idx t = 0) : ∀ i ∈ idx, x i < t := by
  intro i hi'
  by_contra hx
  have hnn : ∀ v ∈ idx.map (fun i => if x i < t then 0 else h i), 0 ≤ v := by
    intro v hv
    obtain ⟨j, hj, rfl⟩ := List.mem_map.mp hv
    split
    · exact le_refl _
    · exact (hh j hj).le
  have hle := List.single_le_sum hnn _ (List.mem_map.mpr ⟨i, hi', rfl⟩)
  rw [if_neg hx] at hle
  have : hi x h idx t ≤ 0 := hz.le
  exact absurd (hle.trans this) (not_le.mpr (hh i hi'))

theorem lo_none {x : Nat → K} {idx : List Nat} {t : K} (h : ∀ i ∈ idx, ¬ x i < t) (f : Nat → K) : lo x f idx t = 0 ∧ hi x f idx t = (idx.map f).sum := by
  have : lo x f idx t = 0 := by
    apply List.sum_eq_zero
    intro v hv
    obtain ⟨i, hi, rfl⟩ := List.mem_map.mp hv
    rw [if_neg (h i hi)]
  refine ⟨this, ?_⟩
  rw [← lo_add_hi x f idx t, this, zero_add]

theorem hi_none {x : Nat → K} {idx : List Nat} {t : K} (h : ∀ i ∈ idx, x i < t) (f : Nat → K) : hi x f idx t = 0 ∧ lo x f idx t = (idx.map f).sum := by
  have : hi x f idx t = 0 := by
    apply List.sum_eq_zero
    intro v hv
    obtain ⟨i, hi, rfl⟩ := List.mem_map.mp hv
    rw [if_pos (h i hi)]
  refine ⟨this, ?_⟩
  rw [← lo_add_hi x f idx t, this, add_zero]

/-- Sending all rows to one side gains nothing. -/
theorem gainF_trivial {lam : K} {x g h : Nat → K} {idx : List Nat} {t : K} (ht : (∀ i ∈ idx, x i < t) ∨ ∀ i ∈ idx, ¬ x i < t) :
    gainF lam x g h idx t = base lam g h idx := by
  unfold gainF base
  rcases ht with ht | ht
  · rw [(hi_none ht g).1, (hi_none ht g).2, (hi_none ht h).1, (hi_none ht h).2]; simp
  · rw [(lo_none ht g).1, (lo_none ht g).2, (lo_none ht h).1, (lo_none ht h).2]; simp

theorem rrep_last {x g h : Nat → K} {idx : List Nat} (l : List (Bin K × K × K)) : ∀ a, l ≠ [] → RRep x g h idx a l → ∃ q ∈ l, ∀ i ∈ idx, x i < q.1.stop := by
  induction l with
  | nil => intro a h; exact absurd rfl h
  | cons c l ih =>
    intro a _ hr
    obtain ⟨b, p, q⟩ := c
    by_cases hl : l = []
    · subst hl
      exact ⟨_, List.mem_cons_self, hr.2.2.2.2⟩
    · obtain ⟨q', hq, h⟩ := ih _ hl hr.2.2.2.2
      exact ⟨q', List.mem_cons_of_mem _ hq, h⟩

/-- The search over one feature: the reported score is the gain at the threshold, unless no threshold divides the rows into two
parts (possible only without regularisation); no boundary gains more, and splitting gains at least as much as not splitting. -/
theorem bestSplitAt_ok {env : TreeEnv K} (hext : env.fmin < 0) {lam : K} (hlam : 0 ≤ lam) {x g h : Nat → K} {idx : List Nat}
    (hh : ∀ i ∈ idx, 0 < h i) (ha : ∀ i ∈ idx, env.fmin ≤ x i)
    {out : List (Bin K × K × K)} (hne : out ≠ []) (hr : RRep x g h idx env.fmin out) :
    ∃ score th, RegSplit.bestSplitAt env lam out = .ok (score, th) ∧
      (SameCut x idx th env.fmin ∨ ∃ q ∈ out, SameCut x idx th q.1.stop) ∧
      (∀ t, (SameCut x idx t env.fmin ∨ ∃ q ∈ out, SameCut x idx t q.1.stop) → gainF lam x g h idx t ≤ gainF lam x g h idx th) ∧
      base lam g h idx ≤ gainF lam x g h idx th ∧
      ((score = gainF lam x g h idx th) ∨ (score = env.fmin ∧ gainF lam x g h idx th = base lam g h idx)) := by
  have hnn : ∀ i ∈ idx, 0 ≤ h i := fun i hi => (hh i hi).le
  have hzL : ∀ t, lo x h idx t + lam = 0 → lo x h idx t = 0 := fun t ht => by
    have := lo_nonneg (x := x) hnn t; linarith
  have hzR : ∀ t, hi x h idx t + lam = 0 → hi x h idx t = 0 := fun t ht => by
    have := hi_nonneg (x := x) hnn t; linarith
  have hL : ∀ t, lo x h idx t + lam = 0 → lo x g idx t = 0 := fun t ht => (lo_none (lo_zero hh (hzL t ht)) g).1
  have hR : ∀ t, hi x h idx t + lam = 0 → hi x g idx t = 0 := fun t ht => (hi_none (hi_zero hh (hzR t ht)) g).1
  have hstart : ∀ i ∈ idx, ¬ x i < env.fmin := fun i hi => not_lt.mpr (ha i hi)
  have htriv : ∀ t, ¬ FinAt lam x h idx t → gainF lam x g h idx t = base lam g h idx := by
    intro t ht
    apply gainF_trivial
    unfold FinAt at ht
    rw [not_and_or, not_not, not_not] at ht
    rcases ht with ht | ht
    · exact Or.inr (lo_zero hh (hzL t ht))
    · exact Or.inl (hi_zero hh (hzR t ht))
  have hnonneg : ∀ t, 0 ≤ gainF lam x g h idx t := fun t =>
    add_nonneg (div_nonneg (sq_nonneg _) (add_nonneg (lo_nonneg hnn t) hlam)) (div_nonneg (sq_nonneg _) (add_nonneg (hi_nonneg hnn t) hlam))
  obtain ⟨s1, s2⟩ := rrep_sums out _ hr
  obtain ⟨bs, bt, e1, e2, e3, e4⟩ := scan_spec hL hR out env.fmin env.fmin env.fmin hr
  have e1' : RegSplit.bestSplitAt env lam out = .ok (bs, bt) := by
    unfold RegSplit.bestSplitAt
    rw [s1, s2, ← e1, (lo_none hstart g).1, (lo_none hstart h).1]
  have hbase0 : gainF lam x g h idx env.fmin = base lam g h idx := gainF_trivial (Or.inr hstart)
  rcases e3 with ⟨rfl, rfl⟩ | ⟨q, hq, hfin, rfl, rfl⟩
  · -- no finite boundary
    have hnof : ∀ q ∈ out, ¬ FinAt lam x h idx q.1.stop := by
      intro q hq hf
      have := (hnonneg q.1.stop).trans (e4 q hq hf)
      exact absurd this (not_le.mpr hext)
    refine ⟨_, _, e1', Or.inl (sameCut_refl _ _ _), ?_, hbase0.ge, Or.inr ⟨rfl, hbase0⟩⟩
    rintro t (ht | ⟨q, hq, ht⟩)
    · rw [gainF_congr g h ht]
    · rw [gainF_congr g h ht, htriv _ (hnof q hq), hbase0]
  · have hb : base lam g h idx ≤ gainF lam x g h idx q.1.stop := by
      by_cases hz : lam = 0
      · subst hz
        have hp1 : 0 < lo x h idx q.1.stop := lt_of_le_of_ne (lo_nonneg hnn _) (fun h => hfin.1 (by rw [← h]; simp))
        have hp2 : 0 < hi x h idx q.1.stop := lt_of_le_of_ne (hi_nonneg hnn _) (fun h => hfin.2 (by rw [← h]; simp))
        have := two_quotients (a := lo x g idx q.1.stop) (b := hi x g idx q.1.stop) hp1 hp2
        unfold base gainF
        rw [add_zero, add_zero, add_zero, ← lo_add_hi x g idx q.1.stop, ← lo_add_hi x h idx q.1.stop]
        exact this
      · have hpos : 0 < lam := lt_of_le_of_ne hlam (Ne.symm hz)
        obtain ⟨q', hq', hall⟩ := rrep_last out _ hne hr
        have hf' : FinAt lam x h idx q'.1.stop :=
          ⟨(add_pos_of_nonneg_of_pos (lo_nonneg hnn _) hpos).ne', (add_pos_of_nonneg_of_pos (hi_nonneg hnn _) hpos).ne'⟩
        have := e4 q' hq' hf'
        rwa [gainF_trivial (Or.inl hall)] at this
    refine ⟨_, _, e1', Or.inr ⟨q, hq, sameCut_refl _ _ _⟩, ?_, hb, Or.inl rfl⟩
    rintro t (ht | ⟨q', hq', ht⟩)
    · rw [gainF_congr g h ht, hbase0]; exact hb
    · rw [gainF_congr g h ht]
      by_cases hf : FinAt lam x h idx q'.1.stop
      · exact e4 q' hq' hf
      · rw [htriv _ hf]; exact hb

/-! ## The search over all features -/

theorem lo_filter (x : Nat → K) (v : List K) (idx : List Nat) (t : K) :
    lo x (fun i => v.getD i 0) idx t = weightOf v (idx.filter (fun i => x i < t)) := by
  unfold lo weightOf
  induction idx with
  | nil => simp
  | cons i idx ih =>
    by_cases h : x i < t
    · simp only [List.map_cons, List.sum_cons, h, if_true, List.filter_cons, decide_true, ih]
    · simp only [List.map_cons, List.sum_cons, h, if_false, List.filter_cons, decide_false, Bool.false_eq_true, ih, zero_add]

theorem hi_filter (x : Nat → K) (v : List K) (idx : List Nat) (t : K) :
    hi x (fun i => v.getD i 0) idx t = weightOf v (idx.filter (fun i => ¬ x i < t)) := by
  unfold hi weightOf
  induction idx with
  | nil => simp
  | cons i idx ih =>
    by_cases h : x i < t
    · simp only [List.map_cons, List.sum_cons, h, if_true, List.filter_cons, not_true, decide_false, Bool.false_eq_true, if_false, ih, zero_add]
    · simp only [List.map_cons, List.sum_cons, h, if_true, List.filter_cons, not_false_eq_true, decide_true, if_false, ih]

theorem gain_eq {s : Sample K} (hs : SampleOk s) {f : Feature K} (hf : f ∈ s.features) (lam : K) (g h : List K) (idx : List Nat) (t : K) :
    gain lam g h s idx f.name t = gainF lam f.val (fun i => g.getD i 0) (fun i => h.getD i 0) idx t := by
  unfold gain gainF
  simp only [cell_eq hs hf, lo_filter, hi_filter]

theorem rbestSplit_ok {env : TreeEnv K} {t : RegressionTree K} {s : Sample K} (ht : RegOk env t s) {lam : K} (hlam : 0 ≤ lam) {g h : List K}
    (hg : g.length = s.nSample) (hh : h.length = s.nSample) {idx : List Nat} (hne : idx ≠ []) (hidx : ∀ i ∈ idx, i < s.nSample ∧ 0 < h.getD i 0) :
    ∃ f ∈ s.features, ∃ th, RegSplit.bestSplit env t.bins s g h idx lam = .ok (f.name, th) ∧
      AtBoundary t.bins s idx f.name th ∧ MaxGain lam g h t.bins s idx f.name th ∧
      base lam (fun i => g.getD i 0) (fun i => h.getD i 0) idx ≤ gain lam g h s idx f.name th := by
  have haz : env.fmin < env.fmax := ht.ext.1.trans ht.ext.2
  set B := base lam (fun i => g.getD i 0) (fun i => h.getD i 0) idx with hB
  -- one feature
  have step : ∀ f ∈ s.features, ∃ r : K × String × K, RegSplit.featureSplit env t.bins g h lam idx f = .ok r ∧ r.2.1 = f.name ∧
      AtBoundary t.bins s idx f.name r.2.2 ∧
      (∀ bins, HMap.get? t.bins f.name = some bins → ∀ b ∈ bins, ∀ t', t' = b.start ∨ t' = b.stop →
        gain lam g h s idx f.name t' ≤ gain lam g h s idx f.name r.2.2) ∧
      B ≤ gain lam g h s idx f.name r.2.2 ∧
      (r.1 = gain lam g h s idx f.name r.2.2 ∨ (r.1 = env.fmin ∧ gain lam g h s idx f.name r.2.2 = B)) := by
    intro f hf
    obtain ⟨bins, hb, htl⟩ := ht.bins f hf
    obtain ⟨out, o1, o2, o3, o4, o5⟩ := rpack_ok haz htl (ht.sample.columns f hf) hg hh hne
      (fun i hi => ⟨(hidx i hi).1, (hidx i hi).2, ht.values f hf i (hidx i hi).1⟩)
    obtain ⟨score, th, e1, e2, e3, e4, e5⟩ := bestSplitAt_ok ht.ext.1 hlam (x := f.val) (g := fun i => g.getD i 0) (h := fun i => h.getD i 0)
      (idx := idx) (fun i hi => (hidx i hi).2) (fun i hi => (ht.values f hf i (hidx i hi).1).1) o2 o3
    refine ⟨(score, f.name, th), ?_, rfl, ?_, ?_, ?_, ?_⟩
    · unfold RegSplit.featureSplit
      rw [hb]
      simp only [o1, e1]
      rfl
    · simp only
      have hsame : ∃ b ∈ bins, ∃ t', (t' = b.start ∨ t' = b.stop) ∧ SameCut f.val idx th t' := by
        rcases e2 with e2 | ⟨q, hq, e2⟩
        · cases bins with
          | nil => exact absurd htl haz.ne
          | cons b bins => exact ⟨b, by simp, b.start, Or.inl rfl, by rw [htl.1]; exact e2⟩
        · obtain ⟨b, hb, hs⟩ := o5 q hq
          exact ⟨b, hb, b.stop, Or.inr rfl, fun i hi => (e2 i hi).trans (hs i hi)⟩
      obtain ⟨b, hbm, t', ht', hs⟩ := hsame
      refine ⟨bins, b, t', hb, hbm, ht', fun i hi => ?_⟩
      rw [cell_eq ht.sample hf]; exact hs i hi
    · intro bins' hb' b hbm t' ht'
      rw [hb, Option.some.injEq] at hb'
      subst hb'
      rw [gain_eq ht.sample hf, gain_eq ht.sample hf]
      exact e3 t' (o4 b hbm t' ht')
    · rw [gain_eq ht.sample hf]; exact e4
    · rw [gain_eq ht.sample hf]; exact e5
  obtain ⟨cands, c1, _, c3, c2⟩ := mapAll_exists step
  have hcne : cands ≠ [] := by
    obtain ⟨f, hf⟩ := List.exists_mem_of_ne_nil _ ht.columns
    obtain ⟨r, hr, _⟩ := c2 f hf
    intro h
    rw [h] at hr; cases hr
  obtain ⟨p, p1, p2, p3⟩ := maxBy_spec (fun p : K × String × K => p.1) hcne
  obtain ⟨f, hf, q1, q2, q3, q4, q5⟩ := c3 p p2
  refine ⟨f, hf, p.2.2, ?_, q2, ?_, q4⟩
  · unfold RegSplit.bestSplit
    rw [c1]
    simp only [p1]
    rw [← q1]
  · intro c hc bins hb b hbm t' ht'
    obtain ⟨r, hr, w1, w2, w3, w4, w5⟩ := c2 c hc
    have hle := p3 r hr
    have h1 := w3 bins hb b hbm t' ht'
    rcases w5 with w5 | ⟨w5, w6⟩
    · rcases q5 with q5 | ⟨q5, q6⟩
      · simp only [w5, q5] at hle
        exact h1.trans hle
      · simp only [w5, q5] at hle
        have : 0 ≤ B := by
          rw [hB]
          unfold base
          apply div_nonneg (sq_nonneg _)
          apply add_nonneg _ hlam
          apply List.sum_nonneg
          intro v hv
          obtain ⟨i, hi, rfl⟩ := List.mem_map.mp hv
          exact (hidx i hi).2.le
        exact absurd ((this.trans w4).trans hle) (not_le.mpr ht.ext.1)
    · rw [w6] at h1
      exact h1.trans q4

end Miniboosts
