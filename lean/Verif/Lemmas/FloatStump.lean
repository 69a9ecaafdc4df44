import Verif.Lemmas.FloatScan

/-! # The edge of a tree trained in `f64` with the criterion `edge` -/

namespace Miniboosts.FTree

open Miniboosts F64 Spec

/-- The learner's bins suit the sample and have moderate boundaries. -/
structure FineTree (t : Tree) (s : Sample ℝ) : Prop where
  ok : BinsOk t s
  fine : ∀ f ∈ s.features, ∀ rb : List (Bin ℝ), HMap.get? t.bins f.name = some (rb.map toF) → FineBins rb

theorem toF_inj {a b : List (Bin ℝ)} (h : a.map toF = b.map toF) : a = b := by
  induction a generalizing b with
  | nil => cases b with
    | nil => rfl
    | cons q b => simp at h
  | cons p a ih => cases b with
    | nil => simp at h
    | cons q b =>
      simp only [List.map_cons, List.cons.injEq] at h
      obtain ⟨h1, h2⟩ := h
      rw [ih h2]
      obtain ⟨x, y⟩ := p
      obtain ⟨x', y'⟩ := q
      simp only [toF, Bin.mk.injEq, fin.injEq] at h1
      rw [h1.1, h1.2]

/-- The best threshold of one column. -/
def Good (t : Tree) (s : Sample ℝ) (w : ℕ → ℝ) (idx : List ℕ) (f : Feature ℝ) (z thr : ℝ) : Prop :=
  |z - (|diff s w f idx thr|)| ≤ 12 / 10 ^ 8 ∧ |signedWeight s w idx| / (idx.map w).sum ≤ z + 12 / 10 ^ 8 ∧
    ∀ rb : List (Bin ℝ), HMap.get? t.bins f.name = some (rb.map toF) → ∀ β ∈ rb, |diff s w f idx β.stop| ≤ z + 12 / 10 ^ 8

theorem featureSplit_edge (L : Libm) {t : Tree} {s : Sample ℝ} (ht : FineTree t s) {dist : List F64} {w : ℕ → ℝ} {idx : List ℕ}
    (hN : Node s dist w idx) (hne : idx ≠ []) (hb : Binary s idx) {f : Feature ℝ} (hf : f ∈ s.features) {o : Option (F64 × String × F64)}
    (h : FeatureSplit L .edge t.bins s dist idx f o) : ∃ z thr : ℝ, o = some (fin z, f.name, fin thr) ∧ Good t s w idx f z thr := by
  obtain ⟨rb, b1, b2, b3⟩ := ht.ok.bins f hf
  obtain ⟨-, hall⟩ := pack_f64 b3 b2 ht.ok.sample hf (ht.ok.values f hf) hN hne
  unfold FeatureSplit at h
  rw [b1] at h
  obtain ⟨p, hp, ho⟩ := h
  obtain ⟨pack, ms, rfl, -⟩ := hall p hp
  obtain ⟨r, ⟨r', hr, rfl⟩, rfl⟩ := ho
  obtain ⟨z, thr, rfl, h1, h2, h3⟩ := splitByEdge_near b3 b2 (ht.fine f hf rb b1) ht.ok.sample hf (ht.ok.values f hf) hN hne hb hp hr
  refine ⟨z, thr, rfl, h1, h2, fun rb' hrb' β hβ => h3 β ?_⟩
  rw [b1] at hrb'
  rw [toF_inj (Option.some.inj hrb')]
  exact hβ

theorem bestSplit_edge (L : Libm) {t : Tree} {s : Sample ℝ} (ht : FineTree t s) {dist : List F64} {w : ℕ → ℝ} {idx : List ℕ}
    (hN : Node s dist w idx) (hne : idx ≠ []) (hb : Binary s idx) {name : String} {thr : F64} (h : BestSplit L .edge t.bins s dist idx (some (name, thr))) :
    ∃ f ∈ s.features, name = f.name ∧ ∃ x : ℝ, thr = fin x ∧ |signedWeight s w idx| / (idx.map w).sum ≤ |diff s w f idx x| + 3 / 10 ^ 7 ∧
      ∀ g ∈ s.features, ∀ rb : List (Bin ℝ), HMap.get? t.bins g.name = some (rb.map toF) → ∀ β ∈ rb, |diff s w g idx β.stop| ≤ |diff s w f idx x| + 3 / 10 ^ 7 := by
  obtain ⟨os, hos, ho⟩ := h
  have hall : ∀ (l : List (Feature ℝ)) os, (∀ f ∈ l, f ∈ s.features) → List.Forall₂ (FeatureSplit L .edge t.bins s dist idx) l os →
      ∃ cands : List (F64 × String × F64), Par.allSome os = some cands ∧
        (∀ f ∈ l, ∃ z x : ℝ, (fin z, f.name, fin x) ∈ cands ∧ Good t s w idx f z x) ∧
        ∀ a ∈ cands, ∃ f ∈ l, ∃ z x : ℝ, a = (fin z, f.name, fin x) ∧ Good t s w idx f z x := by
    intro l
    induction l with
    | nil => intro os _ h; cases h; exact ⟨[], rfl, by simp, by simp⟩
    | cons f l ih =>
      intro os hl h
      obtain ⟨o, os, rfl⟩ : ∃ o l, os = o :: l := by cases h; exact ⟨_, _, rfl⟩
      rw [List.forall₂_cons] at h
      obtain ⟨cands, i1, i2, i3⟩ := ih os (fun g hg => hl g (List.mem_cons_of_mem _ hg)) h.2
      obtain ⟨z, x, rfl, hg⟩ := featureSplit_edge L ht hN hne hb (hl f (by simp)) h.1
      refine ⟨(fin z, f.name, fin x) :: cands, by simp [Par.allSome, i1], fun g hgm => ?_, fun a ha => ?_⟩
      · rcases List.mem_cons.mp hgm with rfl | hgm
        · exact ⟨z, x, by simp, hg⟩
        · obtain ⟨z', x', h1, h2⟩ := i2 g hgm
          exact ⟨z', x', List.mem_cons_of_mem _ h1, h2⟩
      · rcases List.mem_cons.mp ha with rfl | ha
        · exact ⟨f, by simp, z, x, rfl, hg⟩
        · obtain ⟨g, g1, g2⟩ := i3 a ha
          exact ⟨g, List.mem_cons_of_mem _ g1, g2⟩
  obtain ⟨cands, c1, c2, c3⟩ := hall s.features os (fun f hf => hf) hos
  rw [c1] at ho
  obtain ⟨x, hx, hxo⟩ := ho
  obtain ⟨a, rfl, ha⟩ := Option.map_eq_some_iff.mp hxo.symm
  obtain ⟨hmem, hbest⟩ := extremum_best (smallest := minimised .edge) (key := fun p : F64 × String × F64 => p.1) (fun b hb' => by
    obtain ⟨f, -, z, x, rfl, -⟩ := c3 b hb'
    simp) hx
  obtain ⟨f, hf, z, x, rfl, hg1, hg2, hg3⟩ := c3 a hmem
  simp only [Prod.mk.injEq] at ha
  have hg1' := abs_le.mp hg1
  refine ⟨f, hf, ha.1.symm, x, ha.2.symm, by linarith [hg1'.1, hg1'.2], fun g hgm rb hrb β hβ => ?_⟩
  obtain ⟨z', x', k1, k2, k3, k4⟩ := c2 g hgm
  have hle : z' ≤ z := by
    have := hbest _ k1
    simp only [minimised, Bool.false_eq_true, if_false] at this
    exact not_lt.mp this
  have := k4 rb hrb β hβ
  linarith [hg1'.1, hg1'.2]

/-- The sum of the signed weights on the two sides of a threshold. -/
theorem two_sides (s : Sample ℝ) (w : ℕ → ℝ) (f : Feature ℝ) (idx : List ℕ) (x : ℝ) :
    |signedWeight s w idx - 2 * below s w f idx x| ≤ |signedWeight s w (idx.filter fun i => decide (f.val i < x))| + |signedWeight s w (idx.filter fun i => !decide (f.val i < x))| := by
  have := signed_filter s w idx fun i => decide (f.val i < x)
  unfold below
  rw [← this, show ∀ a b : ℝ, a + b - 2 * a = b - a from fun a b => by ring, add_comm]
  exact abs_sub _ _

theorem sides_max (a b : ℝ) : |a| + |b| = max |a + b| |b - a| := by
  rcases le_total 0 a with h1 | h1 <;> rcases le_total 0 b with h2 | h2
  · rw [abs_of_nonneg h1, abs_of_nonneg h2, abs_of_nonneg (by linarith : 0 ≤ a + b), max_eq_left]
    rw [abs_le]; constructor <;> linarith
  · rw [abs_of_nonneg h1, abs_of_nonpos h2, abs_of_nonpos (by linarith : b - a ≤ 0), max_eq_right]
    · ring
    · rw [abs_le]; constructor <;> linarith
  · rw [abs_of_nonpos h1, abs_of_nonneg h2, abs_of_nonneg (by linarith : 0 ≤ b - a), max_eq_right]
    · ring
    · rw [abs_le]; constructor <;> linarith
  · rw [abs_of_nonpos h1, abs_of_nonpos h2, abs_of_nonpos (by linarith : a + b ≤ 0), max_eq_left]
    · ring
    · rw [abs_le]; constructor <;> linarith

theorem mul_near {a b A B : ℝ} (hA : |A| ≤ 2) (hB : |B| ≤ 2) (ha : |a - A| ≤ 1 / 10 ^ 8) (hb : |b - B| ≤ 1 / 10 ^ 8) :
    ∃ y, F64.mul (fin a) (fin b) = fin y ∧ |y - A * B| ≤ 5 / 10 ^ 8 := by
  have h1 := le_abs_of_dist ha
  have h2 := le_abs_of_dist hb
  have h3 : |a| * |b| ≤ 3 * 3 := mul_le_mul (by linarith) (by linarith) (abs_nonneg _) (by norm_num)
  obtain ⟨r1, r2⟩ := rnd_approx (z := a * b) (by rw [abs_mul]; linarith)
  refine ⟨_, by rw [F64.mul, r1], ?_⟩
  rw [show F64.round (a * b) - A * B = (F64.round (a * b) - a * b) + ((a - A) * b + A * (b - B)) by ring]
  refine (abs_add_le _ _).trans ?_
  have h4 : |(a - A) * b + A * (b - B)| ≤ 1 / 10 ^ 8 * (2 + 1 / 10 ^ 8) + 2 * (1 / 10 ^ 8) := by
    refine (abs_add_le _ _).trans ?_
    rw [abs_mul, abs_mul]
    gcongr
    linarith
  norm_num at r2 h4 ⊢
  linarith

theorem partialCmp_eq {a b : ℝ} (h : partialCmp (fin a) (fin b) = some .eq) : a = b := by
  unfold partialCmp at h
  by_cases h1 : a < b
  · rw [if_pos (show F64.Lt (fin a) (fin b) from h1)] at h; cases h
  · rw [if_neg (show ¬ F64.Lt (fin a) (fin b) from h1)] at h
    by_cases h2 : b < a
    · rw [if_pos (show F64.Lt (fin b) (fin a) from h2)] at h; cases h
    · linarith

/-- Pruning: if the costs agree, the split gains nothing. -/
theorem prune_gain {W Wl Wr S Sl Sr : ℝ} (hW : W = Wl + Wr) (hl : |Sl| ≤ Wl) (hr : |Sr| ≤ Wr)
    {c cl cr cs : ℝ} (h1 : |c - (W - |S|) / 2 * W| ≤ 5 / 10 ^ 8) (h2 : |cl - (Wl - |Sl|) / 2 * Wl| ≤ 5 / 10 ^ 8) (h3 : |cr - (Wr - |Sr|) / 2 * Wr| ≤ 5 / 10 ^ 8)
    (h4 : |cs - (cl + cr)| ≤ 1 / 10 ^ 13) (h : c = cs) : (|Sl| + |Sr| - |S|) * W ≤ 4 / 10 ^ 7 := by
  have a1 := abs_le.mp h1
  have a2 := abs_le.mp h2
  have a3 := abs_le.mp h3
  have a4 := abs_le.mp h4
  have l0 := (abs_nonneg Sl).trans hl
  have r0 := (abs_nonneg Sr).trans hr
  have e1 : (Wl - |Sl|) * Wr ≥ 0 := mul_nonneg (by linarith) r0
  have e2 : (Wr - |Sr|) * Wl ≥ 0 := mul_nonneg (by linarith) l0
  have e3 : (|Sl| + |Sr| - |S|) * W = (W - |S|) * W - ((Wl - |Sl|) * Wl + (Wr - |Sr|) * Wr) - (Wl - |Sl|) * Wr - (Wr - |Sr|) * Wl := by rw [hW]; ring
  rw [e3]
  have h5 : (1 / 10 ^ 13 : ℝ) ≤ 1 / 10 ^ 8 := by norm_num
  linarith [a1.1, a1.2, a2.1, a2.2, a3.1, a3.2, a4.1, a4.2]

theorem loss_cost {s : Sample ℝ} {dist : List F64} {w : ℕ → ℝ} {idx : List ℕ} (hN : Node s dist w idx) (hb : Binary s idx) {c x l : F64} (h : Knows s w idx c x l) :
    ∃ y, F64.mul l x = fin y ∧ |y - ((idx.map w).sum - |signedWeight s w idx|) / 2 * (idx.map w).sum| ≤ 5 / 10 ^ 8 := by
  obtain ⟨a, rfl, ha⟩ := h.vals.loss
  obtain ⟨b, rfl, hb'⟩ := h.weight
  have hS := abs_signedWeight hb hN.nonneg
  have hW := hN.sum
  have h0 := abs_nonneg (signedWeight s w idx)
  exact mul_near (by rw [abs_le]; constructor <;> linarith) (by rw [abs_le]; constructor <;> linarith) ha hb'

/-- A tree trained with the criterion `edge` has, up to `1e-5`, at least the (normalised, squared) edge of every rule of thumb on the bins. -/
theorem fullTree_edge (L : Libm) {t : Tree} (hc : t.criterion = .edge) {s : Sample ℝ} (ht : FineTree t s) {dist : List F64} {w : ℕ → ℝ} {idx : List ℕ}
    (hN : Node s dist w idx) (hne : idx ≠ []) (hb : Binary s idx) (hW : 1 / 2 ≤ (idx.map w).sum) {depth : ℕ} {node : TrainNode F64}
    (h : FullTree L t s dist (depth + 1) idx (some node)) :
    ∃ D : ℝ, |signedWeight s w idx| / (idx.map w).sum ≤ D ∧
      (∀ g ∈ s.features, ∀ rb : List (Bin ℝ), HMap.get? t.bins g.name = some (rb.map toF) → ∀ β ∈ rb, |diff s w g idx β.stop| ≤ D) ∧
      D ^ 2 * (idx.map w).sum - 1 / 10 ^ 5 ≤ edgeOn s w (ofTrain (removeRedundant node)) idx := by
  have hrel := fullTree_rel L ht.ok.sample (depth + 1) idx hN hne hb node h
  have htree := ofTrain_rel _ _ (removeRedundant_rel _ _ hrel)
  have hmean := treeRel_edge _ _ htree hN hb
  have hWb := hN.sum
  have hS := abs_signedWeight hb hN.nonneg
  set W := (idx.map w).sum with hWd
  set S := signedWeight s w idx with hSd
  have hW0 : 0 < W := by linarith
  have hS0 := abs_nonneg S
  have hsq : S ^ 2 / W = (|S| / W) ^ 2 * W := by rw [div_pow, sq_abs]; field_simp
  have hSW : |S| / W ≤ 1 := (div_le_one hW0).mpr hS
  have hSW0 : 0 ≤ |S| / W := div_nonneg hS0 hW0.le
  rw [hsq] at hmean
  -- once the split is known to be (almost) no better than the tree
  have finish : ∀ D : ℝ, 0 ≤ D → D ≤ 1 → D ^ 2 * W - 5 / 10 ^ 6 ≤ edgeOn s w (ofTrain (removeRedundant node)) idx →
      (D + 3 / 10 ^ 7) ^ 2 * W - 1 / 10 ^ 5 ≤ edgeOn s w (ofTrain (removeRedundant node)) idx := by
    intro D h0 h1 h2
    have : (D + 3 / 10 ^ 7) ^ 2 * W = D ^ 2 * W + (6 / 10 ^ 7 * D + (3 / 10 ^ 7) ^ 2) * W := by ring
    have h3 : (6 / 10 ^ 7 * D + (3 / 10 ^ 7) ^ 2) * W ≤ (6 / 10 ^ 7 * 1 + (3 / 10 ^ 7) ^ 2) * (3 / 2) := by gcongr
    norm_num at h3 h2 this ⊢
    linarith
  obtain ⟨a, c, ha, hcl, h⟩ := h
  match a, c, ha, hcl, h with
  | none, _, _, _, h => cases h
  | some total, none, _, _, h => cases h
  | some total, some (conf, loss), ha, hcl, h =>
    rcases h with ⟨rfl, h⟩ | ⟨hl0, b, hbs, h⟩
    · -- a pure node
      cases h
      obtain ⟨x, hx, hx2⟩ := hrel.vals.loss
      cases hx
      have hx2' := (abs_le.mp hx2).1
      refine ⟨1, hSW, fun g _ rb _ β _ => diff_abs hN hne hb g _, ?_⟩
      have h1 : 1 - 4 / 10 ^ 8 ≤ |S| / W := by
        rw [le_div_iff₀ hW0]
        have : (1 - 4 / 10 ^ 8) * W = W - 4 / 10 ^ 8 * W := by ring
        linarith
      have h2 : (1 - 4 / 10 ^ 8 : ℝ) ^ 2 * W ≤ (|S| / W) ^ 2 * W := by
        gcongr
      have h3 : (1 - 4 / 10 ^ 8 : ℝ) ^ 2 * W = W - (8 / 10 ^ 8 - (4 / 10 ^ 8) ^ 2) * W := by ring
      have h4 : (8 / 10 ^ 8 - (4 / 10 ^ 8) ^ 2 : ℝ) * W ≤ (8 / 10 ^ 8 - (4 / 10 ^ 8) ^ 2) * (3 / 2) := by gcongr
      norm_num at h2 h3 h4 hmean ⊢
      linarith
    · match b, hbs, h with
      | none, _, h => cases h
      | some (name, thr), hbs, h =>
        rw [hc] at hbs
        obtain ⟨f, hf, rfl, x, rfl, hbest1, hbest2⟩ := bestSplit_edge L ht hN hne hb hbs
        have hsr := splitRows_f64 ht.ok.sample hf (fin x) idx hN.row
        have hdec : (fun i => open Classical in decide (F64.Lt (fin (f.val i)) (fin x))) = fun i => decide (f.val i < x) := by
          funext i
          exact decide_eq_decide.mpr Iff.rfl
        have hdec' : (fun i => !(open Classical in decide (F64.Lt (fin (f.val i)) (fin x)))) = fun i => !decide (f.val i < x) := by
          funext i
          congr 1
        rw [hdec, hdec'] at hsr
        simp only [hsr] at h
        set D := |diff s w f idx x| with hD
        have hD1 : D ≤ 1 := diff_abs hN hne hb f x
        have hD0 : 0 ≤ D := abs_nonneg _
        refine ⟨D + 3 / 10 ^ 7, hbest1, hbest2, finish D hD0 hD1 ?_⟩
        have hsides := two_sides s w f idx x
        have hDW : D * W = |signedWeight s w idx - 2 * below s w f idx x| := by
          rw [hD, diff, abs_div, abs_of_pos hW0, div_mul_cancel₀ _ hW0.ne']
        rw [← hDW] at hsides
        have hsum := signed_filter s w idx fun i => decide (f.val i < x)
        have hwsum := weight_filter w idx fun i => decide (f.val i < x)
        have hSl := abs_signedWeight (hb.filter fun i => decide (f.val i < x)) fun i hi => hN.nonneg i (List.mem_filter.mp hi).1
        have hSr := abs_signedWeight (hb.filter fun i => !decide (f.val i < x)) fun i hi => hN.nonneg i (List.mem_filter.mp hi).1
        have hleaf : ∀ G : ℝ, D * W ≤ |S| + G → 0 ≤ G → G * W ≤ 4 / 10 ^ 7 → D ^ 2 * W - 5 / 10 ^ 6 ≤ edgeOn s w (ofTrain (removeRedundant node)) idx := by
          intro G hG hG0 hGW
          have h1 : D ≤ |S| / W + G / W := by rw [← add_div, le_div_iff₀ hW0]; exact hG
          have h2 : G ≤ 8 / 10 ^ 7 := by nlinarith
          have h3 : G / W ≤ 16 / 10 ^ 7 := by rw [div_le_iff₀ hW0]; linarith
          have h4 : D ^ 2 ≤ (|S| / W) ^ 2 + 32 / 10 ^ 7 := by
            have h6 : D ^ 2 - (|S| / W) ^ 2 = (D - |S| / W) * (D + |S| / W) := by ring
            have h7 : (D - |S| / W) * (D + |S| / W) ≤ 16 / 10 ^ 7 * 2 := by
              calc (D - |S| / W) * (D + |S| / W) ≤ 16 / 10 ^ 7 * (D + |S| / W) := by
                    refine mul_le_mul_of_nonneg_right (by linarith) (by linarith)
                _ ≤ _ := by gcongr; linarith
            norm_num at h7 ⊢
            linarith
          have h5 : D ^ 2 * W ≤ ((|S| / W) ^ 2 + 32 / 10 ^ 7) * W := by gcongr
          have h6 : ((|S| / W) ^ 2 + 32 / 10 ^ 7 : ℝ) * W = (|S| / W) ^ 2 * W + 32 / 10 ^ 7 * W := by ring
          norm_num at hmean h5 h6 ⊢
          linarith
        by_cases he : (idx.filter fun i => decide (f.val i < x)) = [] ∨ (idx.filter fun i => !decide (f.val i < x)) = []
        · -- nothing is split off
          rw [if_pos he] at h
          cases h
          refine hleaf 0 ?_ le_rfl (by norm_num)
          rw [add_zero]
          refine hsides.trans ?_
          rcases he with he | he
          · rw [he] at hsum ⊢
            rw [show signedWeight s w [] = 0 from rfl, abs_zero, zero_add]
            rw [show signedWeight s w [] = 0 from rfl, zero_add] at hsum
            rw [hsum]
          · rw [he] at hsum ⊢
            rw [show signedWeight s w [] = 0 from rfl, abs_zero, add_zero]
            rw [show signedWeight s w [] = 0 from rfl, add_zero] at hsum
            rw [hsum]
        · rw [if_neg he] at h
          obtain ⟨lt, rt, hlt, hrt, h⟩ := h
          match lt, rt, hlt, hrt, h with
          | none, _, _, _, h => cases h
          | some _, none, _, _, h => cases h
          | some lt, some rt, hlt, hrt, h =>
            cases h
            obtain ⟨hk, p, hp1, hp2, hp3⟩ := hrel
            have hgo : ∀ i ∈ idx, p i = decide (f.val i < x) := by
              intro i hi
              have h1 := hp1 i hi
              rw [goesLeft_f64 ht.ok.sample hf (fin x) (hN.row i hi)] at h1
              rw [← Option.some.inj h1]
              exact decide_eq_decide.mpr Iff.rfl
            have hfl : idx.filter p = idx.filter fun i => decide (f.val i < x) := List.filter_congr hgo
            have hfr : (idx.filter fun i => !p i) = idx.filter fun i => !decide (f.val i < x) := List.filter_congr fun i hi => by rw [hgo i hi]
            -- a branch
            have hbranch : ∀ lt' rt', TreeRel s w lt' (idx.filter p) → TreeRel s w rt' (idx.filter fun i => !p i) →
                D ^ 2 * W - 5 / 10 ^ 6 ≤ edgeOn s w (.branch ⟨f.name, fin x⟩ lt' rt') idx := by
              intro lt' rt' h1 h2
              have h3 := treeRel_edge_root hp1 h1 h2 hN hb
              rw [hfl, hfr] at h3
              have h4 : D ^ 2 * W ≤ (|signedWeight s w (idx.filter fun i => decide (f.val i < x))| + |signedWeight s w (idx.filter fun i => !decide (f.val i < x))|) ^ 2 / W := by
                rw [le_div_iff₀ hW0, show D ^ 2 * W * W = (D * W) ^ 2 by ring]
                gcongr
              norm_num at h3 ⊢
              linarith
            unfold removeRedundant at htree hleaf ⊢
            split
            · exact hbranch _ _ (ofTrain_rel _ _ (removeRedundant_rel _ _ hp2)) (ofTrain_rel _ _ hp3)
            · split
              · exact hbranch _ _ (ofTrain_rel _ _ hp2) (ofTrain_rel _ _ (removeRedundant_rel _ _ hp3))
              · rename_i hll hrl
                split
                · -- pruned
                  rename_i hcmp
                  rw [if_neg hll, if_neg hrl, if_pos hcmp] at hleaf
                  cases lt with
                  | branch => simp [isLeaf] at hll
                  | leaf lc lx ll =>
                    cases rt with
                    | branch => simp [isLeaf] at hrl
                    | leaf rc rx rl =>
                      obtain ⟨c0, k1, k2⟩ := loss_cost hN hb hk
                      obtain ⟨cl, k3, k4⟩ := loss_cost (hN.filter p) (hb.filter p) hp2
                      obtain ⟨cr, k5, k6⟩ := loss_cost (hN.filter fun i => !p i) (hb.filter _) hp3
                      rw [hfl] at k4
                      rw [hfr] at k6
                      have hcl0 : ∀ y A B : ℝ, |y - (A - |B|) / 2 * A| ≤ 5 / 10 ^ 8 → |B| ≤ A → A ≤ 3 / 2 → |y| ≤ 3 := by
                        intro y A B h1 h2 h3
                        have h4 := le_abs_of_dist h1
                        have h5 := abs_nonneg B
                        have h6 : |(A - |B|) / 2 * A| ≤ 2 := by
                          rw [abs_of_nonneg (mul_nonneg (by linarith) (by linarith))]
                          nlinarith
                        have h7 : (5 / 10 ^ 8 : ℝ) ≤ 1 := by norm_num
                        linarith
                      have hb1 := hcl0 cl _ _ k4 hSl (by have := (hN.filter fun i => decide (f.val i < x)).sum; linarith)
                      have hb2 := hcl0 cr _ _ k6 hSr (by have := (hN.filter fun i => !decide (f.val i < x)).sum; linarith)
                      obtain ⟨r1, r2⟩ := rnd_approx (z := cl + cr) ((abs_add_le _ _).trans (by linarith))
                      rw [k1, cost, cost, k3, k5, F64.add, r1] at hcmp
                      have hgain := prune_gain hwsum.symm hSl hSr k2 k4 k6 r2 (partialCmp_eq hcmp)
                      refine hleaf (|signedWeight s w (idx.filter fun i => decide (f.val i < x))| + |signedWeight s w (idx.filter fun i => !decide (f.val i < x))| - |S|) (by linarith) ?_ hgain
                      have := abs_add_le (signedWeight s w (idx.filter fun i => decide (f.val i < x))) (signedWeight s w (idx.filter fun i => !decide (f.val i < x)))
                      rw [hsum] at this
                      linarith
                · exact hbranch _ _ (ofTrain_rel _ _ (removeRedundant_rel _ _ hp2)) (ofTrain_rel _ _ (removeRedundant_rel _ _ hp3))

end Miniboosts.FTree
