import Verif.Lemmas.FloatGiniScan

/-! # The edge of a tree trained in `f64` with the criterion `gini` -/

namespace Miniboosts.FTree

open Miniboosts F64 Spec

/-- What a split at `t` explains: `S_l² / W_l + S_r² / W_r`. -/
noncomputable def explained (s : Sample ℝ) (w : ℕ → ℝ) (f : Feature ℝ) (idx : List ℕ) (t : ℝ) : ℝ :=
  signedWeight s w (idx.filter fun i => decide (f.val i < t)) ^ 2 / ((idx.filter fun i => decide (f.val i < t)).map w).sum +
    signedWeight s w (idx.filter fun i => !decide (f.val i < t)) ^ 2 / ((idx.filter fun i => !decide (f.val i < t)).map w).sum

theorem gw_scale {V S W : ℝ} (hW : 0 < W) : gw (V / W) (S / W) = (V - S ^ 2 / V) / (2 * W) := by
  unfold gw
  by_cases hV : V = 0
  · subst hV; simp
  · field_simp

theorem impurity_explained {s : Sample ℝ} {dist : List F64} {w : ℕ → ℝ} {idx : List ℕ} (hN : Node s dist w idx) (hne : idx ≠ []) (f : Feature ℝ) (t : ℝ) :
    explained s w f idx t = (idx.map w).sum * (1 - 2 * impurity s w f idx t) := by
  have hW := hN.wpos hne
  have h1 := signed_filter s w idx fun i => decide (f.val i < t)
  have h2 := weight_filter w idx fun i => decide (f.val i < t)
  have e1 : 1 - wbelow w f idx t / (idx.map w).sum = ((idx.filter fun i => !decide (f.val i < t)).map w).sum / (idx.map w).sum := by
    rw [eq_div_iff hW.ne', sub_mul, one_mul, div_mul_cancel₀ _ hW.ne']
    unfold wbelow
    linarith
  have e2 : signedWeight s w idx / (idx.map w).sum - below s w f idx t / (idx.map w).sum = signedWeight s w (idx.filter fun i => !decide (f.val i < t)) / (idx.map w).sum := by
    rw [← sub_div]
    congr 1
    unfold below
    linarith
  unfold impurity explained
  rw [e1, e2, gw_scale hW, gw_scale hW]
  unfold below wbelow
  rw [← h2] at hW ⊢
  have key : ∀ X Y a b : ℝ, 0 < a + b → X + Y = (a + b) * (1 - 2 * ((a - X) / (2 * (a + b)) + (b - Y) / (2 * (a + b)))) := by
    intro X Y a b h
    field_simp
    ring
  exact key _ _ _ _ hW

theorem titu0 {a b A B : ℝ} (ha : |a| ≤ A) (hb : |b| ≤ B) : (|a| + |b|) ^ 2 / (A + B) ≤ a ^ 2 / A + b ^ 2 / B := by
  have hA := (abs_nonneg _).trans ha
  have hB := (abs_nonneg _).trans hb
  rcases hA.eq_or_lt with h | h
  · subst h
    have : a = 0 := abs_nonpos_iff.mp ha
    subst this
    simp
  · rcases hB.eq_or_lt with h' | h'
    · subst h'
      have : b = 0 := abs_nonpos_iff.mp hb
      subst this
      simp
    · exact titu h h'

theorem explained_ge {s : Sample ℝ} {dist : List F64} {w : ℕ → ℝ} {idx : List ℕ} (hN : Node s dist w idx) (hne : idx ≠ []) (hb : Binary s idx) (f : Feature ℝ) (t : ℝ) :
    |diff s w f idx t| ^ 2 * (idx.map w).sum ≤ explained s w f idx t := by
  have hW := hN.wpos hne
  have h2 := weight_filter w idx fun i => decide (f.val i < t)
  have h3 := abs_signedWeight (hb.filter fun i => decide (f.val i < t)) fun i hi => hN.nonneg i (List.mem_filter.mp hi).1
  have h4 := abs_signedWeight (hb.filter fun i => !decide (f.val i < t)) fun i hi => hN.nonneg i (List.mem_filter.mp hi).1
  have h5 := titu0 h3 h4
  rw [h2] at h5
  refine le_trans ?_ h5
  have h6 := two_sides s w f idx t
  rw [le_div_iff₀ hW]
  unfold diff
  rw [abs_div, abs_of_pos hW, div_pow]
  rw [show ∀ a : ℝ, a / (idx.map w).sum ^ 2 * (idx.map w).sum * (idx.map w).sum = a from fun a => by field_simp]
  gcongr

/-! ## The best split -/

/-- The best threshold of one column. -/
def GoodGini (t : Tree) (s : Sample ℝ) (w : ℕ → ℝ) (idx : List ℕ) (f : Feature ℝ) (z thr : ℝ) : Prop :=
  |z - impurity s w f idx thr| ≤ 2 / 10 ^ 6 ∧ z ≤ gw 1 (signedWeight s w idx / (idx.map w).sum) + 2 / 10 ^ 6 ∧
    ∀ rb : List (Bin ℝ), HMap.get? t.bins f.name = some (rb.map toF) → ∀ β ∈ rb, z ≤ impurity s w f idx β.stop + 2 / 10 ^ 6

theorem featureSplit_gini (L : Libm) {t : Tree} {s : Sample ℝ} (ht : FineTree t s) {dist : List F64} {w : ℕ → ℝ} {idx : List ℕ}
    (hN : Node s dist w idx) (hne : idx ≠ []) (hb : Binary s idx) {f : Feature ℝ} (hf : f ∈ s.features) {o : F64 × String × F64}
    (h : FeatureSplit L .gini t.bins s dist idx f (some o)) : ∃ z thr : ℝ, o = (fin z, f.name, fin thr) ∧ GoodGini t s w idx f z thr := by
  obtain ⟨rb, b1, b2, b3⟩ := ht.ok.bins f hf
  obtain ⟨-, hall⟩ := pack_f64 b3 b2 ht.ok.sample hf (ht.ok.values f hf) hN hne
  unfold FeatureSplit at h
  rw [b1] at h
  obtain ⟨p, hp, ho⟩ := h
  obtain ⟨pack, ms, rfl, -⟩ := hall p hp
  obtain ⟨r, hr, ho⟩ := ho
  obtain ⟨r, rfl, hro⟩ := Option.map_eq_some_iff.mp ho.symm
  subst hro
  obtain ⟨z, thr, hr', h1, h2, h3⟩ := splitByGini_near b3 b2 (ht.fine f hf rb b1) ht.ok.sample hf (ht.ok.values f hf) hN hne hb hp hr (.inl ⟨r, rfl⟩)
  obtain rfl := Option.some.inj hr'
  refine ⟨z, thr, rfl, h1, h2, fun rb' hrb' β hβ => h3 β ?_⟩
  rw [b1] at hrb'
  rw [toF_inj (Option.some.inj hrb')]
  exact hβ

theorem bestSplit_gini (L : Libm) {t : Tree} {s : Sample ℝ} (ht : FineTree t s) {dist : List F64} {w : ℕ → ℝ} {idx : List ℕ}
    (hN : Node s dist w idx) (hne : idx ≠ []) (hb : Binary s idx) {name : String} {thr : F64} (h : BestSplit L .gini t.bins s dist idx (some (name, thr))) :
    ∃ f ∈ s.features, name = f.name ∧ ∃ x : ℝ, thr = fin x ∧ impurity s w f idx x ≤ gw 1 (signedWeight s w idx / (idx.map w).sum) + 4 / 10 ^ 6 ∧
      ∀ g ∈ s.features, ∀ rb : List (Bin ℝ), HMap.get? t.bins g.name = some (rb.map toF) → ∀ β ∈ rb, impurity s w f idx x ≤ impurity s w g idx β.stop + 4 / 10 ^ 6 := by
  obtain ⟨os, hos, ho⟩ := h
  have hall : ∀ (l : List (Feature ℝ)) os, (∀ f ∈ l, f ∈ s.features) → List.Forall₂ (FeatureSplit L .gini t.bins s dist idx) l os →
      ∀ cands : List (F64 × String × F64), Par.allSome os = some cands →
        (∀ f ∈ l, ∃ z x : ℝ, (fin z, f.name, fin x) ∈ cands ∧ GoodGini t s w idx f z x) ∧
        ∀ a ∈ cands, ∃ f ∈ l, ∃ z x : ℝ, a = (fin z, f.name, fin x) ∧ GoodGini t s w idx f z x := by
    intro l
    induction l with
    | nil => intro os _ h cands hc; cases h; cases hc; exact ⟨by simp, by simp⟩
    | cons f l ih =>
      intro os hl h cands hc
      obtain ⟨o, os, rfl⟩ : ∃ o l, os = o :: l := by cases h; exact ⟨_, _, rfl⟩
      rw [List.forall₂_cons] at h
      match o, h, hc with
      | none, _, hc => simp [Par.allSome] at hc
      | some o, h, hc =>
        cases hco : Par.allSome os with
        | none => simp [Par.allSome, hco] at hc
        | some cands' =>
          have hce : cands = o :: cands' := by simpa [Par.allSome, hco] using hc.symm
          subst hce
          obtain ⟨i2, i3⟩ := ih os (fun g hg => hl g (List.mem_cons_of_mem _ hg)) h.2 cands' hco
          obtain ⟨z, x, rfl, hg⟩ := featureSplit_gini L ht hN hne hb (hl f (by simp)) h.1
          refine ⟨fun g hgm => ?_, fun a ha => ?_⟩
          · rcases List.mem_cons.mp hgm with rfl | hgm
            · exact ⟨z, x, by simp, hg⟩
            · obtain ⟨z', x', h1, h2⟩ := i2 g hgm
              exact ⟨z', x', List.mem_cons_of_mem _ h1, h2⟩
          · rcases List.mem_cons.mp ha with rfl | ha
            · exact ⟨f, by simp, z, x, rfl, hg⟩
            · obtain ⟨g, g1, g2⟩ := i3 a ha
              exact ⟨g, List.mem_cons_of_mem _ g1, g2⟩
  cases hc : Par.allSome os with
  | none => rw [hc] at ho; cases ho
  | some cands =>
    obtain ⟨c2, c3⟩ := hall s.features os (fun f hf => hf) hos cands hc
    rw [hc] at ho
    obtain ⟨x, hx, hxo⟩ := ho
    obtain ⟨a, rfl, ha⟩ := Option.map_eq_some_iff.mp hxo.symm
    obtain ⟨hmem, hbest⟩ := extremum_best (smallest := minimised .gini) (key := fun p : F64 × String × F64 => p.1) (fun b hb' => by
      obtain ⟨f, -, z, x, rfl, -⟩ := c3 b hb'
      simp) hx
    obtain ⟨f, hf, z, x, rfl, hg1, hg2, hg3⟩ := c3 a hmem
    simp only [Prod.mk.injEq] at ha
    have hg1' := abs_le.mp hg1
    refine ⟨f, hf, ha.1.symm, x, ha.2.symm, by linarith [hg1'.1, hg1'.2], fun g hgm rb hrb β hβ => ?_⟩
    obtain ⟨z', x', k1, k2, k3, k4⟩ := c2 g hgm
    have hle : z ≤ z' := by
      have := hbest _ k1
      simp only [minimised, if_true] at this
      exact not_lt.mp this
    have := k4 rb hrb β hβ
    linarith [hg1'.1, hg1'.2]

/-! ## The tree -/

theorem prune_three {W Wl Wr S Sl Sr : ℝ} (hW : W = Wl + Wr) {c cl cr cs : ℝ} (h1 : |c - (W - |S|) / 2 * W| ≤ 5 / 10 ^ 8)
    (h2 : |cl - (Wl - |Sl|) / 2 * Wl| ≤ 5 / 10 ^ 8) (h3 : |cr - (Wr - |Sr|) / 2 * Wr| ≤ 5 / 10 ^ 8) (h4 : |cs - (cl + cr)| ≤ 1 / 10 ^ 13) (h : c = cs) :
    (|Sl| + |Sr| - |S|) * W + (Wl - |Sl|) * Wr + (Wr - |Sr|) * Wl ≤ 4 / 10 ^ 7 := by
  have a1 := abs_le.mp h1
  have a2 := abs_le.mp h2
  have a3 := abs_le.mp h3
  have a4 := abs_le.mp h4
  have e3 : (|Sl| + |Sr| - |S|) * W + (Wl - |Sl|) * Wr + (Wr - |Sr|) * Wl = (W - |S|) * W - ((Wl - |Sl|) * Wl + (Wr - |Sr|) * Wr) := by rw [hW]; ring
  rw [e3]
  have h5 : (1 / 10 ^ 13 : ℝ) ≤ 1 / 10 ^ 8 := by norm_num
  linarith [a1.1, a1.2, a2.1, a2.2, a3.1, a3.2, a4.1, a4.2]

/-- What a pruned split would have explained. -/
theorem prune_explained {W Wl Wr S Sl Sr : ℝ} (hW : Wl + Wr = W) (hS : Sl + Sr = S) (hW2 : 1 / 2 ≤ W) (hl : |Sl| ≤ Wl) (hr : |Sr| ≤ Wr) (hl0 : 0 < Wl) (hr0 : 0 < Wr)
    (h : (|Sl| + |Sr| - |S|) * W + (Wl - |Sl|) * Wr + (Wr - |Sr|) * Wl ≤ 4 / 10 ^ 7) : Sl ^ 2 / Wl + Sr ^ 2 / Wr - S ^ 2 / W ≤ 5 / 10 ^ 6 := by
  have hW0 : 0 < W := by linarith
  have g1 : 0 ≤ (Wl - |Sl|) * Wr := mul_nonneg (by linarith) hr0.le
  have g2 : 0 ≤ (Wr - |Sr|) * Wl := mul_nonneg (by linarith) hl0.le
  have g3 : 0 ≤ (|Sl| + |Sr| - |S|) * W := mul_nonneg (by have := abs_add_le Sl Sr; rw [hS] at this; linarith) hW0.le
  have e : Sl ^ 2 / Wl + Sr ^ 2 / Wr - S ^ 2 / W = (Sl * Wr - Sr * Wl) ^ 2 / (Wl * Wr * W) := by
    rw [← hS, ← hW] at *
    field_simp
    ring
  rw [e, div_le_iff₀ (by positivity)]
  have hP : 0 < Wl * Wr := mul_pos hl0 hr0
  have hb : |Sl * Wr - Sr * Wl| ≤ 2 * (Wl * Wr) := by
    refine (abs_sub _ _).trans ?_
    rw [abs_mul, abs_mul, abs_of_pos hl0, abs_of_pos hr0]
    nlinarith
  have hlast : ∀ a : ℝ, 0 ≤ a → a ≤ 5 / 2 / 10 ^ 6 → Wl * Wr * a ≤ 5 / 10 ^ 6 * (Wl * Wr * W) := by
    intro a h0 h1
    have : Wl * Wr * a ≤ Wl * Wr * (5 / 10 ^ 6 * W) := by
      gcongr
      norm_num at h1 ⊢
      linarith
    linarith
  by_cases hsame : 0 ≤ Sl * Sr
  · -- equal signs
    have hd : |Sl * Wr - Sr * Wl| ≤ 4 / 10 ^ 7 := by
      have key : ∀ a b : ℝ, 0 ≤ a → 0 ≤ b → (Wl - a) * Wr ≤ 4 / 10 ^ 7 → (Wr - b) * Wl ≤ 4 / 10 ^ 7 → 0 ≤ (Wl - a) * Wr → 0 ≤ (Wr - b) * Wl → |a * Wr - b * Wl| ≤ 4 / 10 ^ 7 := by
        intro a b _ _ k1 k2 k3 k4
        rw [abs_le]
        constructor <;> nlinarith
      have habs : |Sl * Wr - Sr * Wl| = |(|Sl|) * Wr - |Sr| * Wl| := by
        have hz : ∀ x y : ℝ, 0 ≤ x → y ≤ 0 → 0 ≤ x * y → x = 0 ∨ y = 0 := fun x y p q r => mul_eq_zero.mp (le_antisymm (mul_nonpos_of_nonneg_of_nonpos p q) r)
        rcases le_total 0 Sl with p | p <;> rcases le_total 0 Sr with q | q
        · rw [abs_of_nonneg p, abs_of_nonneg q]
        · rcases hz _ _ p q hsame with r | r <;> rw [r] <;> simp [abs_mul]
        · rcases hz _ _ q p (by rwa [mul_comm]) with r | r <;> rw [r] <;> simp [abs_mul]
        · rw [abs_of_nonpos p, abs_of_nonpos q, ← abs_neg, show -(Sl * Wr - Sr * Wl) = -Sl * Wr - -Sr * Wl by ring]
      rw [habs]
      exact key |Sl| |Sr| (abs_nonneg _) (abs_nonneg _) (by linarith) (by linarith) g1 g2
    calc (Sl * Wr - Sr * Wl) ^ 2 = |Sl * Wr - Sr * Wl| * |Sl * Wr - Sr * Wl| := by rw [← _root_.sq, sq_abs]
      _ ≤ 2 * (Wl * Wr) * (4 / 10 ^ 7) := by gcongr
      _ = Wl * Wr * (8 / 10 ^ 7) := by ring
      _ ≤ _ := hlast _ (by norm_num) (by norm_num)
  · -- opposite signs
    push Not at hsame
    have hg : min |Sl| |Sr| * 2 = |Sl| + |Sr| - |S| := by
      rw [← hS]
      rcases le_total 0 Sl with p | p <;> rcases le_total 0 Sr with q | q
      · exact absurd (mul_nonneg p q) (not_le.mpr hsame)
      · rw [abs_of_nonneg p, abs_of_nonpos q]
        rcases le_total Sl (-Sr) with r | r
        · rw [min_eq_left r, abs_of_nonpos (by linarith)]; ring
        · rw [min_eq_right r, abs_of_nonneg (by linarith)]; ring
      · rw [abs_of_nonpos p, abs_of_nonneg q]
        rcases le_total (-Sl) Sr with r | r
        · rw [min_eq_left r, abs_of_nonneg (by linarith)]; ring
        · rw [min_eq_right r, abs_of_nonpos (by linarith)]; ring
      · exact absurd (mul_nonneg_of_nonpos_of_nonpos p q) (not_le.mpr hsame)
    have hPs : Wl * Wr ≤ 6 / 10 ^ 7 := by
      rcases le_total |Sl| |Sr| with r | r
      · rw [min_eq_left r] at hg
        have : |Sl| * Wr ≤ |Sl| * W := mul_le_mul_of_nonneg_left (by linarith) (abs_nonneg _)
        nlinarith
      · rw [min_eq_right r] at hg
        have : |Sr| * Wl ≤ |Sr| * W := mul_le_mul_of_nonneg_left (by linarith) (abs_nonneg _)
        nlinarith
    calc (Sl * Wr - Sr * Wl) ^ 2 = |Sl * Wr - Sr * Wl| * |Sl * Wr - Sr * Wl| := by rw [← _root_.sq, sq_abs]
      _ ≤ 2 * (Wl * Wr) * (2 * (Wl * Wr)) := by gcongr
      _ = Wl * Wr * (4 * (Wl * Wr)) := by ring
      _ ≤ _ := hlast _ (by positivity) (by norm_num at hPs ⊢; linarith)

/-- The tree's edge is at least what its first test explains. -/
theorem treeRel_explained {s : Sample ℝ} {dist : List F64} {w : ℕ → ℝ} {rule : Splitter F64} {lt rt : TreeNode F64} {idx : List ℕ} {p : ℕ → Bool}
    (hp : ∀ i ∈ idx, goesLeft rule s i = some (p i)) (hl : TreeRel s w lt (idx.filter p)) (hr : TreeRel s w rt (idx.filter fun i => !p i))
    (hN : Node s dist w idx) (hb : Binary s idx) :
    signedWeight s w (idx.filter p) ^ 2 / ((idx.filter p).map w).sum + signedWeight s w (idx.filter fun i => !p i) ^ 2 / ((idx.filter fun i => !p i).map w).sum -
      1 / 10 ^ 8 * (idx.map w).sum ≤ edgeOn s w (.branch rule lt rt) idx := by
  have h1 := treeRel_edge _ _ hl (hN.filter p) (hb.filter p)
  have h2 := treeRel_edge _ _ hr (hN.filter _) (hb.filter _)
  rw [edgeOn_branch hp]
  have h4 := weight_filter w idx p
  have h7 : 1 / 10 ^ 8 * ((idx.filter p).map w).sum + 1 / 10 ^ 8 * ((idx.filter fun i => !p i).map w).sum = 1 / 10 ^ 8 * (idx.map w).sum := by rw [← mul_add, h4]
  linarith

/-- A tree trained with the criterion `gini` has, up to `2e-5`, at least the (normalised, squared) edge of every rule of thumb on the bins. -/
theorem fullTree_gini (L : Libm) {t : Tree} (hc : t.criterion = .gini) {s : Sample ℝ} (ht : FineTree t s) {dist : List F64} {w : ℕ → ℝ} {idx : List ℕ}
    (hN : Node s dist w idx) (hne : idx ≠ []) (hb : Binary s idx) (hW : 1 / 2 ≤ (idx.map w).sum) {depth : ℕ} {node : TrainNode F64}
    (h : FullTree L t s dist (depth + 1) idx (some node)) :
    ∃ Q : ℝ, (|signedWeight s w idx| / (idx.map w).sum) ^ 2 ≤ Q ∧
      (∀ g ∈ s.features, ∀ rb : List (Bin ℝ), HMap.get? t.bins g.name = some (rb.map toF) → ∀ β ∈ rb, |diff s w g idx β.stop| ^ 2 ≤ Q) ∧
      Q * (idx.map w).sum - 2 / 10 ^ 5 ≤ edgeOn s w (ofTrain (removeRedundant node)) idx := by
  have hrel := fullTree_rel L ht.ok.sample (depth + 1) idx hN hne hb node h
  have htree := ofTrain_rel _ _ (removeRedundant_rel _ _ hrel)
  have hmean := treeRel_edge _ _ htree hN hb
  have hWb := hN.sum
  have hS := abs_signedWeight hb hN.nonneg
  set W := (idx.map w).sum with hWd
  set S := signedWeight s w idx with hSd
  have hW0 : 0 < W := by linarith
  have hS0 := abs_nonneg S
  have hsq : S ^ 2 / W = (|S| / W) ^ 2 * W := by rw [div_pow, sq_abs]; field_simp
  have hSW : |S| / W ≤ 1 := (div_le_one hW0).mpr hS
  have hSW0 : 0 ≤ |S| / W := div_nonneg hS0 hW0.le
  obtain ⟨a, c, ha, hcl, h⟩ := h
  match a, c, ha, hcl, h with
  | none, _, _, _, h => cases h
  | some total, none, _, _, h => cases h
  | some total, some (conf, loss), ha, hcl, h =>
    rcases h with ⟨rfl, h⟩ | ⟨hl0, b, hbs, h⟩
    · -- a pure node
      cases h
      obtain ⟨x, hx, hx2⟩ := hrel.vals.loss
      cases hx
      have hx2' := (abs_le.mp hx2).1
      refine ⟨1, pow_le_one₀ hSW0 hSW, fun g _ rb _ β _ => pow_le_one₀ (abs_nonneg _) (diff_abs hN hne hb g _), ?_⟩
      rw [hsq] at hmean
      have h1 : 1 - 4 / 10 ^ 8 ≤ |S| / W := by
        rw [le_div_iff₀ hW0]
        have : (1 - 4 / 10 ^ 8) * W = W - 4 / 10 ^ 8 * W := by ring
        linarith
      have h2 : (1 - 4 / 10 ^ 8 : ℝ) ^ 2 * W ≤ (|S| / W) ^ 2 * W := by
        gcongr
      have h3 : (1 - 4 / 10 ^ 8 : ℝ) ^ 2 * W = W - (8 / 10 ^ 8 - (4 / 10 ^ 8) ^ 2) * W := by ring
      have h4 : (8 / 10 ^ 8 - (4 / 10 ^ 8) ^ 2 : ℝ) * W ≤ (8 / 10 ^ 8 - (4 / 10 ^ 8) ^ 2) * (3 / 2) := by gcongr
      norm_num at h2 h3 h4 hmean ⊢
      linarith
    · match b, hbs, h with
      | none, _, h => cases h
      | some (name, thr), hbs, h =>
        rw [hc] at hbs
        obtain ⟨f, hf, rfl, x, rfl, hbest1, hbest2⟩ := bestSplit_gini L ht hN hne hb hbs
        have hsr := splitRows_f64 ht.ok.sample hf (fin x) idx hN.row
        have hdec : (fun i => open Classical in decide (F64.Lt (fin (f.val i)) (fin x))) = fun i => decide (f.val i < x) := by
          funext i
          exact decide_eq_decide.mpr Iff.rfl
        have hdec' : (fun i => !(open Classical in decide (F64.Lt (fin (f.val i)) (fin x)))) = fun i => !decide (f.val i < x) := by
          funext i
          congr 1
        rw [hdec, hdec'] at hsr
        simp only [hsr] at h
        have hG := impurity_explained hN hne f x
        rw [← hWd] at hG
        -- the explained part is (almost) the best
        have hGW : ∀ y Y : ℝ, y = W * (1 - 2 * Y) → impurity s w f idx x ≤ Y + 4 / 10 ^ 6 → y ≤ explained s w f idx x + 8 / 10 ^ 6 * W := by
          intro y Y h1 h2
          rw [hG, h1]
          nlinarith
        have hq : ∀ y : ℝ, y * W ≤ explained s w f idx x + 8 / 10 ^ 6 * W → y ≤ explained s w f idx x / W + 8 / 10 ^ 6 := by
          intro y hy
          rw [← mul_le_mul_iff_of_pos_right hW0, add_mul, div_mul_cancel₀ _ hW0.ne']
          exact hy
        suffices hmain : explained s w f idx x - 7 / 10 ^ 6 ≤ edgeOn s w (ofTrain (removeRedundant node)) idx by
          refine ⟨explained s w f idx x / W + 8 / 10 ^ 6, hq _ ?_, fun g hg rb hrb β hβ => hq _ ?_, ?_⟩
          · refine hGW _ _ ?_ hbest1
            show (|S| / W) ^ 2 * W = W * (1 - 2 * gw 1 (S / W))
            unfold gw
            rw [div_pow, sq_abs, div_pow]
            ring
          · exact (explained_ge hN hne hb g β.stop).trans (hGW _ _ (impurity_explained hN hne g β.stop) (hbest2 g hg rb hrb β hβ))
          · rw [add_mul, div_mul_cancel₀ _ hW0.ne']
            norm_num at hmain ⊢
            linarith
        have hsum := signed_filter s w idx fun i => decide (f.val i < x)
        have hwsum := weight_filter w idx fun i => decide (f.val i < x)
        have hSl := abs_signedWeight (hb.filter fun i => decide (f.val i < x)) fun i hi => hN.nonneg i (List.mem_filter.mp hi).1
        have hSr := abs_signedWeight (hb.filter fun i => !decide (f.val i < x)) fun i hi => hN.nonneg i (List.mem_filter.mp hi).1
        rw [← hSd] at hsum
        rw [← hWd] at hwsum
        have hleaf : explained s w f idx x - S ^ 2 / W ≤ 5 / 10 ^ 6 → explained s w f idx x - 7 / 10 ^ 6 ≤ edgeOn s w (ofTrain (removeRedundant node)) idx := by
          intro hG
          norm_num at hG hmean ⊢
          linarith
        by_cases he : (idx.filter fun i => decide (f.val i < x)) = [] ∨ (idx.filter fun i => !decide (f.val i < x)) = []
        · -- nothing is split off
          rw [if_pos he] at h
          cases h
          refine hleaf ?_
          have : explained s w f idx x = S ^ 2 / W := by
            unfold explained
            rcases he with he | he
            · rw [he] at hsum hwsum ⊢
              rw [← hsum, ← hwsum, show signedWeight s w [] = 0 from rfl]
              simp
            · rw [he] at hsum hwsum ⊢
              rw [← hsum, ← hwsum, show signedWeight s w [] = 0 from rfl]
              simp
          rw [this]
          norm_num
        · rw [if_neg he] at h
          obtain ⟨lt, rt, hlt, hrt, h⟩ := h
          match lt, rt, hlt, hrt, h with
          | none, _, _, _, h => cases h
          | some _, none, _, _, h => cases h
          | some lt, some rt, hlt, hrt, h =>
            cases h
            obtain ⟨hk, p, hp1, hp2, hp3⟩ := hrel
            have hgo : ∀ i ∈ idx, p i = decide (f.val i < x) := by
              intro i hi
              have h1 := hp1 i hi
              rw [goesLeft_f64 ht.ok.sample hf (fin x) (hN.row i hi)] at h1
              rw [← Option.some.inj h1]
              exact decide_eq_decide.mpr Iff.rfl
            have hfl : idx.filter p = idx.filter fun i => decide (f.val i < x) := List.filter_congr hgo
            have hfr : (idx.filter fun i => !p i) = idx.filter fun i => !decide (f.val i < x) := List.filter_congr fun i hi => by rw [hgo i hi]
            -- a branch
            have hbranch : ∀ lt' rt', TreeRel s w lt' (idx.filter p) → TreeRel s w rt' (idx.filter fun i => !p i) →
                explained s w f idx x - 7 / 10 ^ 6 ≤ edgeOn s w (.branch ⟨f.name, fin x⟩ lt' rt') idx := by
              intro lt' rt' h1 h2
              have h3 := treeRel_explained hp1 h1 h2 hN hb
              rw [hfl, hfr, ← hWd] at h3
              unfold explained
              norm_num at h3 ⊢
              linarith
            unfold removeRedundant at htree hleaf ⊢
            split
            · exact hbranch _ _ (ofTrain_rel _ _ (removeRedundant_rel _ _ hp2)) (ofTrain_rel _ _ hp3)
            · split
              · exact hbranch _ _ (ofTrain_rel _ _ hp2) (ofTrain_rel _ _ (removeRedundant_rel _ _ hp3))
              · rename_i hll hrl
                split
                · -- pruned
                  rename_i hcmp
                  rw [if_neg hll, if_neg hrl, if_pos hcmp] at hleaf
                  cases lt with
                  | branch => simp [isLeaf] at hll
                  | leaf lc lx ll =>
                    cases rt with
                    | branch => simp [isLeaf] at hrl
                    | leaf rc rx rl =>
                      obtain ⟨c0, k1, k2⟩ := loss_cost hN hb hk
                      obtain ⟨cl, k3, k4⟩ := loss_cost (hN.filter p) (hb.filter p) hp2
                      obtain ⟨cr, k5, k6⟩ := loss_cost (hN.filter fun i => !p i) (hb.filter _) hp3
                      rw [hfl] at k4
                      rw [hfr] at k6
                      have hcl0 : ∀ y A B : ℝ, |y - (A - |B|) / 2 * A| ≤ 5 / 10 ^ 8 → |B| ≤ A → A ≤ 3 / 2 → |y| ≤ 3 := by
                        intro y A B h1 h2 h3
                        have h4 := le_abs_of_dist h1
                        have h5 := abs_nonneg B
                        have h6 : |(A - |B|) / 2 * A| ≤ 2 := by
                          rw [abs_of_nonneg (mul_nonneg (by linarith) (by linarith))]
                          nlinarith
                        have h7 : (5 / 10 ^ 8 : ℝ) ≤ 1 := by norm_num
                        linarith
                      have hb1 := hcl0 cl _ _ k4 hSl (by have := (hN.filter fun i => decide (f.val i < x)).sum; linarith)
                      have hb2 := hcl0 cr _ _ k6 hSr (by have := (hN.filter fun i => !decide (f.val i < x)).sum; linarith)
                      obtain ⟨r1, r2⟩ := rnd_approx (z := cl + cr) ((abs_add_le _ _).trans (by linarith))
                      rw [k1, cost, cost, k3, k5, F64.add, r1] at hcmp
                      have hthree := prune_three hwsum.symm k2 k4 k6 r2 (partialCmp_eq hcmp)
                      push Not at he
                      exact hleaf (prune_explained hwsum hsum hW hSl hSr ((hN.filter _).wpos he.1) ((hN.filter _).wpos he.2) hthree)
                · exact hbranch _ _ (ofTrain_rel _ _ (removeRedundant_rel _ _ hp2)) (ofTrain_rel _ _ (removeRedundant_rel _ _ hp3))

end Miniboosts.FTree
