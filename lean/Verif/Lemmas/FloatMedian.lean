import Verif.Lemmas.FloatGBM
import Verif.Lemmas.FloatSum
import Verif.Props.GBM

/-! # The weighted median in `f64` -/

namespace Miniboosts

open Miniboosts F64 Spec Props

theorem medianLoopF_split (half : F64) : ∀ (l : List (F64 × F64)) (a c : F64), GBMLoss.medianLoopF half l a = .ok c →
    ∃ A p B, l = A ++ p :: B ∧ c = p.2 ∧ Le half (add ((A.map Prod.fst).foldl add a) p.1) ∧ (A = [] ∨ ¬ Le half ((A.map Prod.fst).foldl add a)) := by
  intro l
  induction l with
  | nil => intro a c h; cases h
  | cons p l ih =>
    intro a c h
    obtain ⟨w, x⟩ := p
    unfold GBMLoss.medianLoopF at h
    by_cases h1 : Le half (add a w)
    · rw [if_pos h1, Except.ok.injEq] at h
      exact ⟨[], (w, x), l, rfl, h.symm, h1, Or.inl rfl⟩
    · rw [if_neg h1] at h
      obtain ⟨A, p, B, e1, e2, e3, e4⟩ := ih _ _ h
      refine ⟨(w, x) :: A, p, B, by rw [e1]; rfl, e2, e3, Or.inr ?_⟩
      rcases e4 with rfl | e4
      · exact h1
      · exact e4

/-- Almost a weighted median is almost optimal. -/
theorem median_near_split (A B : List (ℝ × ℝ)) (w m c δ : ℝ) (hδ : 0 ≤ δ) (hA : ∀ p ∈ A, 0 ≤ p.1 ∧ p.2 ≤ m)
    (hB : ∀ p ∈ B, 0 ≤ p.1 ∧ m ≤ p.2) (hw : 0 ≤ w)
    (h1 : (B.map Prod.fst).sum ≤ (A.map Prod.fst).sum + w + δ)
    (h2 : (A.map Prod.fst).sum ≤ w + (B.map Prod.fst).sum + δ) :
    ((A ++ (w, m) :: B).map fun p => p.1 * |p.2 - m|).sum ≤
      ((A ++ (w, m) :: B).map fun p => p.1 * |p.2 - c|).sum + δ * |m - c| := by
  have hAc : (A.map fun p => p.1 * |p.2 - m|).sum + (c - m) * (A.map Prod.fst).sum ≤ (A.map fun p => p.1 * |p.2 - c|).sum ∧
      (A.map fun p => p.1 * |p.2 - m|).sum ≤ (A.map fun p => p.1 * |p.2 - c|).sum + |c - m| * (A.map Prod.fst).sum := by
    clear h1 h2
    induction A with
    | nil => simp
    | cons p A ih =>
      have h3 := ih fun q hq => hA q (List.mem_cons_of_mem _ hq)
      obtain ⟨h0, hm⟩ := hA p (by simp)
      simp only [List.map_cons, List.sum_cons]
      have e1 : p.1 * |p.2 - m| + (c - m) * p.1 ≤ p.1 * |p.2 - c| := by
        rw [abs_of_nonpos (by linarith : p.2 - m ≤ 0)]
        have := neg_abs_le (p.2 - c)
        nlinarith
      have e2 : p.1 * |p.2 - m| ≤ p.1 * |p.2 - c| + |c - m| * p.1 := by
        have : |p.2 - m| ≤ |p.2 - c| + |c - m| := abs_sub_le _ _ _
        nlinarith
      constructor
      · linarith [h3.1]
      · linarith [h3.2]
  have hBc : (B.map fun p => p.1 * |p.2 - m|).sum + (m - c) * (B.map Prod.fst).sum ≤ (B.map fun p => p.1 * |p.2 - c|).sum ∧
      (B.map fun p => p.1 * |p.2 - m|).sum ≤ (B.map fun p => p.1 * |p.2 - c|).sum + |c - m| * (B.map Prod.fst).sum := by
    clear h1 h2
    induction B with
    | nil => simp
    | cons p B ih =>
      have h3 := ih fun q hq => hB q (List.mem_cons_of_mem _ hq)
      obtain ⟨h0, hm⟩ := hB p (by simp)
      simp only [List.map_cons, List.sum_cons]
      have e1 : p.1 * |p.2 - m| + (m - c) * p.1 ≤ p.1 * |p.2 - c| := by
        rw [abs_of_nonneg (by linarith : 0 ≤ p.2 - m)]
        have := le_abs_self (p.2 - c)
        nlinarith
      have e2 : p.1 * |p.2 - m| ≤ p.1 * |p.2 - c| + |c - m| * p.1 := by
        have : |p.2 - m| ≤ |p.2 - c| + |c - m| := abs_sub_le _ _ _
        nlinarith
      constructor
      · linarith [h3.1]
      · linarith [h3.2]
  simp only [List.map_append, List.map_cons, List.sum_append, List.sum_cons, sub_self, abs_zero, mul_zero]
  rcases le_total m c with h | h
  · rw [abs_of_nonneg (by linarith : 0 ≤ c - m)] at hBc
    rw [abs_of_nonpos (by linarith : m - c ≤ 0)]
    nlinarith [hAc.1, hBc.2, mul_le_mul_of_nonneg_left h1 (sub_nonneg.2 h)]
  · rw [abs_of_nonpos (by linarith : c - m ≤ 0)] at hAc
    rw [abs_of_nonneg (by linarith : 0 ≤ m - c)]
    nlinarith [hAc.2, hBc.1, mul_le_mul_of_nonneg_left h2 (sub_nonneg.2 h)]

/-- A pair of numbers. -/
def toFin (p : ℝ × ℝ) : F64 × F64 := (fin p.1, fin p.2)

theorem half_near {T t : ℝ} (hT : 1 / 10 ^ 10 ≤ T) (hT' : T ≤ 10 ^ 15) (h : (1 - 1 / 10 ^ 9) * T ≤ t ∧ t ≤ (1 + 1 / 10 ^ 9) * T) :
    ∃ x, mul (fin (1 / 2)) (fin t) = fin x ∧ (1 - 2 / 10 ^ 9) * (T / 2) ≤ x ∧ x ≤ (1 + 2 / 10 ^ 9) * (T / 2) := by
  have ht0 : 0 ≤ t := le_trans (mul_nonneg (by norm_num) (by linarith [show (0 : ℝ) ≤ 1 / 10 ^ 10 by positivity])) h.1
  have ht1 : t ≤ 2 * T := by nlinarith [h.2]
  have herr := round_err (1 / 2 * t)
  rw [abs_of_nonneg (show (0 : ℝ) ≤ 1 / 2 * t by linarith), abs_le] at herr
  have hu := u_small
  have hu0 := u_pos
  have hη := eta_tiny
  have h1 : u * (1 / 2 * t) ≤ (1 / 9000000000000000) * T := mul_le_mul hu (by linarith) (by linarith) (by norm_num)
  have h2 : eta ≤ 1 / 10 ^ 40 * T := by nlinarith
  refine ⟨F64.round (1 / 2 * t), ?_, by nlinarith [h.1, herr.1], by nlinarith [h.2, herr.2]⟩
  change rnd (1 / 2 * t) = _
  rw [rnd_small]
  rw [abs_of_nonneg (by linarith)]
  linarith

theorem weightedMedianF_near (W : List (ℝ × ℝ)) (hne : W ≠ []) (hW : ∀ p ∈ W, F64.Rep p.1 ∧ 1 / 10 ^ 10 ≤ p.1 ∧ p.1 ≤ 10 ^ 10) (hl : W.length ≤ 10 ^ 5) :
    ∃ m, (∃ p ∈ W, m = p.2) ∧ GBMLoss.weightedMedianF (W.map toFin) = .ok (fin m) ∧
      ∀ c, (W.map fun p => p.1 * |p.2 - m|).sum ≤ (W.map fun p => p.1 * |p.2 - c|).sum + 5 / 10 ^ 9 * (W.map Prod.fst).sum * |m - c| := by
  classical
  have hpos : ∀ p ∈ W, (0 : ℝ) ≤ p.1 := fun p hp => le_trans (by positivity) (hW p hp).2.1
  have hsum0 : 0 ≤ (W.map Prod.fst).sum := List.sum_nonneg (by intro x hx; obtain ⟨p, hp, rfl⟩ := List.mem_map.mp hx; exact hpos p hp)
  match W, hne with
  | [p], _ =>
    refine ⟨p.2, ⟨p, by simp, rfl⟩, rfl, fun c => ?_⟩
    simp only [List.map_cons, List.map_nil, List.sum_cons, List.sum_nil, sub_self, abs_zero, mul_zero, add_zero]
    have := hpos p (by simp)
    positivity
  | p :: q :: rest, _ =>
    set W := p :: q :: rest with hWdef
    set le : ℝ × ℝ → ℝ × ℝ → Bool := fun a b => decide (a.2 ≤ b.2) with hle
    set sorted := W.mergeSort le with hs
    have hmap : (W.map toFin).mergeSort (fun a b => decide (Le a.2 b.2)) = sorted.map toFin := by
      rw [hs, List.map_mergeSort (s := fun a b => decide (Le a.2 b.2))]
      intro a _ b _
      simp only [hle, toFin]
      exact decide_eq_decide.mpr Iff.rfl
    have hnan : nan ∉ (W.map toFin).map Prod.snd := by
      intro h
      obtain ⟨a, ha, e⟩ := List.mem_map.mp h
      obtain ⟨b, -, rfl⟩ := List.mem_map.mp ha
      cases e
    have hdef : GBMLoss.weightedMedianF (W.map toFin) =
        GBMLoss.medianLoopF (mul (fin (1 / 2)) (((sorted.map toFin).map Prod.fst).foldl add (fin 0))) (sorted.map toFin) (fin 0) := by
      rw [← hmap]
      exact if_neg hnan
    have hperm : sorted.Perm W := List.mergeSort_perm _ _
    have hpw : sorted.Pairwise fun a b => a.2 ≤ b.2 := by
      have := List.pairwise_mergeSort (le := le)
        (by intro a b c hab hbc; simp only [hle, decide_eq_true_eq] at *; exact hab.trans hbc)
        (by intro a b; simp only [hle, Bool.or_eq_true, decide_eq_true_eq]; exact le_total a.2 b.2) W
      exact this.imp fun hab => by simpa [hle] using hab
    have hfst : ∀ l : List (ℝ × ℝ), (l.map toFin).map Prod.fst = (l.map Prod.fst).map fin := fun l => by simp [toFin]
    have hWs : ∀ p ∈ sorted, F64.Rep p.1 ∧ 1 / 10 ^ 10 ≤ p.1 ∧ p.1 ≤ 10 ^ 10 := fun p hp => hW p (hperm.mem_iff.mp hp)
    have hT : (sorted.map Prod.fst).sum = (W.map Prod.fst).sum := (hperm.map Prod.fst).sum_eq
    set T := (W.map Prod.fst).sum with hTdef
    have hT0 : 1 / 10 ^ 10 ≤ T := by
      rw [hTdef, hWdef]
      simp only [List.map_cons, List.sum_cons]
      have h1 := (hW p (by simp [hWdef])).2.1
      have h2 := hpos q (by simp [hWdef])
      have h3 : 0 ≤ (rest.map Prod.fst).sum := List.sum_nonneg (by intro x hx; obtain ⟨a, ha, rfl⟩ := List.mem_map.mp hx; exact hpos a (by simp [hWdef, ha]))
      linarith
    have hT1 : T ≤ 10 ^ 15 := by
      have h1 := List.sum_le_card_nsmul (W.map Prod.fst) (10 ^ 10) (by intro x hx; obtain ⟨a, ha, rfl⟩ := List.mem_map.mp hx; exact (hW a ha).2.2)
      rw [nsmul_eq_mul, List.length_map] at h1
      have h2 : (W.length : ℝ) ≤ 10 ^ 5 := by exact_mod_cast hl
      nlinarith
    have hslen : sorted.length ≤ 10 ^ 5 := by rw [hperm.length_eq]; exact hl
    have hpart : ∀ l : List (ℝ × ℝ), l.Sublist sorted → ∃ s, ((l.map Prod.fst).map fin).foldl add (fin 0) = fin s ∧
        (1 - 1 / 10 ^ 9) * (l.map Prod.fst).sum ≤ s ∧ s ≤ (1 + 1 / 10 ^ 9) * (l.map Prod.fst).sum := by
      intro l hsub
      have hmem : ∀ x ∈ l.map Prod.fst, 0 ≤ x ∧ F64.Rep x := by
        intro x hx
        obtain ⟨a, ha, rfl⟩ := List.mem_map.mp hx
        have := hWs a (hsub.subset ha)
        exact ⟨le_trans (by positivity) this.2.1, this.1⟩
      have hle' : (l.map Prod.fst).sum ≤ T := by
        rw [← hT]
        refine (hsub.map Prod.fst).sum_le_sum ?_
        intro x hx
        obtain ⟨a, ha, rfl⟩ := List.mem_map.mp hx
        exact le_trans (by positivity) (hWs a ha).2.1
      obtain ⟨s, e1, e2, e3⟩ := foldl_near0 _ hmem (by linarith) (by have := hsub.length_le; rw [List.length_map]; omega)
      exact ⟨s, e1, e3.bound (by have := hsub.length_le; rw [List.length_map]; omega) (List.sum_nonneg fun x hx => (hmem x hx).1)⟩
    obtain ⟨t, et, ht⟩ := hpart sorted (List.Sublist.refl _)
    rw [hT] at ht
    obtain ⟨half, eh, hh1, hh2⟩ := half_near hT0 hT1 ht
    rw [hfst, et, eh] at hdef
    have hex : ∃ c, GBMLoss.medianLoopF (fin half) (sorted.map toFin) (fin 0) = .ok c := by
      obtain ⟨a, -, e⟩ := medianLoop_f64_ok (fin half) (sorted.map toFin) (fin 0) (by
        intro e
        have : sorted = [] := List.map_eq_nil_iff.mp e
        rw [this] at hperm
        have := hperm.length_eq
        simp [hWdef] at this) (by
        rw [hfst, et]
        change half ≤ t
        have : (0 : ℝ) ≤ T := hsum0
        nlinarith [ht.1])
      exact ⟨_, e⟩
    obtain ⟨c₀, hc₀⟩ := hex
    obtain ⟨A', p', B', e1, e2, e3, e4⟩ := medianLoopF_split _ _ _ _ hc₀
    obtain ⟨A, R, hAR, hA', hR⟩ := List.map_eq_append_iff.mp e1
    obtain ⟨⟨w, m⟩, B, rfl, rfl, hB'⟩ := List.map_eq_cons_iff.mp hR
    have hsubA : A.Sublist sorted := by rw [hAR]; exact List.sublist_append_left _ _
    have hsubAw : (A ++ [(w, m)]).Sublist sorted := by
      rw [hAR]
      exact List.Sublist.append_left (by simp) A
    obtain ⟨sA, eA, hA1, hA2⟩ := hpart A hsubA
    obtain ⟨sAw, eAw, hAw1, hAw2⟩ := hpart (A ++ [(w, m)]) hsubAw
    have hAwsum : ((A ++ [(w, m)]).map Prod.fst).sum = (A.map Prod.fst).sum + w := by simp
    have h3 : half ≤ sAw := by
      rw [← hA', hfst] at e3
      have : add (((A.map Prod.fst).map fin).foldl add (fin 0)) (toFin (w, m)).1 = fin sAw := by
        rw [← eAw]
        simp [toFin]
      rw [this] at e3
      exact e3
    have h4 : A = [] ∨ sA < half := by
      rcases e4 with rfl | e4
      · exact Or.inl (List.map_eq_nil_iff.mp hA')
      · right
        rw [← hA', hfst, eA] at e4
        exact not_le.mp e4
    have hTsplit : (A.map Prod.fst).sum + w + (B.map Prod.fst).sum = T := by
      rw [← hT, hAR]
      simp [add_assoc]
    have hnn : ∀ l : List (ℝ × ℝ), (∀ a ∈ l, a ∈ sorted) → 0 ≤ (l.map Prod.fst).sum := by
      intro l hl
      refine List.sum_nonneg ?_
      intro x hx
      obtain ⟨a, ha, rfl⟩ := List.mem_map.mp hx
      exact le_trans (by positivity) (hWs a (hl a ha)).2.1
    have hA0 := hnn A fun a ha => by rw [hAR]; simp [ha]
    have hB0 := hnn B fun a ha => by rw [hAR]; simp [ha]
    have hw0 : 0 ≤ w := le_trans (by positivity) (hWs (w, m) (by rw [hAR]; simp)).2.1
    refine ⟨m, ⟨(w, m), hperm.mem_iff.mp (by rw [hAR]; simp), rfl⟩, by rw [hdef, hc₀, e2]; rfl, fun c => ?_⟩
    rw [← (hperm.map fun p => p.1 * |p.2 - m|).sum_eq, ← (hperm.map fun p => p.1 * |p.2 - c|).sum_eq]
    rw [hAR] at hpw ⊢
    rw [List.pairwise_append, List.pairwise_cons] at hpw
    have hTn : 0 ≤ T := hsum0
    refine median_near_split A B w m c _ (by positivity) ?_ ?_ hw0 ?_ ?_
    · intro a ha
      exact ⟨le_trans (by positivity) (hWs a (by rw [hAR]; simp [ha])).2.1, hpw.2.2 a ha (w, m) (by simp)⟩
    · intro b hb
      exact ⟨le_trans (by positivity) (hWs b (by rw [hAR]; simp [hb])).2.1, hpw.2.1.1 b hb⟩
    · rw [hAwsum] at hAw2
      nlinarith
    · rcases h4 with rfl | h4
      · simp only [List.map_nil, List.sum_nil]
        have : 0 ≤ 5 / 10 ^ 9 * T := by positivity
        linarith
      · nlinarith

end Miniboosts
