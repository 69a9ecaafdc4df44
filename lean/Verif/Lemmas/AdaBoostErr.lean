import Verif.Lemmas.Hypothesis

/-! Helper lemmas for the training-error bounds. -/

namespace Miniboosts

open Real AdaBoost

variable {H X : Type*}

theorem errors_le_expLoss {S : Examples X ℝ} (hpm : Spec.PmLabels S)
    {G : Type*} [Classifier G X ℝ] (f : G) (F : X → ℝ) (z : ℝ) (hz : 0 < z)
    (hF : ∀ x, conf f x = F x / z) :
    (Spec.errors S (predict (K := ℝ) f) : ℝ) ≤ expLoss S F := by
  unfold Spec.errors expLoss
  induction S with
  | nil => simp
  | cons e S ih =>
    have ih' := ih (fun e he => hpm e (by simp [he]))
    simp only [List.countP_cons, List.map_cons, List.sum_cons]
    push_cast
    have hpos := exp_pos (-(e.2 * F e.1))
    split
    · rename_i hne
      have hne' : e.2 ≠ (predict (K := ℝ) f e.1 : ℝ) := by simpa using hne
      have hle : e.2 * F e.1 ≤ 0 := by
        have hFz : F e.1 = conf f e.1 * z := by rw [hF]; field_simp
        unfold predict at hne'
        rcases hpm e (by simp) with h | h
        · rw [h] at hne' ⊢
          split at hne'
          · simp at hne'
          · rename_i hc
            rw [one_mul, hFz]; nlinarith [not_le.1 hc]
        · rw [h] at hne' ⊢
          split at hne'
          · rename_i hc
            rw [hFz]; nlinarith
          · simp at hne'
      have : 1 ≤ exp (-(e.2 * F e.1)) := by
        rw [← exp_zero]; exact exp_le_exp.2 (by linarith)
      push_cast
      linarith
    · push_cast; linarith

/-- When all edges were positive, no hypothesis is dropped by the final construction. -/
theorem kept_all [Classifier H X ℝ] {S : Examples X ℝ} {s₀ : AdaBoost H} {n : Nat} {qs : List (List ℝ)}
    {s : AdaBoost H} (hi : AdaBoost.Inv S s₀ n qs s)
    (hpos : ∀ γ ∈ Spec.edges S conf qs s.hypotheses, 0 < γ) :
    (List.zip s.weights s.hypotheses).filter (fun p => decide (0 < p.1)) =
      List.zip s.weights s.hypotheses := by
  rw [List.filter_eq_self]
  intro p hp
  have : p.1 ∈ s.weights := (List.of_mem_zip hp).1
  rw [hi.weights] at this
  obtain ⟨γ, hγ, h⟩ := List.mem_map.1 this
  simp only [decide_eq_true_eq]
  rw [← h]
  exact hypWeight_pos (hpos γ hγ) (abs_lt.1 (hi.edges γ hγ)).2

theorem prod_sqrt_le (l : List ℝ) (g : ℝ) (hg : 0 ≤ g) (hl : ∀ γ ∈ l, g ≤ γ) :
    (l.map fun γ => √(1 - γ ^ 2)).prod ≤ exp (-(l.length * (g ^ 2 / 2))) := by
  induction l with
  | nil => simp
  | cons a l ih =>
    have ih' := ih (fun γ h => hl γ (by simp [h]))
    have ha := hl a (by simp)
    simp only [List.map_cons, List.prod_cons, List.length_cons]
    have h1 : √(1 - a ^ 2) ≤ exp (-(g ^ 2 / 2)) :=
      (sqrt_one_sub_sq_le a).trans (exp_le_exp.2 (by nlinarith))
    calc _ ≤ exp (-(g ^ 2 / 2)) * exp (-(l.length * (g ^ 2 / 2))) :=
          mul_le_mul h1 ih' (List.prod_nonneg (by
            intro x hx; obtain ⟨y, _, rfl⟩ := List.mem_map.1 hx; exact sqrt_nonneg _)) (exp_pos _).le
      _ = _ := by rw [← exp_add]; congr 1; push_cast; ring

theorem all_margins_one (S : Examples X ℝ) (d : X × ℝ → ℝ) (hd : ∀ e ∈ S, 0 < d e)
    (hs : (S.map d).sum = 1) (g : X → ℝ) (hg : ∀ e ∈ S, e.2 * g e.1 ≤ 1)
    (he : 1 ≤ Spec.edge S (S.map d) g) : ∀ e ∈ S, e.2 * g e.1 = 1 := by
  by_contra hcon
  push Not at hcon
  obtain ⟨a, ha, hne⟩ := hcon
  have hlt : a.2 * g a.1 < 1 := lt_of_le_of_ne (hg a ha) hne
  rw [specEdge_map] at he
  have hnn : ∀ e ∈ S, 0 ≤ d e - d e * (e.2 * g e.1) := by
    intro e h
    have := mul_le_mul_of_nonneg_left (hg e h) (hd e h).le
    linarith
  have h1 := single_le_sum_map S (fun e => d e - d e * (e.2 * g e.1)) hnn ha
  have h2 : (S.map fun e => d e - d e * (e.2 * g e.1)).sum = 1 - Spec.edge S (S.map d) g := by
    rw [specEdge_map, ← hs]
    have := sum_map_add' S (fun e => d e - d e * (e.2 * g e.1)) (fun e => d e * (e.2 * g e.1))
    simp only [sub_add_cancel] at this
    linarith
  rw [h2, specEdge_map] at h1
  have h3 := mul_lt_mul_of_pos_left hlt (hd a ha)
  linarith

/-- States with any number of rounds up to the limit are reachable when the edges stay inside
`(-1, 1)`. -/
theorem AdaBoost.exists_reachable [Classifier H X ℝ] (S : Examples X ℝ) (s₀ : AdaBoost H)
    (wl : WeakLearner ℝ H) (hv : checkBinary S = .ok ())
    (hedge : ∀ k d, d.length = S.length → Spec.IsPosProb d → |Spec.edge S d (conf (wl k d))| < 1)
    (n : Nat) (hn : n ≤ match s₀.forceQuitAt with | some it => it | none => maxLoop S s₀) :
    ∃ qs s, (booster S).Reachable wl s₀ n qs s := by
  induction n with
  | zero =>
    have : ∃ s', (booster S).preprocess s₀ wl = .ok s' := by
      simp only [booster, preprocess, hv]; exact ⟨_, rfl⟩
    obtain ⟨s', hs'⟩ := this
    exact ⟨_, _, .start hs'⟩
  | succ n ih =>
    obtain ⟨qs, s, hr⟩ := ih (by omega)
    have hi := inv_of_reachable hr
    have hlt := hedge (n + 1) s.dist (by rw [hi.dist]; simp [Spec.expWeights])
      (by rw [hi.dist]; exact expWeights_posProb S hi.ne _)
    have hb : ∃ out, (booster S).boost s wl (n + 1) = .ok out ∧ out.flow = .cont := by
      simp only [booster, boost, updateParams, margins_def, innerProduct_eq_zip]
      have hmx := hi.max.ge.trans' hn
      rw [if_neg (by omega), if_neg (not_le.2 hlt)]
      have hrw := reweight_expWeights S hi.ne (weightedConf s.weights s.hypotheses)
        (conf (wl (n + 1) s.dist)) (hypWeight (Spec.edge S s.dist (conf (wl (n + 1) s.dist))))
      rw [← hi.dist] at hrw
      rw [hrw]
      exact ⟨_, rfl, rfl⟩
    obtain ⟨out, hb, hf⟩ := hb
    exact ⟨_, _, .step hr hb hf⟩

end Miniboosts
