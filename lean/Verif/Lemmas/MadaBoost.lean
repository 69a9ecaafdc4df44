import Verif.Lemmas.Hypothesis
import Verif.Model.MadaBoost

/-! Helper lemmas for MadaBoost. -/

namespace Miniboosts

open Real

variable {H X : Type*}

theorem updateZip_map_map {α β γ : Type*} (f : α → β → α) (a : γ → α) (b : γ → β) (l : List γ) :
    updateZip f (l.map a) (l.map b) = l.map fun i => f (a i) (b i) := by
  induction l with
  | nil => rfl
  | cons x l ih => simp [updateZip, ih]

theorem length_updateZip {α β : Type*} (f : α → β → α) (a : List α) (b : List β) :
    (updateZip f a b).length = a.length := by
  induction a generalizing b with
  | nil => cases b <;> rfl
  | cons x a ih => cases b <;> simp [updateZip, ih]

namespace MadaBoost

/-- The step `β` of a round with edge `γ`. -/
noncomputable def betaOf (γ : ℝ) : ℝ :=
  √(√(1 / 2 * (1 / 2 * (1 - γ))) / (1 - √(1 / 2 * (1 / 2 * (1 - γ)))))

/-- The vote weight of a round with edge `γ`. -/
noncomputable def alphaOf (γ : ℝ) : ℝ := log (1 / betaOf γ)

theorem eps2_bounds {γ : ℝ} (h : |γ| < 1) :
    0 < √(1 / 2 * (1 / 2 * (1 - γ))) ∧ √(1 / 2 * (1 / 2 * (1 - γ))) < 1 := by
  obtain ⟨h1, h2⟩ := abs_lt.1 h
  constructor
  · apply sqrt_pos.2; linarith
  · rw [sqrt_lt' one_pos]; linarith

theorem betaOf_pos {γ : ℝ} (h : |γ| < 1) : 0 < betaOf γ := by
  obtain ⟨h1, h2⟩ := eps2_bounds h
  apply sqrt_pos.2
  apply div_pos h1; linarith

theorem betaOf_lt_one_iff {γ : ℝ} (h : |γ| < 1) : betaOf γ < 1 ↔ 0 < γ := by
  obtain ⟨h1, h2⟩ := eps2_bounds h
  unfold betaOf
  rw [sqrt_lt' one_pos, one_pow, div_lt_one (by linarith)]
  constructor
  · intro h3
    have h4 : √(1 / 2 * (1 / 2 * (1 - γ))) < 1 / 2 := by linarith
    rw [sqrt_lt' (by norm_num)] at h4
    linarith
  · intro h3
    have h4 : √(1 / 2 * (1 / 2 * (1 - γ))) < 1 / 2 := by
      rw [sqrt_lt' (by norm_num)]; linarith
    linarith

theorem alphaOf_pos_iff {γ : ℝ} (h : |γ| < 1) : 0 < alphaOf γ ↔ 0 < γ := by
  have hb := betaOf_pos h
  rw [← betaOf_lt_one_iff h, alphaOf, log_pos_iff (by positivity), lt_div_iff₀ hb, one_mul]

theorem beta2distribution_map {ι : Type*} (S : List ι) (hS : S ≠ []) (b : ι → ℝ) :
    beta2distribution (S.map b) =
      .ok (S.map fun i => exp (min (b i) 1) / (S.map fun i => exp (min (b i) 1)).sum) := by
  unfold beta2distribution
  obtain ⟨z, hz, hez⟩ := logSumExpSorted_eq ((S.map b).map fun b => min b 1) (by simpa using hS)
  simp only [hz]
  simp only [List.map_map]
  congr 1
  apply List.map_congr_left
  intro i _
  simp only [Function.comp_apply]
  rw [exp_sub, hez, List.map_map, List.map_map]
  rfl

theorem updateParams_eq {ι : Type*} (S : List ι) (b p : ι → ℝ) {γ : ℝ} (h : |γ| < 1) :
    updateParams (S.map b) (S.map p) γ = .ok (alphaOf γ, S.map fun i => b i + p i * betaOf γ) := by
  obtain ⟨h1, h2⟩ := abs_lt.1 h
  unfold updateParams
  simp only []
  rw [if_pos ⟨by linarith, by linarith⟩, updateZip_map_map]
  rfl

/-- The clipped-exponential weights. -/
noncomputable def clip (S : Examples X ℝ) (F : X → ℝ) : List ℝ :=
  S.map fun e => exp (min (1 / S.length + e.2 * F e.1) 1) /
    (S.map fun e => exp (min (1 / S.length + e.2 * F e.1) 1)).sum

theorem clip_posProb (S : Examples X ℝ) (hS : S ≠ []) (F : X → ℝ) :
    (clip S F).length = S.length ∧ Spec.IsPosProb (clip S F) := by
  have hp : 0 < (S.map fun e => exp (min (1 / (S.length : ℝ) + e.2 * F e.1) 1)).sum :=
    sum_map_pos S _ hS (fun _ _ => exp_pos _)
  refine ⟨by simp [clip], ?_, ?_⟩
  · intro p h
    obtain ⟨e, _, rfl⟩ := List.mem_map.1 h
    exact div_pos (exp_pos _) hp
  · unfold clip; rw [sum_map_div]; exact div_self hp.ne'

theorem boost_cases [Classifier H X ℝ] {S : Examples X ℝ} {s : MadaBoost H} {wl : WeakLearner ℝ H}
    {it : Nat} {F : X → ℝ} (hne : S ≠ [])
    (hd : s.betas = S.map fun e => 1 / (S.length : ℝ) + e.2 * F e.1) :
    let γ := Spec.edge S (clip S F) (conf (wl it (clip S F)))
    boost S s wl it =
      if s.maxIter < it then .ok ⟨s, .brk s.maxIter, []⟩
      else if 1 ≤ |γ| then .ok ⟨{ s with terminated := it, alphas := [AdaBoost.signum γ],
                                          hypotheses := [wl it (clip S F)] }, .brk it, [clip S F]⟩
      else .ok ⟨{ s with
          betas := S.map fun e => (1 : ℝ) / (S.length : ℝ) + e.2 * (F e.1 + betaOf γ * conf (wl it (clip S F)) e.1)
          alphas := s.alphas ++ [alphaOf γ]
          hypotheses := s.hypotheses ++ [wl it (clip S F)] }, .cont, [clip S F]⟩ := by
  intro γ
  unfold boost
  split
  · rfl
  · rw [hd, beta2distribution_map S hne]
    simp only [margins_def, ← clip.eq_1, innerProduct_eq_zip]
    split
    · rfl
    · rename_i h1
      rw [updateParams_eq S _ _ (not_le.1 h1)]
      simp only []
      congr 3
      apply List.map_congr_left
      intro e _
      simp only [γ]
      ring

structure Inv [Classifier H X ℝ] (S : Examples X ℝ) (s₀ : MadaBoost H) (n : Nat)
    (qs : List (List ℝ)) (s : MadaBoost H) : Prop where
  ne : S ≠ []
  alen : s.alphas.length = n
  hlen : s.hypotheses.length = n
  qlen : qs.length = n
  edges : ∀ γ ∈ Spec.edges S conf qs s.hypotheses, |γ| < 1
  alphas : s.alphas = (Spec.edges S conf qs s.hypotheses).map alphaOf
  betas : s.betas = S.map fun e => 1 / (S.length : ℝ) + e.2 *
    weightedConf ((Spec.edges S conf qs s.hypotheses).map betaOf) s.hypotheses e.1
  max : s.maxIter = match s₀.forceQuitAt with | some it => it | none => maxLoop S s₀
  le : n ≤ s.maxIter
  q : ∀ q ∈ qs, q.length = S.length ∧ Spec.IsPosProb q

theorem inv_of_reachable [Classifier H X ℝ] {S : Examples X ℝ} {s₀ : MadaBoost H}
    {wl : WeakLearner ℝ H} {n : Nat} {qs : List (List ℝ)} {s : MadaBoost H}
    (h : (booster S).Reachable wl s₀ n qs s) : Inv S s₀ n qs s := by
  induction h with
  | @start s' hp =>
    simp only [booster, preprocess] at hp
    cases hc : checkBinary S with
    | error e => simp [hc] at hp
    | ok u =>
      have hne := checkBinary_ne_nil (S := S) (by cases u; exact hc)
      simp only [hc, Except.ok.injEq] at hp
      subst hp
      refine ⟨hne, rfl, rfl, rfl, ?_, ?_, ?_, rfl, Nat.zero_le _, ?_⟩
      · simp [Spec.edges]
      · simp [Spec.edges]
      · simp [Spec.edges, weightedConf, List.map_const']
      · simp
  | @step n qs s₁ out hr hb hf ih =>
    have hbc := boost_cases (wl := wl) (it := n + 1) ih.ne ih.betas
    simp only [] at hbc
    rw [show (booster S).boost s₁ wl (n + 1) = boost S s₁ wl (n + 1) from rfl, hbc] at hb
    set F : X → ℝ := weightedConf (X := X) ((Spec.edges S conf qs s₁.hypotheses).map betaOf)
      s₁.hypotheses with hF
    have hql : qs.length = s₁.hypotheses.length := by rw [ih.qlen, ih.hlen]
    split at hb
    · simp only [Except.ok.injEq] at hb; subst hb; simp at hf
    · rename_i hit
      split at hb
      · simp only [Except.ok.injEq] at hb; subst hb; simp at hf
      · rename_i hedge
        simp only [Except.ok.injEq] at hb; subst hb
        refine ⟨ih.ne, ?_, ?_, ?_, ?_, ?_, ?_, ih.max, by simp only []; omega, ?_⟩
        · simp [ih.alen]
        · simp [ih.hlen]
        · simp [ih.qlen]
        · simp only [edges_append S qs _ hql]
          intro γ' hγ'
          rcases List.mem_append.1 hγ' with h | h
          · exact ih.edges _ h
          · simp only [List.mem_singleton] at h; rw [h]; exact not_le.1 hedge
        · simp only [edges_append S qs _ hql, List.map_append, ← ih.alphas]; rfl
        · simp only [edges_append S qs _ hql, List.map_append, List.map_cons, List.map_nil]
          apply List.map_congr_left
          intro e _
          rw [weightedConf_append _ _ (by simp [Spec.edges, ih.qlen, ih.hlen])]
        · intro q hq
          rcases List.mem_append.1 hq with h | h
          · exact ih.q _ h
          · simp only [List.mem_singleton] at h
            subst h
            exact clip_posProb S ih.ne F

end MadaBoost

end Miniboosts
