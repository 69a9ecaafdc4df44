import Verif.Lemmas.FloatMadaLoop
import Verif.Props.FloatSchedule

/-! # MadaBoost in `f64` (C120) -/

namespace Miniboosts.Props

open Miniboosts F64 MadaBoostF

variable {H X : Type*} [Classifier H X F64]

/-- C120: with a learner that is never nearly always wrong (all edges at least `-(1 - 10⁻⁵)`) and at most `3000` rounds, boosting never panics: neither the
sort of the scores nor the assertion on the error.  Every weight vector handed out is a distribution up to rounding, and there are at most `limit` of them. -/
theorem madaboost_f64_never_panics (L : Libm) (S : Examples X ℝ) (hS : ∀ e ∈ S, e.2 = 1 ∨ e.2 = -1) (hne : S ≠ []) (hm : S.length ≤ 10 ^ 5) (s s₀ : MadaBoostF H)
    (wl : WeakLearner F64 H) (lo : ℝ) (hlo : -(1 - 1 / 10 ^ 5) ≤ lo) (hwl : MadaLearner S wl lo) (hM : madaLimitF S s ≤ 3000)
    (hp : (MadaBoostF.booster L S).preprocess s wl = .ok s₀) {r} (hl : (MadaBoostF.booster L S).Loop wl s₀ 1 r) :
    ∃ s' qs, r = .ok (s', qs) ∧ (∀ q ∈ qs, CappedWeights S.length q) ∧ qs.length ≤ madaLimitF S s := by
  obtain ⟨s', qs, rfl, ⟨V, hI⟩ | ⟨k, qs₁, V, q, hk, hqs, hkl, hr, hc, -⟩⟩ := loop_ok L hS hne hm hlo hwl hM hl 0 [] [] rfl (Nat.zero_le _) (inv_start hp hne hm)
  · rw [List.nil_append] at hI
    exact ⟨s', qs, rfl, hI.rounds.weights, hI.len.le⟩
  · rw [List.nil_append] at hqs
    refine ⟨s', qs, rfl, ?_, ?_⟩
    · rw [hqs]
      intro d hd
      rcases List.mem_append.mp hd with hd | hd
      · exact hr.weights d hd
      · rw [List.mem_singleton.mp hd]; exact hc
    · rw [hqs, List.length_append, hkl, List.length_singleton]; exact hk

/-- Votes that are close to the intended ones give a close vote. -/
theorem vote_close (V : List (ℝ × H)) (hV : V ≠ []) (a : ℝ → ℝ) (l : ℝ → ℝ) (h : ∀ v ∈ V, |a v.1 - l v.1| ≤ 1 / 10 ^ 10 ∧ 4 / 10 ^ 5 ≤ l v.1) (c : H → ℝ)
    (hc : ∀ v ∈ V, |c v.2| ≤ 1) :
    |(V.map fun v => a v.1 * c v.2).sum / (V.map fun v => a v.1).sum - (V.map fun v => l v.1 * c v.2).sum / (V.map fun v => l v.1).sum| ≤ 1 / 10 ^ 5 - 1 / 10 ^ 7 := by
  have hk : (1 : ℝ) ≤ V.length := by exact_mod_cast List.length_pos_iff.mpr hV
  have h1 := sum_close V (fun v => a v.1 * c v.2) (fun v => l v.1 * c v.2) (fun _ => 1 / 10 ^ 10) (by
    intro v hv
    rw [← sub_mul, abs_mul]
    calc |a v.1 - l v.1| * |c v.2| ≤ 1 / 10 ^ 10 * 1 := mul_le_mul (h v hv).1 (hc v hv) (abs_nonneg _) (by norm_num)
      _ = _ := mul_one _)
  have h2 := sum_close V (fun v => a v.1) (fun v => l v.1) (fun _ => 1 / 10 ^ 10) (fun v hv => (h v hv).1)
  have hconst : (V.map fun _ => (1 : ℝ) / 10 ^ 10).sum = (V.length : ℝ) * ((1 : ℝ) / 10 ^ 10) := by
    rw [List.map_const', List.sum_replicate, nsmul_eq_mul]
  rw [hconst] at h1 h2
  have h3 : V.length * (4 / 10 ^ 5) ≤ (V.map fun v => l v.1).sum := const_le_sum V _ _ fun v hv => (h v hv).2
  have h4 : |(V.map fun v => l v.1 * c v.2).sum| ≤ (V.map fun v => l v.1).sum := by
    have := sum_close V (fun v => l v.1 * c v.2) (fun _ => 0) (fun v => l v.1) (by
      intro v hv
      have hl : 0 ≤ l v.1 := le_trans (by norm_num) (h v hv).2
      rw [sub_zero, abs_mul, abs_of_nonneg hl]
      exact mul_le_of_le_one_right hl (hc v hv))
    simpa using this
  generalize (V.map fun v => a v.1 * c v.2).sum = A at *
  generalize (V.map fun v => l v.1 * c v.2).sum = B at *
  generalize (V.map fun v => a v.1).sum = W at *
  generalize (V.map fun v => l v.1).sum = U at *
  generalize (V.length : ℝ) = k at *
  have h2' := abs_le.mp h2
  have h4' := abs_le.mp h4
  have h1' := abs_le.mp h1
  norm_num at h3 h2' h1'
  have hU : 0 < U := by linarith
  have hW : 0 < W := by linarith
  have e : A / W - B / U = ((A - B) * U - B * (W - U)) / (W * U) := by field_simp; ring
  rw [e, abs_div, abs_of_pos (mul_pos hW hU), div_le_iff₀ (mul_pos hW hU)]
  have n1 : |(A - B) * U| ≤ k * (1 / 10 ^ 10) * U := by rw [abs_mul, abs_of_pos hU]; exact mul_le_mul_of_nonneg_right h1 hU.le
  have n2 : |B * (W - U)| ≤ U * (k * (1 / 10 ^ 10)) := by rw [abs_mul]; exact mul_le_mul h4 h2 (abs_nonneg _) hU.le
  have n3 : |(A - B) * U - B * (W - U)| ≤ 2 * (k * (1 / 10 ^ 10)) * U := by
    have := abs_sub ((A - B) * U) (B * (W - U))
    linarith
  refine n3.trans ?_
  rw [show (1 / 10 ^ 5 - 1 / 10 ^ 7) * (W * U) = (1 / 10 ^ 5 - 1 / 10 ^ 7) * W * U by ring]
  refine mul_le_mul_of_nonneg_right ?_ hU.le
  norm_num
  linarith

theorem single_vote (h : H) : ∃ f, F64.fromSlices [fin 1] [h] = .ok f ∧ f = ⟨[fin 1], [h]⟩ := by
  have h1 : F64.round 1 = 1 := round_of_rep SmoothBoostF.rep_one
  have hadd : add (fin 0) (fin 1) = fin 1 := by
    have : add (fin 0) (fin 1) = rnd (0 + 1) := rfl
    rw [this, rnd_small (by norm_num), zero_add, h1]
  have hdiv : F64.div (fin 1) (fin 1) = fin 1 := by
    simp only [F64.div, if_neg one_ne_zero]
    rw [rnd_small (by norm_num), div_one, h1]
  have habs : F64.abs (fin 1) = fin 1 := by simp [F64.abs]
  have hn : F64.normalize [fin 1] = .ok [fin 1] := by
    unfold F64.normalize
    have hs : ([fin 1].map F64.abs).foldl add (fin 0) = fin 1 := by simp only [List.map_cons, List.map_nil, List.foldl_cons, List.foldl_nil, habs, hadd]
    refine (if_neg ?_).trans ?_
    · rw [hs]; intro h; injection h with h; norm_num at h
    · rw [hs]; simp only [List.map_cons, List.map_nil, hdiv]
  refine ⟨_, ?_, rfl⟩
  unfold F64.fromSlices
  have hf : (([fin 1].zip [h]).filter fun p => @decide (Lt (fin 0) p.1) (Classical.propDecidable _)) = [(fin 1, h)] := by
    apply List.filter_eq_self.mpr
    simp only [List.zip_cons_cons, List.zip_nil_right, List.mem_singleton]
    rintro _ rfl
    refine @decide_eq_true _ (Classical.propDecidable _) ?_
    exact one_pos
  simp only
  rw [hf]
  simp only [List.map_cons, List.map_nil, hn]
  rfl

/-- C120: with a learner whose edges are all at least `10⁻⁴`, and between one and `3000` rounds allowed, every run of MadaBoost in `f64` returns.  Either all
rounds were made, with the weights and steps of the algorithm, all hypotheses received take part, and the confidence for every row is the vote with the weights
`ln(1/step)` up to `10⁻⁵`; or the last hypothesis had the edge one (up to `10⁻⁹`) and is returned alone. -/
theorem madaboost_f64_returns (L : Libm) (S : Examples X ℝ) (hS : ∀ e ∈ S, e.2 = 1 ∨ e.2 = -1) (hm : S.length ≤ 10 ^ 5) (hb : checkBinary S = .ok ())
    (s : MadaBoostF H) (wl : WeakLearner F64 H) (lo : ℝ) (hlo : 1 / 10 ^ 4 ≤ lo) (hwl : MadaLearner S wl lo) (hM1 : 1 ≤ madaLimitF S s) (hM : madaLimitF S s ≤ 3000)
    {r} (hr : (MadaBoostF.booster L S).Runs wl s r) :
    ∃ f qs, r = .ok (f, qs) ∧ (∀ q ∈ qs, CappedWeights S.length q) ∧ 1 ≤ qs.length ∧ qs.length ≤ madaLimitF S s ∧
      ((∃ V, MadaRounds S wl qs V ∧ qs.length = madaLimitF S s ∧ f.hypotheses = V.map Prod.snd ∧
          ∀ x : X, (∀ v ∈ V, ∃ c : ℝ, conf v.2 x = fin c ∧ |c| ≤ 1) → ∃ c : ℝ, F64.weightedConf f x = fin c ∧
            |c - (V.map fun v => Real.log (1 / stepOf v.1) * (conf v.2 x).val).sum / (V.map fun v => Real.log (1 / stepOf v.1)).sum| ≤ 1 / 10 ^ 5) ∨
       (∃ qs₁ V q, qs = qs₁ ++ [q] ∧ MadaRounds S wl qs₁ V ∧ NearClipped S (madaScore S.length V) q ∧ f = ⟨[fin 1], [wl qs.length q]⟩ ∧
          1 - 1 / 10 ^ 9 ≤ exactEdge S q (wl qs.length q))) := by
  have hne : S ≠ [] := checkBinary_ne_nil hb
  have hlo' : -(1 - 1 / 10 ^ 5) ≤ lo := by norm_num at hlo ⊢; linarith
  norm_num at hlo
  have main : ∀ {s₀ r}, preprocess S s = .ok s₀ → (MadaBoostF.booster L S).Loop wl s₀ 1 r → ∃ s' qs f, r = .ok (s', qs) ∧
      (MadaBoostF.booster L S).postprocess s' = .ok f ∧ (∀ q ∈ qs, CappedWeights S.length q) ∧ 1 ≤ qs.length ∧ qs.length ≤ madaLimitF S s ∧
      ((∃ V, MadaRounds S wl qs V ∧ qs.length = madaLimitF S s ∧ f.hypotheses = V.map Prod.snd ∧
          ∀ x : X, (∀ v ∈ V, ∃ c : ℝ, conf v.2 x = fin c ∧ |c| ≤ 1) → ∃ c : ℝ, F64.weightedConf f x = fin c ∧
            |c - (V.map fun v => Real.log (1 / stepOf v.1) * (conf v.2 x).val).sum / (V.map fun v => Real.log (1 / stepOf v.1)).sum| ≤ 1 / 10 ^ 5) ∨
       (∃ qs₁ V q, qs = qs₁ ++ [q] ∧ MadaRounds S wl qs₁ V ∧ NearClipped S (madaScore S.length V) q ∧ f = ⟨[fin 1], [wl qs.length q]⟩ ∧
          1 - 1 / 10 ^ 9 ≤ exactEdge S q (wl qs.length q))) := by
    intro s₀ r hp hl
    obtain ⟨s₁, qs₀, h₀, hw, hq⟩ := madaboost_f64_never_panics L S hS hne hm s s₀ wl lo hlo' hwl hM hp hl
    obtain ⟨s', qs, rfl, ⟨V, hI⟩ | ⟨k, qs₁, V, q, hk, hqs, hkl, hr, hc, hcl, ha, hh, he⟩⟩ :=
      loop_ok L hS hne hm hlo' hwl hM hl 0 [] [] rfl (Nat.zero_le _) (inv_start hp hne hm)
    all_goals
      simp only [Except.ok.injEq, Prod.mk.injEq] at h₀
      obtain ⟨h₁, h₂⟩ := h₀
      subst h₁ h₂
    · rw [List.nil_append] at hI
      have hVl : V.length = madaLimitF S s := by rw [← hI.rounds.length, hI.len]
      have hV0 : V ≠ [] := by rintro rfl; simp at hVl; omega
      have hα : ∀ v ∈ V, ∃ a, alpha L (fin v.1) = fin a ∧ Rep a ∧ |a - Real.log (1 / MadaBoost.betaOf v.1)| ≤ 1 / 10 ^ 10 ∧ |a| ≤ 13 := by
        intro v hv
        obtain ⟨h1, h2, h3⟩ := hI.edges v hv
        exact alpha_fin L h1 h2 (by norm_num at h3 ⊢; linarith)
      have hlog : ∀ v ∈ V, 4 / 10 ^ 5 ≤ Real.log (1 / MadaBoost.betaOf v.1) := by
        intro v hv
        obtain ⟨h1, h2, h3⟩ := hI.edges v hv
        norm_num at h3
        have := log_betaOf (e := v.1) (by linarith) h2
        refine le_trans ?_ this
        linarith
      set a : ℝ → ℝ := fun γ => (alpha L (fin γ)).val with ha
      have hav : ∀ v ∈ V, alpha L (fin v.1) = fin (a v.1) := by
        intro v hv
        obtain ⟨x, hx, -⟩ := hα v hv
        simp only [ha, hx, F64.val]
      have haspec : ∀ v ∈ V, Rep (a v.1) ∧ |a v.1 - Real.log (1 / MadaBoost.betaOf v.1)| ≤ 1 / 10 ^ 10 ∧ |a v.1| ≤ 13 := by
        intro v hv
        obtain ⟨x, hx, h⟩ := hα v hv
        have : a v.1 = x := by simp only [ha, hx, F64.val]
        rw [this]; exact h
      obtain ⟨f, hf, hfh, hfc⟩ := vote_wide (X := X) (V.map fun v => (a v.1, v.2)) (by simpa using hV0) (by simp only [List.length_map]; omega) (by
        simp only [List.mem_map]
        rintro _ ⟨v, hv, rfl⟩
        obtain ⟨h1, h2, h3⟩ := haspec v hv
        have h4 := hlog v hv
        have h2' := abs_le.mp h2
        norm_num at h4 h2' ⊢
        exact ⟨by linarith, (abs_le.mp h3).2, h1⟩)
      rw [List.map_map, List.map_map] at hf
      rw [List.map_map] at hfh
      refine ⟨s', qs, f, rfl, ?_, hw, by rw [hI.len]; exact hM1, hq, .inl ⟨V, hI.rounds, hI.len, hfh, fun x hx => ?_⟩⟩
      · change F64.fromSlices s'.alphas s'.hypotheses = .ok f
        rw [hI.hyps, hI.votes, ← hf]
        congr 1
        exact List.map_congr_left fun v hv => hav v hv
      · obtain ⟨c, hc, hce⟩ := hfc x (by
          simp only [List.mem_map]
          rintro _ ⟨v, hv, rfl⟩
          exact hx v hv)
        refine ⟨c, hc, ?_⟩
        rw [List.map_map, List.map_map] at hce
        have hcl := vote_close V hV0 a (fun γ => Real.log (1 / MadaBoost.betaOf γ)) (fun v hv => ⟨(haspec v hv).2.1, hlog v hv⟩) (fun h => (conf h x).val)
          (fun v hv => by
            obtain ⟨c, hc, hc1⟩ := hx v hv
            simp only [hc, F64.val]
            exact hc1)
        rw [stepOf_eq]
        have h1 := abs_le.mp hce
        have h2 := abs_le.mp hcl
        simp only [Function.comp_def] at h1
        rw [abs_le]
        constructor <;> linarith only [h1.1, h1.2, h2.1, h2.2]
    · rw [List.nil_append] at hqs
      have hql : qs.length = k + 1 := by rw [hqs, List.length_append, hkl, List.length_singleton]
      obtain ⟨f, hf, rfl⟩ := single_vote (wl (k + 1) q)
      refine ⟨s', qs, ⟨[fin 1], [wl (k + 1) q]⟩, rfl, ?_, hw, by omega, by omega, .inr ⟨qs₁, V, q, hqs, hr, hcl, ?_, ?_⟩⟩
      · change F64.fromSlices s'.alphas s'.hypotheses = _
        rw [ha, hh]; exact hf
      · rw [hql]
      · rw [hql]; exact he
  cases hr with
  | pre h =>
    exfalso
    change preprocess S s = _ at h
    unfold preprocess at h
    rw [hb] at h
    cases h
  | loop h hl => obtain ⟨s', qs, f, h', -⟩ := main h hl; cases h'
  | post h hl hp =>
    obtain ⟨s', qs, f, h', hf, -⟩ := main h hl
    cases h'
    rw [hf] at hp
    cases hp
  | ok h hl hp =>
    obtain ⟨s', qs, f, h', hf, hrest⟩ := main h hl
    cases h'
    rw [hf, Except.ok.injEq] at hp
    subst hp
    exact ⟨f, _, rfl, hrest⟩

/-- The hypotheses of the rounds are the learner's answers to weights. -/
theorem MadaRounds_answers {S : Examples X ℝ} {wl : WeakLearner F64 H} {qs : List (List F64)} {V : List (ℝ × H)} (h : MadaRounds S wl qs V) {lo : ℝ}
    (hwl : MadaLearner S wl lo) : ∀ v ∈ V, lo - 1 / 10 ^ 9 ≤ v.1 ∧ ∀ e ∈ S, ∃ c : ℝ, conf v.2 e.1 = fin c ∧ |c| ≤ 1 := by
  induction h with
  | nil => simp
  | @snoc qs V q γ h hc hq hγ ih =>
    intro v hv
    rcases List.mem_append.mp hv with hv | hv
    · exact ih v hv
    · rw [List.mem_singleton.mp hv]
      have h1 := hwl.edge (qs.length + 1) _ hc
      have h2 := abs_le.mp hγ
      exact ⟨by linarith only [h2.1, h1], hwl.conf _ _ hc⟩

theorem abs_vote_le (V : List (ℝ × H)) (l : ℝ → ℝ) (h : ∀ v ∈ V, 0 ≤ l v.1) (c : H → ℝ) (hc : ∀ v ∈ V, |c v.2| ≤ 1) :
    |(V.map fun v => l v.1 * c v.2).sum / (V.map fun v => l v.1).sum| ≤ 1 := by
  have h0 : 0 ≤ (V.map fun v => l v.1).sum := List.sum_nonneg (by simp only [List.mem_map]; rintro _ ⟨v, hv, rfl⟩; exact h v hv)
  have h4 := sum_close V (fun v => l v.1 * c v.2) (fun _ => 0) (fun v => l v.1) (by
    intro v hv
    rw [sub_zero, abs_mul, abs_of_nonneg (h v hv)]
    exact mul_le_of_le_one_right (h v hv) (hc v hv))
  have e : (V.map fun _ => (0 : ℝ)).sum = 0 := by simp
  rw [e, sub_zero] at h4
  rw [abs_div, abs_of_nonneg h0]
  exact div_le_one_of_le₀ h4 h0

/-- C120: under the conditions of `madaboost_f64_returns`, the confidence of the result for every training example is a number that exceeds one in absolute value by
at most `10⁻⁵`. -/
theorem madaboost_f64_confidence (L : Libm) (S : Examples X ℝ) (hS : ∀ e ∈ S, e.2 = 1 ∨ e.2 = -1) (hm : S.length ≤ 10 ^ 5) (hb : checkBinary S = .ok ())
    (s : MadaBoostF H) (wl : WeakLearner F64 H) (lo : ℝ) (hlo : 1 / 10 ^ 4 ≤ lo) (hwl : MadaLearner S wl lo) (hM1 : 1 ≤ madaLimitF S s) (hM : madaLimitF S s ≤ 3000)
    {r} (hr : (MadaBoostF.booster L S).Runs wl s r) :
    ∃ f qs, r = .ok (f, qs) ∧ ∀ e ∈ S, ∃ c : ℝ, F64.weightedConf f e.1 = fin c ∧ |c| ≤ 1 + 1 / 10 ^ 5 := by
  obtain ⟨f, qs, h1, h2, -, -, ⟨V, hV, -, -, hc⟩ | ⟨qs₁, V, q, hqs, -, -, rfl, -⟩⟩ := madaboost_f64_returns L S hS hm hb s wl lo hlo hwl hM1 hM hr
  · refine ⟨f, qs, h1, fun e he => ?_⟩
    have hVa := MadaRounds_answers hV hwl
    obtain ⟨c, hc1, hc2⟩ := hc e.1 fun v hv => (hVa v hv).2 e he
    refine ⟨c, hc1, ?_⟩
    have hle := abs_vote_le V (fun γ => Real.log (1 / stepOf γ)) (by
      intro v hv
      have h3 := (hVa v hv).1
      norm_num at h3 hlo
      show 0 ≤ Real.log (1 / stepOf v.1)
      rcases lt_or_ge v.1 1 with h | h
      · rw [stepOf_eq]
        have := log_betaOf (e := v.1) (by linarith) h
        linarith
      · have : stepOf v.1 = 0 := by
          unfold stepOf
          rw [Real.sqrt_eq_zero_of_nonpos (show (1 - v.1) / 4 ≤ 0 by linarith)]
          simp
        rw [this]; simp) (fun h => (conf h e.1).val) (fun v hv => by
        obtain ⟨c, hc, hc1⟩ := (hVa v hv).2 e he
        simp only [hc, F64.val]
        exact hc1)
    have a1 := abs_le.mp hle
    have a2 := abs_le.mp hc2
    rw [abs_le]
    constructor <;> linarith only [a1.1, a1.2, a2.1, a2.2]
  · refine ⟨_, qs, h1, fun e he => ?_⟩
    obtain ⟨c, hc, hc1⟩ := hwl.conf qs.length q (h2 q (by rw [hqs]; simp)) e he
    have hone := SmoothBoostF.rep_one
    have hneg : Rep (-1) := ⟨-1, 0, by norm_num, by norm_num, by norm_num⟩
    have hround : ∀ x : ℝ, |x| ≤ 1 → rnd x = fin (F64.round x) ∧ |F64.round x| ≤ 1 := fun x hx =>
      ⟨rnd_small (hx.trans (by norm_num)), abs_le.mpr ⟨rep_le_round hneg (abs_le.mp hx).1, round_le_rep hone (abs_le.mp hx).2⟩⟩
    obtain ⟨r1, r2⟩ := hround (1 * c) (by rwa [one_mul])
    obtain ⟨r3, r4⟩ := hround (0 + F64.round (1 * c)) (by rwa [zero_add])
    refine ⟨F64.round (0 + F64.round (1 * c)), ?_, r4.trans (by norm_num)⟩
    have e1 : mul (fin 1) (fin c) = fin (F64.round (1 * c)) := r1
    have e2 : add (fin 0) (fin (F64.round (1 * c))) = fin (F64.round (0 + F64.round (1 * c))) := r3
    simp only [F64.weightedConf, List.zipWith_cons_cons, List.zipWith_nil_right, List.foldl_cons, List.foldl_nil, hc, e1, e2]

/-- Sorting the scores always has a result. -/
theorem exists_beta2 (L : Libm) (b : List F64) : ∃ r, Beta2Distribution L b r := by
  classical
  unfold Beta2Distribution
  simp only
  by_cases h : 2 ≤ (b.map fun b => minNum b (fin 1)).length ∧ nan ∈ b.map fun b => minNum b (fin 1)
  · exact ⟨_, by rw [if_pos h]⟩
  · simp only [if_neg h]
    have : ∃ idx, SortedIdx (b.map fun b => minNum b (fin 1)) idx := by
      by_cases hm : nan ∈ b.map fun b => minNum b (fin 1)
      · have hlen : (b.map fun b => minNum b (fin 1)).length < 2 := by by_contra hc; exact h ⟨by omega, hm⟩
        refine ⟨List.range _, .refl _, ?_⟩
        have : (b.map fun b => minNum b (fin 1)).length = 0 ∨ (b.map fun b => minNum b (fin 1)).length = 1 := by omega
        rcases this with h | h <;> simp only [h, List.range, List.range.loop] <;> simp
      · exact exists_sortedIdx hm
    obtain ⟨idx, hidx⟩ := this
    cases hz : normalizer L (b.map fun b => minNum b (fin 1)) idx with
    | none => exact ⟨_, idx, hidx, by rw [hz]⟩
    | some z => exact ⟨_, idx, hidx, by rw [hz]⟩

theorem exists_boostMada (L : Libm) (S : Examples X ℝ) (s : MadaBoostF H) (wl : WeakLearner F64 H) (it : Nat) :
    ∃ r, MadaBoostF.Boost L S s wl it r ∧ ∀ out, r = .ok out → out.state.maxIter = s.maxIter ∧ (s.maxIter < it → out.flow = .brk s.maxIter) := by
  unfold MadaBoostF.Boost
  by_cases hi : s.maxIter < it
  · simp only [if_pos hi]
    exact ⟨_, rfl, by rintro _ ⟨⟩; exact ⟨rfl, fun _ => rfl⟩⟩
  · simp only [if_neg hi]
    obtain ⟨d, hd⟩ := exists_beta2 L s.betas
    cases d with
    | error e => exact ⟨_, ⟨_, hd, rfl⟩, by rintro _ ⟨⟩⟩
    | ok d =>
      obtain ⟨e, he⟩ : ∃ e, Inner (F64.margins S (wl it d)) d e := ⟨_, .seq _, rfl, rfl⟩
      by_cases h : F64.Le (fin 1) e.abs
      · exact ⟨_, ⟨_, hd, e, he, Or.inl ⟨h, rfl⟩⟩, by rintro _ ⟨⟩; exact ⟨rfl, fun hc => by omega⟩⟩
      · have : ∃ p, UpdateParams L s.betas (F64.margins S (wl it d)) e p := by
          by_cases hp : F64.Le (fin 0) (eps e) ∧ F64.Lt (eps e) (fin 1)
          · exact ⟨_, .inr ⟨hp, _, (parUpdate_iff _ _ _ _).mpr rfl, rfl⟩⟩
          · exact ⟨_, .inl ⟨hp, rfl⟩⟩
        obtain ⟨p, hp⟩ := this
        refine ⟨_, ⟨_, hd, e, he, Or.inr ⟨h, p, hp, rfl⟩⟩, ?_⟩
        cases p with
        | error e => rintro _ ⟨⟩
        | ok p => rintro _ ⟨⟩; exact ⟨rfl, fun hc => by omega⟩

/-- Every call of `run` has a result, whatever the parameters. -/
theorem exists_runMada (L : Libm) (S : Examples X ℝ) (wl : WeakLearner F64 H) (s : MadaBoostF H) : ∃ r, (MadaBoostF.booster L S).Runs wl s r := by
  have loop : ∀ (k : Nat) (s : MadaBoostF H) (it : Nat), s.maxIter + 1 - it = k → ∃ r, (MadaBoostF.booster L S).Loop wl s it r := by
    intro k
    induction k with
    | zero =>
      intro s it hk
      obtain ⟨r, hr, hr2⟩ := exists_boostMada L S s wl it
      cases r with
      | error e => exact ⟨_, .panic hr⟩
      | ok out => exact ⟨_, .stop hr ((hr2 _ rfl).2 (by omega))⟩
    | succ k ih =>
      intro s it hk
      obtain ⟨r, hr, hr2⟩ := exists_boostMada L S s wl it
      cases r with
      | error e => exact ⟨_, .panic hr⟩
      | ok out =>
        cases hf : out.flow with
        | brk n => exact ⟨_, .stop hr hf⟩
        | cont =>
          obtain ⟨r, h⟩ := ih out.state (it + 1) (by rw [(hr2 _ rfl).1]; omega)
          exact ⟨_, .next hr hf h⟩
  cases hp : MadaBoostF.preprocess S s with
  | error e => exact ⟨_, .pre hp⟩
  | ok s₀ =>
    obtain ⟨r, hr⟩ := loop _ s₀ 1 rfl
    cases r with
    | error e => exact ⟨_, .loop hp hr⟩
    | ok p =>
      cases ho : (MadaBoostF.booster L S).postprocess p.1 with
      | error e => exact ⟨_, .post hp hr ho⟩
      | ok o => exact ⟨_, .ok hp hr ho⟩

theorem exUnsure_mada : MadaLearner exTen (fun _ _ => exUnsure) (4 / 10) := by
  constructor
  · intro it d _ e _
    by_cases h : e.1 < 5
    · exact ⟨1 / 2, by simp [exUnsure, conf, h], by norm_num [abs_of_pos]⟩
    · exact ⟨-(1 / 2), by simp [exUnsure, conf, h], by norm_num [abs_neg, abs_of_pos]⟩
  · rintro it d ⟨xs, rfl, hl, -, hs⟩
    have hs' := abs_le.mp hs
    rw [exUnsure_edge hl]
    norm_num at hs' ⊢
    linarith

/-- The hypotheses of C120 are met: a learner with edges about one half, thirty rounds. -/
example (L : Libm) : ∃ r, (MadaBoostF.booster L exTen).Runs (fun _ _ => exUnsure) ((MadaBoostF.init exTen).setForceQuitAt 30) r ∧
    ∃ f qs, r = .ok (f, qs) ∧ 1 ≤ qs.length ∧ qs.length ≤ 30 ∧ ∀ q ∈ qs, CappedWeights 10 q := by
  obtain ⟨r, hr⟩ := exists_runMada L exTen (fun _ _ => exUnsure) ((MadaBoostF.init exTen).setForceQuitAt 30)
  have hl : exTen.length = 10 := by simp [exTen]
  obtain ⟨f, qs, h1, h2, h3, h4, -⟩ := madaboost_f64_returns L exTen exTen_labels (by simp [exTen]) exTen_valid _ _ (4 / 10) (by norm_num) exUnsure_mada
    (by simp [madaLimitF, setForceQuitAt]) (by simp [madaLimitF, setForceQuitAt]) hr
  rw [hl] at h2
  exact ⟨r, hr, f, qs, h1, h3, h4, h2⟩

end Miniboosts.Props
