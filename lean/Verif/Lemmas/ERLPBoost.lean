import Verif.Lemmas.GammaExists
import Mathlib.Analysis.SpecialFunctions.Log.Basic

/-! # The inner loop of ERLPBoost -/

namespace Miniboosts

open Real LP

/-- The quadratic expansion of the entropy is bounded from below. -/
theorem log_expansion_ge (c d : ℝ) (hc : 0 < c) (hc2 : c ≤ 2) : -2 ≤ log c * d + d ^ 2 / (2 * c) := by
  have h1 : c * (log c) ^ 2 ≤ 4 := by
    rcases le_or_gt c 1 with h | h
    · set t := -log c with ht
      have ht0 : 0 ≤ t := by rw [ht]; have := log_nonpos hc.le h; linarith
      have hexp : c = exp (-t) := by rw [ht, neg_neg, exp_log hc]
      have h2 : 1 + t / 2 ≤ exp (t / 2) := by have := add_one_le_exp (t / 2); linarith
      have h3 : (t / 2) ^ 2 ≤ exp t := by
        have : exp t = exp (t / 2) ^ 2 := by rw [← exp_nat_mul]; congr 1; push_cast; ring
        rw [this]
        apply pow_le_pow_left₀ (by linarith) (by linarith)
      have h4 : (log c) ^ 2 = t ^ 2 := by rw [ht]; ring
      rw [h4, hexp]
      have h5 : exp (-t) * exp t = 1 := by rw [← exp_add]; simp
      nlinarith [exp_pos (-t), mul_le_mul_of_nonneg_left h3 (exp_pos (-t)).le]
    · have h2 : 0 ≤ log c := log_nonneg h.le
      have h3 : log c ≤ 1 := by have := log_le_sub_one_of_pos hc; linarith
      have : (log c) ^ 2 ≤ 1 := by nlinarith
      nlinarith
  have h2 : 0 ≤ (d + c * log c) ^ 2 / (2 * c) := by positivity
  have h3 : (d + c * log c) ^ 2 / (2 * c) = log c * d + d ^ 2 / (2 * c) + c * (log c) ^ 2 / 2 := by
    field_simp; ring
  rw [h3] at h2
  linarith

theorem gammaQuadratic_tmulVec (quad : List ℝ) (x : List ℝ) :
    (gammaQuadratic quad).tmulVec x 0 = 0 ∧
    ∀ i, i < quad.length → (gammaQuadratic quad).tmulVec x (1 + i) = quad.getD i 0 * x.getD (1 + i) 0 := by
  constructor
  · simp [Csc.tmulVec, Csc.col, gammaQuadratic]
  · intro i hi
    have h1 : (0 :: List.range (quad.length + 1)).getD (1 + i) 0 = i := by
      rw [Nat.add_comm 1 i, List.getD_cons_succ, List.getD_eq_getElem?_getD, List.getElem?_range (by omega)]; rfl
    have h2 : (0 :: List.range (quad.length + 1)).getD (1 + i + 1) 0 = i + 1 := by
      rw [List.getD_cons_succ, List.getD_eq_getElem?_getD, List.getElem?_range (by omega)]
      simp [Nat.add_comm]
    unfold Csc.tmulVec Csc.col gammaQuadratic
    simp only [h1, h2, Nat.add_sub_cancel_left]
    have h3 : ((List.range' 1 quad.length).zip quad).drop i = (1 + i, quad[i]) ::
        ((List.range' 1 quad.length).zip quad).drop (i + 1) := by
      rw [List.drop_eq_getElem_cons (by simp; exact hi)]
      simp
    rw [h3]
    simp [List.getD_eq_getElem?_getD, hi]

variable {H X : Type*} [Classifier H X ℝ]

namespace ERLP

/-- The model `m` holds the margins of the hypotheses `hs` on `S`. -/
structure Holds (m : QPModel) (S : Examples X ℝ) (hs : List H) (nu : ℝ) : Prop where
  nEx : m.nExamples = S.length
  nHyp : m.nHypotheses = hs.length
  rows : m.rows = rowsOf S hs
  cap : m.capInv = 1 / nu
  dlen : m.dist.length = S.length

theorem Holds.isGamma {m : QPModel} {S : Examples X ℝ} {hs : List H} {nu : ℝ} (hm : Holds m S hs nu) :
    IsGamma (m.program m.dist) S hs 1 (1 / nu) (fun i => log (m.dist.getD i 0 + eps) / m.eta)
      (fun i => 1 / ((m.dist.getD i 0 + eps) * m.eta)) := by
  have hl := hm.dlen
  constructor
  · simp [QPModel.program, hm.nEx, hm.nHyp, hm.rows]
  · simp [QPModel.program, hm.nEx, hm.nHyp, hm.cap]
  · simp [QPModel.program, hm.nEx, hm.nHyp]
  · simp [QPModel.program, hl]; omega
  · rfl
  · intro i hi
    simp only [QPModel.program]
    rw [Nat.add_comm, List.getD_cons_succ]
    simp [List.getD_eq_getElem?_getD, hl, hi]
  · simp [QPModel.program, gammaQuadratic, hl]; omega
  · intro x
    exact (gammaQuadratic_tmulVec _ x).1
  · intro x i hi
    simp only [QPModel.program]
    rw [(gammaQuadratic_tmulVec _ x).2 i (by simp [hl, hi])]
    congr 1
    simp [List.getD_eq_getElem?_getD, hl, hi]

theorem eps_pos : 0 < eps := by unfold eps; positivity

theorem eps_le : eps ≤ 1 := by
  unfold eps
  rw [div_le_one (by positivity)]
  exact one_le_pow₀ (by norm_num)

theorem eps_le_half : eps ≤ 1 / 2 := by unfold eps; norm_num

theorem map_max_self (l : List ℝ) (h : ∀ p ∈ l, 0 ≤ p) : (l.map fun d => max d 0) = l := by
  conv_rhs => rw [← List.map_id l]
  apply List.map_congr_left
  intro p hp
  simp [h p hp]

theorem cap_length {S : Examples X ℝ} {nu : ℝ} (hnu1 : 1 ≤ nu) (hnu2 : nu ≤ S.length) :
    (1 : ℝ) ≤ (S.length : ℝ) * (1 / nu) := by
  rw [mul_one_div, le_div_iff₀ (by linarith)]; linarith

/-- The optimal pair of the current program. -/
theorem step_optimal {m : QPModel} {S : Examples X ℝ} {hs : List H} {nu : ℝ} (hm : Holds m S hs nu)
    (hS : S ≠ []) (hhs : hs ≠ []) (hnu1 : 1 ≤ nu) (hnu2 : nu ≤ S.length) (heta : 0 < m.eta) (hd : Spec.IsCapped nu m.dist)
    {solver : Solver ℝ} (hsolver : solver.Correct) :
    (∃ s, (m.program m.dist).Optimal s) ∧ ∃ γ d, (solver (m.program m.dist)).x = γ :: d ∧
      1 + 2 * S.length ≤ (solver (m.program m.dist)).z.length ∧ d.length = S.length ∧ Spec.IsCapped nu d ∧
      (∀ h ∈ hs, Spec.edge S d (conf h) ≤ γ) ∧
      ((solver (m.program m.dist)).z.drop (1 + 2 * S.length)).length = hs.length ∧
      Spec.IsProb ((solver (m.program m.dist)).z.drop (1 + 2 * S.length)) ∧
      (solver (m.program m.dist)).objVal = γ + quadPen S.length (fun i => log (m.dist.getD i 0 + eps) / m.eta)
        (fun i => 1 / ((m.dist.getD i 0 + eps) * m.eta)) d ∧
      ∀ d' : List ℝ, d'.length = S.length → Spec.IsCapped nu d' →
        (solver (m.program m.dist)).objVal ≤
          Spec.edge S d' (fun x => Spec.vote conf (List.zip ((solver (m.program m.dist)).z.drop (1 + 2 * S.length)) hs) x) +
            quadPen S.length (fun i => log (m.dist.getD i 0 + eps) / m.eta)
              (fun i => 1 / ((m.dist.getD i 0 + eps) * m.eta)) d' := by
  have hg := hm.isGamma
  have ha : ∀ i, i < S.length → 0 ≤ 1 / ((m.dist.getD i 0 + eps) * m.eta) := by
    intro i hi
    have := (hd.1 _ (getD_mem m.dist i (by rw [hm.dlen]; exact hi))).1
    have := eps_pos
    positivity
  obtain ⟨s, hs'⟩ := hg.exists_optimal hS hhs ha one_pos (cap_length hnu1 hnu2)
  obtain ⟨γ, d, h1, h2, h3, h4, h5, h6, h7, h8, h9, h10⟩ := hg.optimal ha _ (hsolver _ s hs')
  refine ⟨⟨s, hs'⟩, γ, d, h1, h2, h3, ⟨fun p hp => ⟨h4.1 p hp, by have := h5 p hp; linarith⟩, h4.2⟩, h6, h7, h8, h9, ?_⟩
  intro d' hd' hcap
  rw [h9]
  exact h10 d' hd' ⟨fun p hp => (hcap.1 p hp).1, hcap.2⟩ (fun p hp => by rw [one_mul]; exact (hcap.1 p hp).2)

/-- Whatever the loop returns, the distribution is capped and the data are unchanged. -/
theorem solveLoop_sound {S : Examples X ℝ} {hs : List H} {nu : ℝ} (hS : S ≠ []) (hhs : hs ≠ []) (hnu1 : 1 ≤ nu)
    (hnu2 : nu ≤ S.length) {solver : Solver ℝ} (hsolver : solver.Correct) (fuel : Nat) (m m' : QPModel) (old : ℝ)
    (hm : Holds m S hs nu) (heta : 0 < m.eta) (hd : Spec.IsCapped nu m.dist)
    (h : QPModel.solveLoop solver fuel m old = .ok m') :
    Holds m' S hs nu ∧ m'.eta = m.eta ∧ Spec.IsCapped nu m'.dist := by
  induction fuel generalizing m old with
  | zero => simp [QPModel.solveLoop] at h
  | succ fuel ih =>
    obtain ⟨-, γ, d, h1, h2, h3, h4, -, h5, h6, -, -⟩ := step_optimal hm hS hhs hnu1 hnu2 heta hd hsolver
    simp only [QPModel.solveLoop] at h
    by_cases c0 : (m.dist.any fun d => decide (d + eps ≤ 0)) = true
    · rw [if_pos c0] at h; simp at h
    rw [if_neg c0] at h
    by_cases c1 : (solver (m.program m.dist)).status = .other
    · rw [if_pos c1] at h; simp at h
    rw [if_neg c1] at h
    by_cases c2 : old - (solver (m.program m.dist)).objVal < qpTolerance ∨
        (solver (m.program m.dist)).status = .insufficientProgress
    · rw [if_pos c2, Except.ok.injEq] at h
      subst h; exact ⟨hm, rfl, hd⟩
    rw [if_neg c2] at h
    by_cases c3 : (solver (m.program m.dist)).x.length < 1 ∨
        (solver (m.program m.dist)).z.length < 1 + 2 * m.nExamples
    · rw [if_pos c3] at h; simp at h
    rw [if_neg c3] at h
    have hdist : ((solver (m.program m.dist)).x.drop 1).map (fun d => max d 0) = d := by
      rw [h1, List.drop_one, List.tail_cons]
      exact map_max_self d fun p hp => (h4.1 p hp).1
    rw [hdist] at h
    exact ih { m with dist := d, weights := ((solver (m.program m.dist)).z.drop (1 + 2 * m.nExamples)).map fun d => max d 0 } _
      ⟨hm.nEx, hm.nHyp, hm.rows, hm.cap, h3⟩ heta h4 h

/-- A lower bound for the objective values. -/
theorem objVal_ge_of {m : QPModel} {S : Examples X ℝ} (heta : 1 / 2 ≤ m.eta) (hml : m.dist.length = S.length)
    (hd : ∀ q ∈ m.dist, 0 ≤ q ∧ q ≤ 3 / 2) (d : List ℝ) :
    -4 * (S.length : ℝ) ≤ quadPen S.length (fun i => log (m.dist.getD i 0 + eps) / m.eta)
        (fun i => 1 / ((m.dist.getD i 0 + eps) * m.eta)) d := by
  unfold quadPen
  have : ∀ i ∈ Finset.range S.length, (-4 : ℝ) ≤ log (m.dist.getD i 0 + eps) / m.eta * d.getD i 0 +
      1 / ((m.dist.getD i 0 + eps) * m.eta) * d.getD i 0 ^ 2 / 2 := by
    intro i hi
    have hi' := Finset.mem_range.1 hi
    have hmem := hd _ (getD_mem m.dist i (by rw [hml]; exact hi'))
    set c := m.dist.getD i 0 + eps with hc
    have hcpos : 0 < c := by rw [hc]; linarith [hmem.1, eps_pos]
    have hc2 : c ≤ 2 := by rw [hc]; linarith [hmem.2, eps_le_half]
    have h1 := log_expansion_ge c (d.getD i 0) hcpos hc2
    have h2 : log c / m.eta * d.getD i 0 + 1 / (c * m.eta) * d.getD i 0 ^ 2 / 2 =
        (log c * d.getD i 0 + d.getD i 0 ^ 2 / (2 * c)) / m.eta := by
      have : m.eta ≠ 0 := by linarith
      field_simp
    rw [h2, le_div_iff₀ (by linarith)]
    nlinarith
  have h := Finset.sum_le_sum this
  rw [Finset.sum_const, Finset.card_range, nsmul_eq_mul] at h
  linarith

theorem objVal_ge {m : QPModel} {S : Examples X ℝ} (heta : 1 / 2 ≤ m.eta) (hml : m.dist.length = S.length) {nu : ℝ}
    (hnu1 : 1 ≤ nu) (hd : Spec.IsCapped nu m.dist) (d : List ℝ) :
    -4 * (S.length : ℝ) ≤ quadPen S.length (fun i => log (m.dist.getD i 0 + eps) / m.eta)
        (fun i => 1 / ((m.dist.getD i 0 + eps) * m.eta)) d := by
  refine objVal_ge_of heta hml (fun q hq => ⟨(hd.1 q hq).1, ?_⟩) d
  have h1 := (hd.1 q hq).2
  have h2 : 1 / nu ≤ 1 := by rw [div_le_one (by linarith)]; exact hnu1
  linarith

/-- The value of the penalty at the uniform distribution. -/
theorem pen_uniform_le {n : Nat} (hn : 0 < n) (eta : ℝ) (heta : 1 / 2 ≤ eta) :
    quadPen n (fun i => log ((List.replicate n (1 / (n : ℝ))).getD i 0 + eps) / eta)
        (fun i => 1 / (((List.replicate n (1 / (n : ℝ))).getD i 0 + eps) * eta)) (List.replicate n (1 / (n : ℝ))) ≤ 3 := by
  have hn' : (1 : ℝ) ≤ n := by exact_mod_cast hn
  unfold quadPen
  have hu : ∀ i ∈ Finset.range n, (List.replicate n (1 / (n : ℝ))).getD i 0 = 1 / (n : ℝ) := by
    intro i hi
    simp [List.getD_eq_getElem?_getD, Finset.mem_range.1 hi]
  have : ∀ i ∈ Finset.range n, log ((List.replicate n (1 / (n : ℝ))).getD i 0 + eps) / eta *
      (List.replicate n (1 / (n : ℝ))).getD i 0 + 1 / (((List.replicate n (1 / (n : ℝ))).getD i 0 + eps) * eta) *
        (List.replicate n (1 / (n : ℝ))).getD i 0 ^ 2 / 2 ≤ 3 / (n : ℝ) := by
    intro i hi
    rw [hu i hi]
    set u := 1 / (n : ℝ) with hu'
    have hu0 : 0 < u := by rw [hu']; positivity
    have hu1 : u ≤ 1 := by rw [hu', div_le_one (by linarith)]; exact hn'
    have hc : 0 < u + eps := by linarith [eps_pos]
    have h1 : log (u + eps) ≤ 1 := by
      have := log_le_sub_one_of_pos hc
      linarith [eps_le]
    have h2 : u ^ 2 / (u + eps) ≤ u := by
      rw [div_le_iff₀ hc]; nlinarith [eps_pos]
    have h3 : log (u + eps) / eta * u + 1 / ((u + eps) * eta) * u ^ 2 / 2 =
        (log (u + eps) * u + u ^ 2 / (u + eps) / 2) / eta := by
      have : eta ≠ 0 := by linarith
      field_simp
    have h5 : 3 / (n : ℝ) = 3 * u := by rw [hu']; ring
    rw [h3, h5, div_le_iff₀ (by linarith)]
    nlinarith
  have h := Finset.sum_le_sum this
  rw [Finset.sum_const, Finset.card_range, nsmul_eq_mul] at h
  refine h.trans (le_of_eq ?_)
  field_simp

theorem edge_bounds {S : Examples X ℝ} {d : List ℝ} (hl : d.length = S.length) (hd : Spec.IsProb d) (g : X → ℝ)
    (hg : ∀ e ∈ S, |e.2 * g e.1| ≤ 1) : -1 ≤ Spec.edge S d g ∧ Spec.edge S d g ≤ 1 := by
  constructor
  · exact le_edge_of_margins S d hl hd g (-1) fun e he => (abs_le.1 (hg e he)).1
  · have := le_edge_of_margins S d hl hd (fun x => -g x) (-1) fun e he => by
      have := (abs_le.1 (hg e he)).2
      rw [mul_neg]; linarith
    have h2 : Spec.edge S d (fun x => -g x) = -Spec.edge S d g := by
      unfold Spec.edge
      rw [neg_eq_neg_one_mul, ← sum_map_mul_left']
      congr 1
      apply List.map_congr_left
      intro p _
      ring
    rw [h2] at this
    linarith

/-- Enough rounds for the inner loop with `n` examples. -/
def enough (n : Nat) : Nat := (1002 + 4 * n) * 10 ^ 9 + 2

/-- The loop ends, and keeps convex weights. -/
theorem solveLoop_total {S : Examples X ℝ} {hs : List H} {nu : ℝ} (hS : S ≠ []) (hhs : hs ≠ []) (hnu1 : 1 ≤ nu)
    (hnu2 : nu ≤ S.length) {solver : Solver ℝ} (hsolver : solver.Correct) (hrep : solver.Reports)
    (hb : ∀ h ∈ hs, ∀ e ∈ S, |e.2 * conf h e.1| ≤ (1 : ℝ)) (fuel : Nat) (m : QPModel) (old : ℝ)
    (hm : Holds m S hs nu) (heta : 1 / 2 ≤ m.eta) (hd : Spec.IsCapped nu m.dist)
    (hw : m.weights.length = hs.length ∧ Spec.IsProb m.weights) (hfuel : old + 1 + 4 * (S.length : ℝ) < (fuel : ℝ) * qpTolerance) :
    ∃ m', QPModel.solveLoop solver fuel m old = .ok m' ∧ m'.weights.length = hs.length ∧ Spec.IsProb m'.weights ∨ old < -1 - 4 * (S.length : ℝ) := by
  induction fuel generalizing m old with
  | zero => exact ⟨m, Or.inr (by simp at hfuel; linarith)⟩
  | succ fuel ih =>
    obtain ⟨⟨s, hs'⟩, γ, d, h1, h2, h3, h4, h5, h6, h7, h8, -⟩ :=
      step_optimal hm hS hhs hnu1 hnu2 (by linarith) hd hsolver
    have hst := hrep _ s hs'
    have hobj : -1 - 4 * (S.length : ℝ) ≤ (solver (m.program m.dist)).objVal := by
      obtain ⟨h, hh⟩ := List.exists_mem_of_ne_nil _ hhs
      have e1 := (edge_bounds h3 ⟨fun p hp => (h4.1 p hp).1, h4.2⟩ (conf h) (hb h hh)).1
      have e2 := h5 h hh
      have e3 := objVal_ge heta hm.dlen hnu1 hd d
      rw [h8]; linarith
    have c0 : ¬ (m.dist.any fun d => decide (d + eps ≤ 0)) = true := by
      rw [List.any_eq_true]
      rintro ⟨p, hp, hp2⟩
      have := (hd.1 p hp).1
      simp at hp2
      linarith [eps_pos]
    have c1 : ¬ (solver (m.program m.dist)).status = .other := by
      rcases hst with h | h <;> rw [h] <;> simp
    simp only [QPModel.solveLoop]
    rw [if_neg c0, if_neg c1]
    by_cases c2 : old - (solver (m.program m.dist)).objVal < qpTolerance ∨
        (solver (m.program m.dist)).status = .insufficientProgress
    · rw [if_pos c2]
      exact ⟨m, Or.inl ⟨rfl, hw⟩⟩
    rw [if_neg c2]
    have c3 : ¬ ((solver (m.program m.dist)).x.length < 1 ∨
        (solver (m.program m.dist)).z.length < 1 + 2 * m.nExamples) := by
      rw [hm.nEx, h1]; simp; omega
    rw [if_neg c3]
    push_neg at c2
    have hdist : ((solver (m.program m.dist)).x.drop 1).map (fun d => max d 0) = d := by
      rw [h1, List.drop_one, List.tail_cons]
      exact map_max_self d fun p hp => (h4.1 p hp).1
    have hwt : ((solver (m.program m.dist)).z.drop (1 + 2 * m.nExamples)).map (fun d => max d 0) =
        (solver (m.program m.dist)).z.drop (1 + 2 * S.length) := by
      rw [hm.nEx]; exact map_max_self _ h7.1
    rw [hdist, hwt]
    obtain ⟨m', h | h⟩ := ih { m with dist := d, weights := (solver (m.program m.dist)).z.drop (1 + 2 * S.length) }
      (solver (m.program m.dist)).objVal ⟨hm.nEx, hm.nHyp, hm.rows, hm.cap, h3⟩ heta h4 ⟨h6, h7⟩
      (by push_cast at hfuel; linarith [c2.1])
    · exact ⟨m', Or.inl h⟩
    · exact absurd h (by linarith)

/-- One update of the model succeeds. -/
theorem update_total {S : Examples X ℝ} {hs : List H} {nu : ℝ} (hS : S ≠ []) (hnu1 : 1 ≤ nu)
    (hnu2 : nu ≤ S.length) {solver : Solver ℝ} (hsolver : solver.Correct) (hrep : solver.Reports) (h : H)
    (hb : ∀ h' ∈ hs ++ [h], ∀ e ∈ S, |e.2 * conf h' e.1| ≤ (1 : ℝ)) (fuel : Nat) (m : QPModel)
    (hm : Holds m S hs nu) (heta : 1 / 2 ≤ m.eta) (hfuel : enough S.length ≤ fuel) :
    ∃ m', QPModel.update solver fuel S m h = .ok m' ∧ m'.weights.length = hs.length + 1 ∧ Spec.IsProb m'.weights := by
  have hn : 0 < S.length := List.length_pos_iff.2 hS
  have hn' : (0 : ℝ) < S.length := by exact_mod_cast hn
  set m₁ : QPModel := { m with nHypotheses := m.nHypotheses + 1, rows := pushMargins m.rows (margins S h)
                               dist := m.dist.map fun _ => 1 / (m.nExamples : ℝ) } with hm₁
  have hdu : m₁.dist = List.replicate S.length (1 / (S.length : ℝ)) := by
    rw [hm₁]
    simp only [List.map_const', hm.dlen, hm.nEx]
  have hh : Holds m₁ S (hs ++ [h]) nu := by
    refine ⟨hm.nEx, by simp [hm₁, hm.nHyp], ?_, hm.cap, by rw [hdu]; simp⟩
    rw [hm₁]; simp only [hm.rows, pushMargins_rowsOf]
  have hcap : Spec.IsCapped nu m₁.dist := by
    rw [hdu]
    refine ⟨fun p hp => ?_, ?_⟩
    · rw [List.eq_of_mem_replicate hp]
      exact ⟨by positivity, one_div_le_one_div_of_le (by linarith) hnu2⟩
    · rw [List.sum_replicate, nsmul_eq_mul]; field_simp
  have hne : hs ++ [h] ≠ [] := by simp
  obtain ⟨⟨s, hs'⟩, γ, d, h1, h2, h3, h4, h5, h6, h7, h8, h9⟩ :=
    step_optimal hh hS hne hnu1 hnu2 (by show 0 < m.eta; linarith) hcap hsolver
  have hst := hrep _ s hs'
  have hobj : (solver (m₁.program m₁.dist)).objVal ≤ 4 := by
    have e1 := h9 m₁.dist hh.dlen hcap
    have e2 : Spec.edge S m₁.dist (fun x => Spec.vote conf
        (List.zip ((solver (m₁.program m₁.dist)).z.drop (1 + 2 * S.length)) (hs ++ [h])) x) ≤ 1 :=
      vote_edge_le S _ _ _ h6 h7 1 fun h' hh' =>
        (edge_bounds hh.dlen ⟨fun p hp => (hcap.1 p hp).1, hcap.2⟩ (conf h') (hb h' hh')).2
    have e3 := pen_uniform_le hn m.eta heta
    rw [hdu] at e1 e2
    have e4 : m₁.eta = m.eta := rfl
    rw [e4] at e1
    rw [hdu]
    linarith
  obtain ⟨fuel, rfl⟩ : ∃ k, fuel = k + 1 := ⟨fuel - 1, by unfold enough at hfuel; omega⟩
  unfold QPModel.update
  rw [← hm₁]
  have c0 : ¬ (m₁.dist.any fun d => decide (d + eps ≤ 0)) = true := by
    rw [List.any_eq_true]
    rintro ⟨p, hp, hp2⟩
    have := (hcap.1 p hp).1
    simp at hp2
    linarith [eps_pos]
  have c1 : ¬ (solver (m₁.program m₁.dist)).status = .other := by
    rcases hst with h | h <;> rw [h] <;> simp
  have c2 : ¬ ((1000 : ℝ) - (solver (m₁.program m₁.dist)).objVal < qpTolerance ∨
      (solver (m₁.program m₁.dist)).status = .insufficientProgress) := by
    rintro (c | c)
    · have : qpTolerance ≤ 1 := by unfold qpTolerance; norm_num
      linarith
    · rcases hst with h | h <;> rw [h] at c <;> simp at c
  have c3 : ¬ ((solver (m₁.program m₁.dist)).x.length < 1 ∨
      (solver (m₁.program m₁.dist)).z.length < 1 + 2 * m₁.nExamples) := by
    rw [hh.nEx, h1]; simp; omega
  simp only [QPModel.solveLoop]
  rw [if_neg c0, if_neg c1, if_neg c2, if_neg c3]
  have hdist : ((solver (m₁.program m₁.dist)).x.drop 1).map (fun d => max d 0) = d := by
    rw [h1, List.drop_one, List.tail_cons]
    exact map_max_self d fun p hp => (h4.1 p hp).1
  have hwt : ((solver (m₁.program m₁.dist)).z.drop (1 + 2 * m₁.nExamples)).map (fun d => max d 0) =
      (solver (m₁.program m₁.dist)).z.drop (1 + 2 * S.length) := by
    rw [hh.nEx]; exact map_max_self _ h7.1
  rw [hdist, hwt]
  have hlow : -1 - 4 * (S.length : ℝ) ≤ (solver (m₁.program m₁.dist)).objVal := by
    have e1 := (edge_bounds h3 ⟨fun p hp => (h4.1 p hp).1, h4.2⟩ (conf h) (hb h (by simp))).1
    have e2 := h5 h (by simp)
    have e3 := objVal_ge (m := m₁) heta hh.dlen hnu1 hcap d
    rw [h8]; linarith
  obtain ⟨m', h' | h'⟩ := solveLoop_total hS hne hnu1 hnu2 hsolver hrep hb fuel
    { m₁ with dist := d, weights := (solver (m₁.program m₁.dist)).z.drop (1 + 2 * S.length) }
    (solver (m₁.program m₁.dist)).objVal ⟨hh.nEx, hh.nHyp, hh.rows, hh.cap, h3⟩ heta h4 ⟨h6, h7⟩ (by
      have hf : ((enough S.length : ℕ) : ℝ) ≤ ((fuel + 1 : ℕ) : ℝ) := Nat.cast_le.2 hfuel
      have hf' : ((1002 : ℝ) + 4 * S.length) * 10 ^ 9 + 1 ≤ fuel := by
        simp only [enough, Nat.cast_add, Nat.cast_mul, Nat.cast_pow, Nat.cast_ofNat, Nat.cast_one] at hf
        linarith
      unfold qpTolerance
      linarith)
  · exact ⟨m', h'.1, by rw [h'.2.1]; simp, h'.2.2⟩
  · exact absurd h' (by linarith)

end ERLP

end Miniboosts
