import Verif.Lemmas.GammaAccurate
import Verif.Props.ERLPBoost
import Verif.Props.MLPAnySolver
import Verif.Props.LPAccurate

/-! # ERLPBoost with a solver of finite accuracy (C117) -/

namespace Miniboosts.Props

open Real LP

variable {H X : Type*} [Classifier H X ℝ]

/-- Nonnegative entries, none above `1/ν` by more than `ε`, and a total within `(m + 1) ε` of 1. -/
def NearCapped (nu ε : ℝ) (d : List ℝ) : Prop :=
  (∀ p ∈ d, 0 ≤ p ∧ p ≤ 1 / nu + ε) ∧ |d.sum - 1| ≤ (d.length + 1) * ε

theorem clip_sum (l : List ℝ) (ε : ℝ) (h : ∀ q ∈ l, -ε ≤ q) (hε : 0 ≤ ε) :
    l.sum ≤ (l.map fun q => max q 0).sum ∧ (l.map fun q => max q 0).sum ≤ l.sum + l.length * ε := by
  induction l with
  | nil => simp
  | cons a l ih =>
    obtain ⟨h1, h2⟩ := ih fun q hq => h q (by simp [hq])
    have h3 := h a (by simp)
    simp only [List.map_cons, List.sum_cons, List.length_cons]
    push_cast
    constructor
    · linarith [le_max_left a 0]
    · have : max a 0 ≤ a + ε := max_le (by linarith) (by linarith)
      linarith

theorem nearCapped_clip {nu ε : ℝ} (hnu : 1 ≤ nu) (hε : 0 ≤ ε) {d : List ℝ} (hd : Spec.NearProb ε d) (hcap : ∀ q ∈ d, q ≤ 1 / nu + ε) :
    NearCapped nu ε (d.map fun q => max q 0) := by
  have hnu0 : 0 ≤ 1 / nu := by positivity
  obtain ⟨h1, h2⟩ := clip_sum d ε hd.1 hε
  have h3 := abs_le.1 hd.2
  constructor
  · intro p hp
    obtain ⟨q, hq, rfl⟩ := List.mem_map.1 hp
    exact ⟨le_max_right _ _, max_le (hcap q hq) (by linarith)⟩
  · rw [List.length_map, abs_le]
    have : 0 ≤ (d.length : ℝ) * ε := by positivity
    constructor <;> linarith [h3.1, h3.2]

theorem nearCapped_uniform {nu ε : ℝ} (hε : 0 ≤ ε) (hnu : 1 ≤ nu) (n : Nat) (hn : nu ≤ n) :
    NearCapped nu ε (List.replicate n (1 / (n : ℝ))) := by
  have hpos : (0 : ℝ) < n := by linarith
  constructor
  · intro p hp
    rw [List.eq_of_mem_replicate hp]
    have := one_div_le_one_div_of_le (by linarith) hn
    exact ⟨by positivity, by linarith⟩
  · rw [List.sum_replicate, nsmul_eq_mul, mul_one_div_cancel hpos.ne', sub_self, abs_zero]
    positivity

theorem near_abs_sum (l : List ℝ) (ε : ℝ) (h : ∀ q ∈ l, -ε ≤ q) (hε : 0 ≤ ε) :
    (l.map fun q => |q|).sum ≤ l.sum + 2 * l.length * ε := by
  induction l with
  | nil => simp
  | cons a l ih =>
    have h1 := ih fun q hq => h q (by simp [hq])
    have h3 := h a (by simp)
    simp only [List.map_cons, List.sum_cons, List.length_cons]
    push_cast
    have : |a| ≤ a + 2 * ε := abs_le.2 ⟨by linarith, by linarith⟩
    linarith

theorem zip_abs_le {β : Type*} (w : List ℝ) (hs : List β) (g : β → ℝ) (B : ℝ) (hB : 0 ≤ B) (hg : ∀ h ∈ hs, |g h| ≤ B) :
    |((List.zip w hs).map fun p => p.1 * g p.2).sum| ≤ (w.map fun q => |q|).sum * B := by
  induction w generalizing hs with
  | nil => simp
  | cons a w ih =>
    cases hs with
    | nil =>
      simp only [List.zip_nil_right, List.map_nil, List.sum_nil, abs_zero]
      exact mul_nonneg (List.sum_nonneg (by simp)) hB
    | cons h hs =>
      have h1 := ih hs fun k hk => hg k (by simp [hk])
      have h2 := hg h (by simp)
      simp only [List.zip_cons_cons, List.map_cons, List.sum_cons]
      refine (abs_add_le _ _).trans ?_
      rw [abs_mul, add_mul]
      exact add_le_add (mul_le_mul_of_nonneg_left h2 (abs_nonneg _)) h1

theorem near_edge_abs (S : Examples X ℝ) (d : List ℝ) (ε : ℝ) (hε : 0 ≤ ε) (hdl : d.length = S.length) (hd : Spec.NearProb ε d) (g : X → ℝ)
    (hg : ∀ e ∈ S, |e.2 * g e.1| ≤ 1) : |Spec.edge S d g| ≤ 1 + (2 * S.length + 1) * ε := by
  have key : ∀ (S : Examples X ℝ) (d : List ℝ), (∀ e ∈ S, |e.2 * g e.1| ≤ 1) → |Spec.edge S d g| ≤ (d.map fun q => |q|).sum := by
    intro S
    induction S with
    | nil => intro d _; simp only [Spec.edge, List.zip_nil_left, List.map_nil, List.sum_nil, abs_zero]; exact List.sum_nonneg (by simp)
    | cons e S ih =>
      intro d hg
      cases d with
      | nil => simp [Spec.edge]
      | cons q d =>
        have h1 := ih d fun e he => hg e (by simp [he])
        have h2 := hg e (by simp)
        simp only [Spec.edge, List.zip_cons_cons, List.map_cons, List.sum_cons] at h1 ⊢
        refine (abs_add_le _ _).trans (add_le_add ?_ h1)
        rw [abs_mul]
        exact mul_le_of_le_one_right (abs_nonneg _) h2
  have h1 := key S d hg
  have h2 := near_abs_sum d ε hd.1 hε
  have h3 := (abs_le.1 hd.2).2
  rw [hdl] at h2
  linarith

/-- One answer of the solver. -/
theorem erlp_answer_near {m : ERLP.QPModel} {S : Examples X ℝ} {hs : List H} {nu ε : ℝ} (hm : ERLP.Holds m S hs nu) (hε : 0 ≤ ε)
    (hS : S ≠ []) (hhs : hs ≠ []) (hnu1 : 1 ≤ nu) (hnu2 : nu ≤ S.length) (heta : 0 < m.eta) (hd : NearCapped nu ε m.dist)
    {solver : Solver ℝ} (hsolver : solver.Accurate ε) :
    (∃ s, (m.program m.dist).Optimal s) ∧ ∃ γ d, (solver (m.program m.dist)).x = γ :: d ∧
      1 + 2 * S.length ≤ (solver (m.program m.dist)).z.length ∧ d.length = S.length ∧ Spec.NearProb ε d ∧
      NearCapped nu ε (d.map fun q => max q 0) ∧
      (∀ h ∈ hs, Spec.edge S d (conf h) ≤ γ + ε) ∧
      ((solver (m.program m.dist)).z.drop (1 + 2 * S.length)).length = hs.length ∧
      Spec.NearProb ε ((solver (m.program m.dist)).z.drop (1 + 2 * S.length)) ∧
      |(solver (m.program m.dist)).objVal - (γ + quadPen S.length (fun i => log (m.dist.getD i 0 + ERLP.eps) / m.eta)
        (fun i => 1 / ((m.dist.getD i 0 + ERLP.eps) * m.eta)) d)| ≤ ε ∧
      ∀ d' : List ℝ, d'.length = S.length → Spec.IsCapped nu d' →
        (solver (m.program m.dist)).objVal - (3 + S.length * (1 / nu)) * ε ≤
          Spec.edge S d' (fun x => Spec.vote conf (List.zip ((solver (m.program m.dist)).z.drop (1 + 2 * S.length)) hs) x) +
            quadPen S.length (fun i => log (m.dist.getD i 0 + ERLP.eps) / m.eta)
              (fun i => 1 / ((m.dist.getD i 0 + ERLP.eps) * m.eta)) d' := by
  have hg := hm.isGamma
  have ha : ∀ i, i < S.length → 0 ≤ 1 / ((m.dist.getD i 0 + ERLP.eps) * m.eta) := by
    intro i hi
    have := (hd.1 _ (getD_mem m.dist i (by rw [hm.dlen]; exact hi))).1
    have := ERLP.eps_pos
    positivity
  obtain ⟨s, hs'⟩ := hg.exists_optimal hS hhs ha one_pos (ERLP.cap_length hnu1 hnu2)
  obtain ⟨γ, d, h1, h2, h3, h4, h5, h6, h7, h8, h9, h10⟩ := hg.accurate ha (by positivity) ε hε _ (hsolver _ s hg.wellFormed hs')
  refine ⟨⟨s, hs'⟩, γ, d, h1, h2, h3, h4, nearCapped_clip hnu1 hε h4 (fun q hq => by have := h5 q hq; linarith), h6, h7, h8, h9, ?_⟩
  intro d' hd' hcap
  refine h10 d' hd' ⟨fun p hp => (hcap.1 p hp).1, hcap.2⟩ (fun p hp => ?_)
  rw [one_mul]; exact hcap.1 p hp

/-- Whatever the inner loop returns. -/
theorem erlp_loop_near {S : Examples X ℝ} {hs : List H} {nu ε : ℝ} (hε : 0 ≤ ε) (hS : S ≠ []) (hhs : hs ≠ []) (hnu1 : 1 ≤ nu)
    (hnu2 : nu ≤ S.length) {solver : Solver ℝ} (hsolver : solver.Accurate ε) (fuel : Nat) (m m' : ERLP.QPModel) (old : ℝ)
    (hm : ERLP.Holds m S hs nu) (heta : 0 < m.eta) (hd : NearCapped nu ε m.dist)
    (h : ERLP.QPModel.solveLoop solver fuel m old = .ok m') :
    ERLP.Holds m' S hs nu ∧ m'.eta = m.eta ∧ NearCapped nu ε m'.dist := by
  induction fuel generalizing m old with
  | zero => simp [ERLP.QPModel.solveLoop] at h
  | succ fuel ih =>
    obtain ⟨-, γ, d, h1, h2, h3, -, h4, -⟩ := erlp_answer_near hm hε hS hhs hnu1 hnu2 heta hd hsolver
    simp only [ERLP.QPModel.solveLoop] at h
    by_cases c0 : (m.dist.any fun d => decide (d + ERLP.eps ≤ 0)) = true
    · rw [if_pos c0] at h; simp at h
    rw [if_neg c0] at h
    by_cases c1 : (solver (m.program m.dist)).status = .other
    · rw [if_pos c1] at h; simp at h
    rw [if_neg c1] at h
    by_cases c2 : old - (solver (m.program m.dist)).objVal < ERLP.qpTolerance ∨
        (solver (m.program m.dist)).status = .insufficientProgress
    · rw [if_pos c2, Except.ok.injEq] at h
      subst h; exact ⟨hm, rfl, hd⟩
    rw [if_neg c2] at h
    by_cases c3 : (solver (m.program m.dist)).x.length < 1 ∨
        (solver (m.program m.dist)).z.length < 1 + 2 * m.nExamples
    · rw [if_pos c3] at h; simp at h
    rw [if_neg c3] at h
    have hdist : ((solver (m.program m.dist)).x.drop 1).map (fun d => max d 0) = d.map fun q => max q 0 := by
      rw [h1, List.drop_one, List.tail_cons]
    rw [hdist] at h
    exact ih { m with dist := d.map fun q => max q 0, weights := ((solver (m.program m.dist)).z.drop (1 + 2 * m.nExamples)).map fun d => max d 0 } _
      ⟨hm.nEx, hm.nHyp, hm.rows, hm.cap, by simp [h3]⟩ heta h4 h

/-- The weights kept by the model: nonnegative, with a total of at least `1 - ε`. -/
def GoodWeights (ε : ℝ) (n : Nat) (w : List ℝ) : Prop := w.length = n ∧ (∀ p ∈ w, 0 ≤ p) ∧ 1 - ε ≤ w.sum

theorem goodWeights_clip {ε : ℝ} (hε : 0 ≤ ε) {n : Nat} {w : List ℝ} (hl : w.length = n) (hw : Spec.NearProb ε w) :
    GoodWeights ε n (w.map fun q => max q 0) := by
  refine ⟨by simp [hl], ?_, ?_⟩
  · intro p hp
    obtain ⟨q, hq, rfl⟩ := List.mem_map.1 hp
    exact le_max_right _ _
  · have h1 := (clip_sum w ε hw.1 hε).1
    have h2 := (abs_le.1 hw.2).1
    linarith

/-- Enough rounds for the inner loop with `n` examples. -/
def erlpEnough (n : Nat) : Nat := (1004 + 5 * n) * 10 ^ 9 + 2

theorem nearCapped_range {nu ε : ℝ} (hnu : 1 ≤ nu) (hε : ε ≤ 1 / 2) {d : List ℝ} (hd : NearCapped nu ε d) :
    ∀ q ∈ d, 0 ≤ q ∧ q ≤ 3 / 2 := by
  intro q hq
  obtain ⟨h1, h2⟩ := hd.1 q hq
  have : 1 / nu ≤ 1 := by rw [div_le_one (by linarith)]; exact hnu
  exact ⟨h1, by linarith⟩

theorem erlp_value_ge {m : ERLP.QPModel} {S : Examples X ℝ} {hs : List H} {nu ε : ℝ} (hm : ERLP.Holds m S hs nu) (hε : 0 ≤ ε)
    (hε1 : ε ≤ 1 / 2) (hS : S ≠ []) (hhs : hs ≠ []) (hnu1 : 1 ≤ nu) (hnu2 : nu ≤ S.length) (heta : 1 / 2 ≤ m.eta)
    (hd : NearCapped nu ε m.dist) (hb : ∀ h ∈ hs, ∀ e ∈ S, |e.2 * conf h e.1| ≤ (1 : ℝ))
    {solver : Solver ℝ} (hsolver : solver.Accurate ε) :
    -3 - 5 * (S.length : ℝ) ≤ (solver (m.program m.dist)).objVal := by
  obtain ⟨-, γ, d, h1, h2, h3, h4, -, h5, -, -, h8, -⟩ := erlp_answer_near hm hε hS hhs hnu1 hnu2 (by linarith) hd hsolver
  obtain ⟨h, hh⟩ := List.exists_mem_of_ne_nil _ hhs
  have e1 := (abs_le.1 (near_edge_abs S d ε hε h3 h4 (conf h) (hb h hh))).1
  have e2 := h5 h hh
  have e3 := ERLP.objVal_ge_of heta hm.dlen (nearCapped_range hnu1 hε1 hd) d
  have e4 := (abs_le.1 h8).1
  have e5 : (2 * (S.length : ℝ) + 1) * ε ≤ (2 * (S.length : ℝ) + 1) * (1 / 2) := mul_le_mul_of_nonneg_left hε1 (by positivity)
  linarith

theorem erlp_loop_total {S : Examples X ℝ} {hs : List H} {nu ε : ℝ} (hε : 0 ≤ ε) (hε1 : ε ≤ 1 / 2) (hS : S ≠ []) (hhs : hs ≠ [])
    (hnu1 : 1 ≤ nu) (hnu2 : nu ≤ S.length) {solver : Solver ℝ} (hsolver : solver.Accurate ε) (hrep : solver.Reports)
    (hb : ∀ h ∈ hs, ∀ e ∈ S, |e.2 * conf h e.1| ≤ (1 : ℝ)) (fuel : Nat) (m : ERLP.QPModel) (old : ℝ)
    (hm : ERLP.Holds m S hs nu) (heta : 1 / 2 ≤ m.eta) (hd : NearCapped nu ε m.dist)
    (hw : GoodWeights ε hs.length m.weights) (hold : -3 - 5 * (S.length : ℝ) ≤ old)
    (hfuel : old + 3 + 5 * (S.length : ℝ) < (fuel : ℝ) * ERLP.qpTolerance) :
    ∃ m', ERLP.QPModel.solveLoop solver fuel m old = .ok m' ∧ GoodWeights ε hs.length m'.weights := by
  induction fuel generalizing m old with
  | zero => simp at hfuel; linarith
  | succ fuel ih =>
    obtain ⟨⟨s, hs'⟩, γ, d, h1, h2, h3, -, h4, -, h6, h7, -⟩ :=
      erlp_answer_near hm hε hS hhs hnu1 hnu2 (by linarith) hd hsolver
    have hst := hrep _ s hs'
    have hobj := erlp_value_ge hm hε hε1 hS hhs hnu1 hnu2 heta hd hb hsolver
    have c0 : ¬ (m.dist.any fun d => decide (d + ERLP.eps ≤ 0)) = true := by
      rw [List.any_eq_true]
      rintro ⟨p, hp, hp2⟩
      have := (hd.1 p hp).1
      simp at hp2
      linarith [ERLP.eps_pos]
    have c1 : ¬ (solver (m.program m.dist)).status = .other := by
      rcases hst with h | h <;> rw [h] <;> simp
    simp only [ERLP.QPModel.solveLoop]
    rw [if_neg c0, if_neg c1]
    by_cases c2 : old - (solver (m.program m.dist)).objVal < ERLP.qpTolerance ∨
        (solver (m.program m.dist)).status = .insufficientProgress
    · rw [if_pos c2]
      exact ⟨m, rfl, hw⟩
    rw [if_neg c2]
    have c3 : ¬ ((solver (m.program m.dist)).x.length < 1 ∨
        (solver (m.program m.dist)).z.length < 1 + 2 * m.nExamples) := by
      rw [hm.nEx, h1]; simp; omega
    rw [if_neg c3]
    push Not at c2
    have hdist : ((solver (m.program m.dist)).x.drop 1).map (fun d => max d 0) = d.map fun q => max q 0 := by
      rw [h1, List.drop_one, List.tail_cons]
    have hwt : ((solver (m.program m.dist)).z.drop (1 + 2 * m.nExamples)).map (fun d => max d 0) =
        ((solver (m.program m.dist)).z.drop (1 + 2 * S.length)).map fun q => max q 0 := by rw [hm.nEx]
    rw [hdist, hwt]
    exact ih { m with dist := d.map fun q => max q 0, weights := ((solver (m.program m.dist)).z.drop (1 + 2 * S.length)).map fun q => max q 0 }
      (solver (m.program m.dist)).objVal ⟨hm.nEx, hm.nHyp, hm.rows, hm.cap, by simp [h3]⟩ heta h4 (goodWeights_clip hε h6 h7) hobj
      (by push_cast at hfuel; linarith [c2.1])

/-- One update of the model succeeds. -/
theorem erlp_update_near {S : Examples X ℝ} {hs : List H} {nu ε : ℝ} (hε : 0 ≤ ε) (hε1 : ε ≤ 1 / 2) (hS : S ≠ []) (hnu1 : 1 ≤ nu)
    (hnu2 : nu ≤ S.length) {solver : Solver ℝ} (hsolver : solver.Accurate ε) (hrep : solver.Reports) (h : H)
    (hb : ∀ h' ∈ hs ++ [h], ∀ e ∈ S, |e.2 * conf h' e.1| ≤ (1 : ℝ)) (hsmall : (S.length + 2 * ((hs.length : ℝ) + 1) + 4) * ε ≤ 900)
    (fuel : Nat) (m : ERLP.QPModel)
    (hm : ERLP.Holds m S hs nu) (heta : 1 / 2 ≤ m.eta) (hfuel : erlpEnough S.length ≤ fuel) :
    ∃ m', ERLP.QPModel.update solver fuel S m h = .ok m' ∧ GoodWeights ε (hs.length + 1) m'.weights := by
  have hn : 0 < S.length := List.length_pos_iff.2 hS
  have hn' : (0 : ℝ) < S.length := by exact_mod_cast hn
  set m₁ : ERLP.QPModel := { m with nHypotheses := m.nHypotheses + 1, rows := pushMargins m.rows (margins S h)
                                    dist := m.dist.map fun _ => 1 / (m.nExamples : ℝ) } with hm₁
  have hdu : m₁.dist = List.replicate S.length (1 / (S.length : ℝ)) := by
    rw [hm₁]
    simp only [List.map_const', hm.dlen, hm.nEx]
  have hh : ERLP.Holds m₁ S (hs ++ [h]) nu := by
    refine ⟨hm.nEx, by simp [hm₁, hm.nHyp], ?_, hm.cap, by rw [hdu]; simp⟩
    rw [hm₁]; simp only [hm.rows, pushMargins_rowsOf]
  have hcap : Spec.IsCapped nu m₁.dist := by
    rw [hdu]
    refine ⟨fun p hp => ?_, ?_⟩
    · rw [List.eq_of_mem_replicate hp]
      exact ⟨by positivity, one_div_le_one_div_of_le (by linarith) hnu2⟩
    · rw [List.sum_replicate, nsmul_eq_mul]; field_simp
  have hnear : NearCapped nu ε m₁.dist := by rw [hdu]; exact nearCapped_uniform hε hnu1 _ hnu2
  have hne : hs ++ [h] ≠ [] := by simp
  obtain ⟨⟨s, hs'⟩, γ, d, h1, h2, h3, -, h4, h5, h6, h7, h8, h9⟩ :=
    erlp_answer_near hh hε hS hne hnu1 hnu2 (by show 0 < m.eta; linarith) hnear hsolver
  have hst := hrep _ s hs'
  have hobj : (solver (m₁.program m₁.dist)).objVal ≤ 904 := by
    have e1 := h9 m₁.dist hh.dlen hcap
    have e2 : |Spec.edge S m₁.dist (fun x => Spec.vote conf
        (List.zip ((solver (m₁.program m₁.dist)).z.drop (1 + 2 * S.length)) (hs ++ [h])) x)| ≤ 1 + (2 * ((hs.length : ℝ) + 1) + 1) * ε := by
      rw [pair_edge S _ _ _ h6]
      have a1 := zip_abs_le ((solver (m₁.program m₁.dist)).z.drop (1 + 2 * S.length)) (hs ++ [h]) (fun k => Spec.edge S m₁.dist (conf k)) 1
        zero_le_one fun k hk => abs_le.2 (ERLP.edge_bounds hh.dlen ⟨fun p hp => (hcap.1 p hp).1, hcap.2⟩ (conf k) (hb k hk))
      have a2 := near_abs_sum _ ε h7.1 hε
      have a3 := (abs_le.1 h7.2).2
      rw [h6] at a2
      simp only [List.length_append, List.length_cons, List.length_nil] at a2
      push_cast at a2
      linarith
    have e3 := ERLP.pen_uniform_le hn m.eta heta
    have e5 := (abs_le.1 e2).2
    rw [hdu] at e1 e5
    have e4 : m₁.eta = m.eta := rfl
    rw [e4] at e1
    rw [hdu]
    have e6 : (S.length : ℝ) * (1 / nu) * ε ≤ S.length * ε := by
      apply mul_le_mul_of_nonneg_right _ hε
      apply mul_le_of_le_one_right hn'.le
      rw [div_le_one (by linarith)]; exact hnu1
    linarith
  obtain ⟨fuel, rfl⟩ : ∃ k, fuel = k + 1 := ⟨fuel - 1, by unfold erlpEnough at hfuel; omega⟩
  unfold ERLP.QPModel.update
  rw [← hm₁]
  have c0 : ¬ (m₁.dist.any fun d => decide (d + ERLP.eps ≤ 0)) = true := by
    rw [List.any_eq_true]
    rintro ⟨p, hp, hp2⟩
    have := (hcap.1 p hp).1
    simp at hp2
    linarith [ERLP.eps_pos]
  have c1 : ¬ (solver (m₁.program m₁.dist)).status = .other := by
    rcases hst with h | h <;> rw [h] <;> simp
  have c2 : ¬ ((1000 : ℝ) - (solver (m₁.program m₁.dist)).objVal < ERLP.qpTolerance ∨
      (solver (m₁.program m₁.dist)).status = .insufficientProgress) := by
    rintro (c | c)
    · have : ERLP.qpTolerance ≤ 1 := by unfold ERLP.qpTolerance; norm_num
      linarith
    · rcases hst with h | h <;> rw [h] at c <;> simp at c
  have c3 : ¬ ((solver (m₁.program m₁.dist)).x.length < 1 ∨
      (solver (m₁.program m₁.dist)).z.length < 1 + 2 * m₁.nExamples) := by
    rw [hh.nEx, h1]; simp; omega
  simp only [ERLP.QPModel.solveLoop]
  rw [if_neg c0, if_neg c1, if_neg c2, if_neg c3]
  have hdist : ((solver (m₁.program m₁.dist)).x.drop 1).map (fun d => max d 0) = d.map fun q => max q 0 := by
    rw [h1, List.drop_one, List.tail_cons]
  have hwt : ((solver (m₁.program m₁.dist)).z.drop (1 + 2 * m₁.nExamples)).map (fun d => max d 0) =
      ((solver (m₁.program m₁.dist)).z.drop (1 + 2 * S.length)).map fun q => max q 0 := by rw [hh.nEx]
  rw [hdist, hwt]
  have hlow := erlp_value_ge hh hε hε1 hS hne hnu1 hnu2 heta hnear hb hsolver
  obtain ⟨m', r1, r2⟩ := erlp_loop_total hε hε1 hS hne hnu1 hnu2 hsolver hrep hb fuel
    { m₁ with dist := d.map fun q => max q 0, weights := ((solver (m₁.program m₁.dist)).z.drop (1 + 2 * S.length)).map fun q => max q 0 }
    (solver (m₁.program m₁.dist)).objVal ⟨hh.nEx, hh.nHyp, hh.rows, hh.cap, by simp [h3]⟩ heta h4 (goodWeights_clip hε h6 h7) hlow (by
      have hf : ((erlpEnough S.length : ℕ) : ℝ) ≤ ((fuel + 1 : ℕ) : ℝ) := Nat.cast_le.2 hfuel
      have hf' : ((1004 : ℝ) + 5 * S.length) * 10 ^ 9 + 1 ≤ fuel := by
        simp only [erlpEnough, Nat.cast_add, Nat.cast_mul, Nat.cast_pow, Nat.cast_ofNat, Nat.cast_one] at hf
        linarith
      unfold ERLP.qpTolerance
      linarith)
  refine ⟨m', r1, ?_⟩
  simpa using r2

theorem er_near {S : Examples X ℝ} {s₀ : ERLPBoost H} (hn : s₀.nSample = S.length) {ε : ℝ} (hε : 0 ≤ ε) {solver : Solver ℝ}
    (hsolver : solver.Accurate ε) {fuel : Nat} {wl : WeakLearner ℝ H} {n : Nat} {qs : List (List ℝ)} {s : ERLPBoost H}
    (hr : (ERLPBoost.booster solver fuel S).Reachable wl s₀ n qs s) :
    s.dist.length = S.length ∧ NearCapped s₀.nu ε s.dist ∧
      ∃ m, s.qpModel = some m ∧ ERLP.Holds m S s.hypotheses s₀.nu ∧ m.eta = erlpEta S s₀ := by
  induction hr with
  | start h =>
    have hi := er_start hn h
    obtain ⟨m, hm, he, hm0, -⟩ := hi.model
    rw [hi.uni rfl]
    refine ⟨by simp, nearCapped_uniform hε hi.nu1 _ hi.nu2, m, hm, ?_, he⟩
    rw [hm0 rfl, List.length_eq_zero_iff.1 hi.hlen]
    exact ⟨rfl, rfl, by rw [rowsOf_nil]; rfl, rfl, by simp [ERLP.QPModel.init]⟩
  | @step n qs s₁ out hr hb hf ih =>
    have hi := er_inv hn hr
    rcases er_step hi wl hb with ⟨-, h, -⟩ | ⟨h1, h2, h3, ⟨h, -⟩ | ⟨-, h4, h5, m, m', h6, h7, h8, h9⟩⟩
    · rw [h] at hf; cases hf
    · rw [h] at hf; cases hf
    obtain ⟨i1, i2, m₀, i3, i4, i5⟩ := ih
    rw [h6, Option.some.injEq] at i3
    subst i3
    have hS : S ≠ [] := checkBinary_ne_nil hi.bin
    unfold ERLP.QPModel.update at h7
    have hd1 : m.dist.map (fun _ => 1 / (m.nExamples : ℝ)) = List.replicate S.length (1 / (S.length : ℝ)) := by
      rw [List.map_const', i4.dlen, i4.nEx]
    set m₁ : ERLP.QPModel := { m with nHypotheses := m.nHypotheses + 1, rows := pushMargins m.rows (margins S (wl (n + 1) s₁.dist))
                                      dist := m.dist.map fun _ => 1 / (m.nExamples : ℝ) } with hm₁
    have key := erlp_loop_near (hs := s₁.hypotheses ++ [wl (n + 1) s₁.dist]) (nu := s₀.nu) hε hS (by simp) hi.nu1 hi.nu2
      hsolver fuel m₁ m' 1000 ⟨i4.nEx, by simp [hm₁, i4.nHyp], by simp only [hm₁, i4.rows, pushMargins_rowsOf], i4.cap, by simp [hm₁, i4.dlen]⟩
      (by show 0 < m.eta; rw [i5]; unfold erlpEta; exact lt_of_lt_of_le (by norm_num) (le_max_left _ _))
      (by show NearCapped s₀.nu ε (m.dist.map fun _ => 1 / (m.nExamples : ℝ)); rw [hd1]; exact nearCapped_uniform hε hi.nu1 _ hi.nu2) h7
    obtain ⟨k1, k2, k3⟩ := key
    rw [h9]
    refine ⟨k1.dlen, k3, m', h8, ?_, ?_⟩
    · rw [h5]; exact k1
    · rw [k2]; exact i5

/-- C117: every weight vector that ERLPBoost hands to the weak learner has nonnegative entries, none above `1/ν + ε`,
and a total within `(m + 1) ε` of 1. -/
theorem erlp_accurate_queries (S : Examples X ℝ) (s₀ : ERLPBoost H) (hn : s₀.nSample = S.length) (ε : ℝ) (hε : 0 ≤ ε)
    (solver : Solver ℝ) (hsolver : solver.Accurate ε) (fuel : Nat) (wl : WeakLearner ℝ H) (n : Nat) (qs : List (List ℝ))
    (s : ERLPBoost H) (hr : (ERLPBoost.booster solver fuel S).Reachable wl s₀ n qs s) (out : BoostOut (ERLPBoost H) ℝ)
    (hb : (ERLPBoost.booster solver fuel S).boost s wl (n + 1) = .ok out) :
    ∀ d ∈ out.queries, d.length = S.length ∧ (∀ p ∈ d, 0 ≤ p ∧ p ≤ 1 / s₀.nu + ε) ∧ |d.sum - 1| ≤ (S.length + 1) * ε := by
  intro d hd
  obtain ⟨-, -, -, -, h⟩ := erlp_stopping S s₀ hn solver fuel wl n qs s hr out hb
  have := (h (List.ne_nil_of_mem hd)).1
  rw [this, List.mem_singleton] at hd
  rw [hd]
  obtain ⟨h1, h2, -⟩ := er_near hn hε hsolver hr
  refine ⟨h1, h2.1, ?_⟩
  rw [← h1]; exact h2.2

/-- The accuracy that suffices: `ε ≤ 1/2`, and small against the number of examples and the limit on the rounds. -/
def ErlpSmall (S : Examples X ℝ) (s₀ : ERLPBoost H) (ε : ℝ) : Prop :=
  0 ≤ ε ∧ ε ≤ 1 / 2 ∧ (S.length + 2 * (erlpLimit S s₀ : ℝ) + 4) * ε ≤ 900

theorem er_near_weights {S : Examples X ℝ} {s₀ : ERLPBoost H} (hn : s₀.nSample = S.length) {ε : ℝ} (hε : ErlpSmall S s₀ ε)
    {solver : Solver ℝ} (hsolver : solver.Accurate ε) (hrep : solver.Reports) {fuel : Nat} (hfuel : erlpEnough S.length ≤ fuel)
    {wl : WeakLearner ℝ H} (hb : ∀ k d, ∀ e ∈ S, |e.2 * conf (wl k d) e.1| ≤ (1 : ℝ)) {n : Nat} {qs : List (List ℝ)} {s : ERLPBoost H}
    (hr : (ERLPBoost.booster solver fuel S).Reachable wl s₀ n qs s) :
    (∀ h ∈ s.hypotheses, ∃ k d, h = wl k d) ∧ (0 < n → ∃ m, s.qpModel = some m ∧ GoodWeights ε s.hypotheses.length m.weights) ∧
      (n < erlpLimit S s₀ → ∀ m, s.qpModel = some m → ∃ m', m.update solver fuel S (wl (n + 1) s.dist) = .ok m' ∧
        GoodWeights ε (s.hypotheses.length + 1) m'.weights) := by
  have upd : ∀ {n : Nat} {qs : List (List ℝ)} {s : ERLPBoost H} (_ : (ERLPBoost.booster solver fuel S).Reachable wl s₀ n qs s)
      (_ : ∀ h ∈ s.hypotheses, ∃ k d, h = wl k d), n < erlpLimit S s₀ → ∀ m, s.qpModel = some m →
      ∃ m', m.update solver fuel S (wl (n + 1) s.dist) = .ok m' ∧ GoodWeights ε (s.hypotheses.length + 1) m'.weights := by
    intro n qs s hr hh hlt m hm
    have hi := er_inv hn hr
    obtain ⟨i1, i2, m₀, i3, i4, i5⟩ := er_near hn hε.1 hsolver hr
    rw [hm, Option.some.injEq] at i3
    subst i3
    refine erlp_update_near hε.1 hε.2.1 (checkBinary_ne_nil hi.bin) hi.nu1 hi.nu2 hsolver hrep (wl (n + 1) s.dist) ?_ ?_ fuel m i4
      (by rw [i5]; exact le_max_left _ _) hfuel
    · intro h hm
      rcases List.mem_append.1 hm with hm | hm
      · obtain ⟨k, d, rfl⟩ := hh h hm; exact hb k d
      · rw [List.mem_singleton] at hm; rw [hm]; exact hb _ _
    · refine le_trans (mul_le_mul_of_nonneg_right ?_ hε.1) hε.2.2
      have : ((s.hypotheses.length + 1 : ℕ) : ℝ) ≤ erlpLimit S s₀ := by
        rw [hi.hlen]; exact Nat.cast_le.2 hlt
      push_cast at this
      linarith
  suffices hkey : (∀ h ∈ s.hypotheses, ∃ k d, h = wl k d) ∧ (0 < n → ∃ m, s.qpModel = some m ∧ GoodWeights ε s.hypotheses.length m.weights) from
    ⟨hkey.1, hkey.2, upd hr hkey.1⟩
  induction hr with
  | start h => have hi := er_start hn h; rw [List.length_eq_zero_iff.1 hi.hlen]; simp
  | @step n qs s₁ out hr hbo hf ih =>
    have hi := er_inv hn hr
    rcases er_step hi wl hbo with ⟨-, h, -⟩ | ⟨h1, h2, h3, ⟨h, -⟩ | ⟨-, h4, h5, m, m', h6, h7, h8, h9⟩⟩
    · rw [h] at hf; cases hf
    · rw [h] at hf; cases hf
    have hh : ∀ h ∈ s₁.hypotheses ++ [wl (n + 1) s₁.dist], ∃ k d, h = wl k d := by
      intro h hh
      rcases List.mem_append.1 hh with hh | hh
      · exact ih.1 h hh
      · rw [List.mem_singleton] at hh; exact ⟨_, _, hh⟩
    refine ⟨by rw [h5]; exact hh, fun _ => ⟨m', h8, ?_⟩⟩
    obtain ⟨m'', u1, u2⟩ := upd hr ih.1 h1 m h6
    rw [h7, Except.ok.injEq] at u1
    subst u1
    rw [h5]
    simpa using u2

/-- C117: no round panics, and the inner optimisation loop always ends (a solver of accuracy `ε` that reports success
when there is a solution, labels and confidences bounded by 1; the loop needs at most `erlpEnough` rounds). -/
theorem erlp_accurate_no_panic (S : Examples X ℝ) (s₀ : ERLPBoost H) (hn : s₀.nSample = S.length) (ε : ℝ) (hε : ErlpSmall S s₀ ε)
    (solver : Solver ℝ) (hsolver : solver.Accurate ε) (hrep : solver.Reports) (fuel : Nat) (hfuel : erlpEnough S.length ≤ fuel)
    (wl : WeakLearner ℝ H) (hb : ∀ k d, ∀ e ∈ S, |e.2 * conf (wl k d) e.1| ≤ (1 : ℝ)) (n : Nat) (qs : List (List ℝ)) (s : ERLPBoost H)
    (hr : (ERLPBoost.booster solver fuel S).Reachable wl s₀ n qs s) :
    ∃ out, (ERLPBoost.booster solver fuel S).boost s wl (n + 1) = .ok out := by
  have hi := er_inv hn hr
  obtain ⟨-, -, hw⟩ := er_near_weights hn hε hsolver hrep hfuel hb hr
  obtain ⟨m, hm, -⟩ := hi.model
  simp only [ERLPBoost.booster, ERLPBoost.boost, hi.maxIter]
  by_cases c : erlpLimit S s₀ < n + 1
  · rw [if_pos c]; exact ⟨_, rfl⟩
  rw [if_neg c]
  obtain ⟨m', u1, u2⟩ := hw (by omega) m hm
  obtain ⟨g, hg⟩ := newGammaStar_ok S s.eta m'.dist (s.hypotheses ++ [wl (n + 1) s.dist]) (by simp)
  simp only [hm, u1, hg]
  split
  · exact ⟨_, rfl⟩
  · exact ⟨_, rfl⟩

theorem fromSlices_pos (X : Type*) {H : Type*} [Classifier H X ℝ] {w : List ℝ} {hs : List H} (hl : w.length = hs.length) (hw : ∀ p ∈ w, 0 ≤ p) (hpos : 0 < w.sum) :
    ∃ f, WeightedMajority.fromSlices w hs = .ok f ∧ Spec.IsProb f.weights ∧ ∀ h ∈ f.hypotheses, h ∈ hs := by
  have hp : Spec.IsProb (w.map fun p => p / w.sum) := by
    constructor
    · intro p hp
      obtain ⟨q, hq, rfl⟩ := List.mem_map.1 hp
      exact div_nonneg (hw q hq) hpos.le
    · rw [show (fun p : ℝ => p / w.sum) = (fun p => p * (w.sum)⁻¹) from funext fun p => div_eq_mul_inv _ _,
        List.sum_map_mul_right, List.map_id']
      exact mul_inv_cancel₀ hpos.ne'
  obtain ⟨f, h1, h2, h3⟩ := fromSlices_prob (X := X) (w.map fun p => p / w.sum) hs (by simpa using hl) hp
  refine ⟨f, ?_, h3, ?_⟩
  · rw [← h1, ← fromSlices_scale w hs (w.sum)⁻¹ (inv_pos.2 hpos)]
    simp [div_eq_inv_mul]
  · intro h hh
    rcases fromSlices_cases (w.map fun p => p / w.sum) hs with ⟨h1', h2'⟩ | ⟨h1', h2'⟩
    · rw [h1] at h2'; cases h2'
    · rw [h1, Except.ok.injEq] at h2'
      rw [h2'] at hh
      simp only [List.mem_map] at hh
      obtain ⟨p, hp, rfl⟩ := hh
      exact (List.of_mem_zip (List.mem_of_mem_filter hp)).2

/-- C117: `run` returns a convex combination of weak hypotheses, provided the first hypothesis has an edge above
`-1 + tolerance/2` under the uniform distribution. -/
theorem erlp_accurate_returns (S : Examples X ℝ) (s₀ : ERLPBoost H) (hn : s₀.nSample = S.length) (hbin : checkBinary S = .ok ())
    (htol : 0 < s₀.halfTolerance) (htol1 : s₀.halfTolerance < 1) (hnu1 : 1 ≤ s₀.nu) (hnu2 : s₀.nu ≤ S.length) (ε : ℝ)
    (hε : ErlpSmall S s₀ ε) (solver : Solver ℝ) (hsolver : solver.Accurate ε) (hrep : solver.Reports) (fuel : Nat)
    (hfuel : erlpEnough S.length ≤ fuel)
    (wl : WeakLearner ℝ H) (hb : ∀ k d, ∀ e ∈ S, |e.2 * conf (wl k d) e.1| ≤ (1 : ℝ))
    (hfirst : s₀.halfTolerance - 1 < Spec.edge S (List.replicate S.length (1 / (S.length : ℝ)))
      (conf (wl 1 (List.replicate S.length (1 / (S.length : ℝ)))))) :
    ∃ f qs, (ERLPBoost.booster solver fuel S).run wl (erlpLimit S s₀ + 1) s₀ = some (.ok (f, qs)) ∧ Spec.IsProb f.weights ∧
      (∀ h ∈ f.hypotheses, ∃ k d, h = wl k d) ∧ qs.length ≤ erlpLimit S s₀ := by
  obtain ⟨r, hr, hlen⟩ := erlp_terminates S s₀ hn solver fuel wl
  suffices hmain : ∃ f qs, (ERLPBoost.booster solver fuel S).run wl (erlpLimit S s₀ + 1) s₀ = some (.ok (f, qs)) ∧ Spec.IsProb f.weights ∧
      (∀ h ∈ f.hypotheses, ∃ k d, h = wl k d) by
    obtain ⟨f, qs, h1, h2, h3⟩ := hmain
    rw [h1, Option.some.injEq] at hr
    exact ⟨f, qs, h1, h2, h3, hlen f qs hr.symm⟩
  obtain ⟨s1, hs1⟩ := (erlp_preprocess_iff S s₀ hn).2 ⟨hbin, htol, htol1, hnu1, hnu2⟩
  unfold Booster.run at hr ⊢
  rw [show (ERLPBoost.booster solver fuel S).preprocess s₀ wl = .ok s1 from hs1] at hr ⊢
  simp only at hr ⊢
  cases hl : (ERLPBoost.booster solver fuel S).loop wl (erlpLimit S s₀ + 1) s1 1 with
  | none => rw [hl] at hr; simp at hr
  | some r' =>
    rcases (ERLPBoost.booster solver fuel S).loop_spec wl s₀ (Booster.Reachable.start (B := ERLPBoost.booster solver fuel S)
      (wl := wl) (s := s₀) hs1) hl with ⟨n', qs', s', h1, h2, e, h3, h4⟩ | ⟨n', qs', s', out, k, h1, h2, h3, h4, qs, h5, h6⟩
    · obtain ⟨out, g1⟩ := erlp_accurate_no_panic S s₀ hn ε hε solver hsolver hrep fuel hfuel wl hb n' qs' s' h1
      rw [g1] at h3; cases h3
    · rw [h6]
      simp only
      have hi := er_inv hn h1
      have hlim : 0 < erlpLimit S s₀ := by
        unfold erlpLimit
        rw [Nat.ceil_pos]
        exact lt_of_lt_of_le (by positivity) (le_max_left _ _)
      -- the first round does not stop
      have hpos : 0 < n' := by
        rcases Nat.eq_zero_or_pos n' with h0 | h0
        · exfalso
          subst h0
          rcases er_step hi wl h3 with ⟨g1, -⟩ | ⟨-, -, g2, ⟨-, g3, -⟩ | ⟨g1, -⟩⟩
          · omega
          · rw [hi.star0 rfl, g2] at g3
            have hud := hi.uni rfl
            have hprob : Spec.IsProb s'.dist := by
              rw [hud]
              have hS : (0 : ℝ) < S.length := by linarith
              refine ⟨fun p hp => ?_, ?_⟩
              · rw [List.eq_of_mem_replicate hp]; positivity
              · rw [List.sum_replicate, nsmul_eq_mul]; field_simp
            have e1 := hfirst
            rw [← hud] at e1
            have e2 : Spec.edge S s'.dist (conf (wl 1 s'.dist)) ≤ Spec.smoothedEdge S (erlpEta S s₀) s'.dist (conf (wl 1 s'.dist)) := by
              unfold Spec.smoothedEdge
              rw [← entropyFromUni_spec]
              have := (entropyFromUni_bounds s'.dist hprob).1
              have : 0 ≤ entropyFromUni s'.dist / erlpEta S s₀ := div_nonneg this (le_trans (by norm_num) (le_max_left _ _))
              linarith
            have e3 : s'.gammaHat = 1 := by
              have := hi.hat_mem
              rw [List.length_eq_zero_iff.1 hi.hlen] at this
              simpa [smoothedEdges] using this
            rw [e3] at g3
            rcases min_choice (1 : ℝ) (Spec.smoothedEdge S (erlpEta S s₀) s'.dist (conf (wl (0 + 1) s'.dist))) with hc | hc
            · rw [hc] at g3; linarith
            · rw [hc] at g3
              simp only [Nat.zero_add] at g3
              linarith
          · rw [g1] at h4; cases h4
        · exact h0
      obtain ⟨hw1, hw2, -⟩ := er_near_weights hn hε hsolver hrep hfuel hb h1
      obtain ⟨m, hm, hm1, hm2, hm3⟩ := hw2 hpos
      obtain ⟨q1, q2⟩ : out.state.hypotheses = s'.hypotheses ∧ out.state.qpModel = s'.qpModel := by
        rcases er_step hi wl h3 with ⟨-, -, -, g1⟩ | ⟨-, -, g2, ⟨-, -, g3, g4⟩ | ⟨g1, -⟩⟩
        · rw [g1]; exact ⟨rfl, rfl⟩
        · exact ⟨g3, g4⟩
        · rw [g1] at h4; cases h4
      obtain ⟨f, hf, hf2, hf3⟩ := fromSlices_pos X hm1 hm2 (by have := hε.2.1; linarith)
      have hpost : (ERLPBoost.booster solver fuel S).postprocess out.state = .ok f := by
        simp only [ERLPBoost.booster, ERLPBoost.postprocess, q2, hm, q1]; exact hf
      exact ⟨f, qs, by rw [hpost], hf2, fun h hh => hw1 h (hf3 h hh)⟩

/-! ### The theorems apply -/

theorem exErlp_limit : erlpLimit exSample exErlp = 800 := by
  unfold erlpLimit
  have h1 : ((exSample.length : ℝ) / exErlp.nu) = 1 := by norm_num [exSample, exErlp, ERLPBoost.regularizationParam]
  have h2 : exErlp.halfTolerance = 5 / 1000 := rfl
  rw [h1, h2, log_one]
  norm_num

/-- A solver whose reported value is off by `10⁻⁸` -- not a correct solver -- and a weak learner whose hypothesis is
half right: `run` returns after at most 800 rounds. -/
example : ∃ (solver : Solver ℝ) (f : WeightedMajority ℝ (Fn Nat ℝ)) (qs : List (List ℝ)), solver.Accurate (1 / 10 ^ 8) ∧ ¬ solver.Correct ∧
    (ERLPBoost.booster solver (erlpEnough 2) exSample).run (fun _ _ => exOne) 801 exErlp = some (.ok (f, qs)) ∧ Spec.IsProb f.weights ∧
    qs.length ≤ 800 := by
  obtain ⟨solver, h1, h2⟩ := exists_correct_reporting_solver
  have hacc := offBy_accurate (1 / 10 ^ 8) (by positivity) solver h1
  have hrep : (offBy (1 / 10 ^ 8) solver).Reports := h2
  obtain ⟨f, qs, hf, hp, -, hq⟩ := erlp_accurate_returns exSample exErlp rfl exSample_valid (by norm_num [exErlp, ERLPBoost.regularizationParam])
    (by norm_num [exErlp, ERLPBoost.regularizationParam]) (by norm_num [exErlp, ERLPBoost.regularizationParam])
    (by norm_num [exErlp, ERLPBoost.regularizationParam, exSample]) (1 / 10 ^ 8)
    ⟨by positivity, by norm_num, by rw [exErlp_limit]; norm_num [exSample]⟩ _ hacc hrep (erlpEnough 2) le_rfl (fun _ _ => exOne)
    (by
      intro k d e he
      simp only [exSample, List.mem_cons, List.not_mem_nil, or_false] at he
      rcases he with rfl | rfl <;> simp [conf, exOne])
    (by norm_num [exErlp, ERLPBoost.regularizationParam, Spec.edge, exSample, conf, exOne, List.replicate])
  rw [exErlp_limit] at hf hq
  refine ⟨_, f, qs, hacc, ?_, hf, hp, hq⟩
  intro hc
  have h1' := lpboost_solver_answers exSample (by simp [exSample]) 1 le_rfl [exLearner 0 []] (by simp) solver h1
  have h2' := hc _ _ h1'
  have h3 := h1'.value
  have h4 := h2'.value
  simp only [offBy] at h4
  rw [h3] at h4
  norm_num at h4

end Miniboosts.Props
