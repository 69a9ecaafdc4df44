import Verif.Lemmas.CERLPBoost
import Verif.Lemmas.GammaExists
import Verif.Model.MLPBoost
import Verif.Spec.SoftMargin

/-! # Lemmas about MLPBoost -/

namespace Miniboosts

open Real

variable {H X : Type*} [Classifier H X ℝ]

/-- One classic or short Frank-Wolfe step towards a better hypothesis. -/
theorem fw_step {fw : FrankWolfe} (htype : fw.fwType = .classic ∨ fw.fwType = .shortStep) (heta : 0 < fw.eta)
    {S : Examples X ℝ} {d w : List ℝ} {hs : List H} {pos : Nat} {h : H} {n : Nat} (hn : 1 ≤ n)
    (hdl : d.length = S.length) (hw : Spec.IsProb w) (hl : w.length = hs.length) (hpos : hs[pos]? = some h)
    (hG : 0 < Spec.edge S d (conf h) - Spec.edge S d (weightedConf w hs)) :
    ∃ w', fw.nextIterate (n + 1) S d hs pos w = .ok w' ∧ Spec.IsProb w' ∧ w'.length = hs.length ∧
      ∃ σ c, 0 ≤ σ ∧ σ ≤ 1 ∧
        (∀ e ∈ S, weightedConf w' hs e.1 = (1 - σ) * weightedConf w hs e.1 + σ * conf h e.1) ∧
        (∀ p ∈ S, |p.2 * conf h p.1 - p.2 * weightedConf w hs p.1| ≤ c) ∧
        ((∀ p ∈ S, |p.2 * conf h p.1 - p.2 * weightedConf w hs p.1| ≤ 2) →
          2 / ((n : ℝ) + 2) * (Spec.edge S d (conf h) - Spec.edge S d (weightedConf w hs)) -
              2 * (2 / ((n : ℝ) + 2)) ^ 2 * fw.eta ≤
            σ * (Spec.edge S d (conf h) - Spec.edge S d (weightedConf w hs)) - σ ^ 2 * (fw.eta * c ^ 2) / 2) := by
  have hposlt : pos < hs.length := (List.getElem?_eq_some_iff.1 hpos).1
  set F := weightedConf (X := X) w hs with hF
  set G := Spec.edge S d (conf h) - Spec.edge S d F with hGdef
  have fin : ∀ (σ c : ℝ), 0 ≤ σ → σ ≤ 1 →
      fw.nextIterate (n + 1) S d hs pos w = interiorPoint σ pos w →
      (∀ p ∈ S, |p.2 * conf h p.1 - p.2 * F p.1| ≤ c) →
      ((∀ p ∈ S, |p.2 * conf h p.1 - p.2 * F p.1| ≤ 2) →
        2 / ((n : ℝ) + 2) * G - 2 * (2 / ((n : ℝ) + 2)) ^ 2 * fw.eta ≤ σ * G - σ ^ 2 * (fw.eta * c ^ 2) / 2) →
      ∃ w', fw.nextIterate (n + 1) S d hs pos w = .ok w' ∧ Spec.IsProb w' ∧ w'.length = hs.length ∧
      ∃ σ c, 0 ≤ σ ∧ σ ≤ 1 ∧
        (∀ e ∈ S, weightedConf w' hs e.1 = (1 - σ) * F e.1 + σ * conf h e.1) ∧
        (∀ p ∈ S, |p.2 * conf h p.1 - p.2 * F p.1| ≤ c) ∧
        ((∀ p ∈ S, |p.2 * conf h p.1 - p.2 * F p.1| ≤ 2) →
          2 / ((n : ℝ) + 2) * G - 2 * (2 / ((n : ℝ) + 2)) ^ 2 * fw.eta ≤ σ * G - σ ^ 2 * (fw.eta * c ^ 2) / 2) := by
    intro σ c h0 h1 hni hc hq
    refine ⟨_, hni.trans (interiorPoint_eq h0 h1 pos w),
      (interior_prob hw (by omega) (interiorPoint_eq h0 h1 pos w)).1, by simp [hl], σ, c, h0, h1, ?_, hc, hq⟩
    intro e he
    rw [interior_conf σ w hs pos h hl hpos]
  have hclassic : 2 / (((n + 1 : ℕ) : ℝ) + 1) = 2 / ((n : ℝ) + 2) := by push_cast; ring_nf
  have hn2 : (0 : ℝ) < (n : ℝ) + 2 := by positivity
  have hs0 : (0 : ℝ) ≤ 2 / ((n : ℝ) + 2) := by positivity
  have hs1 : 2 / ((n : ℝ) + 2) ≤ 1 := by
    rw [div_le_one hn2]
    have : (0 : ℝ) ≤ n := Nat.cast_nonneg n
    linarith
  rcases htype with ht | ht
  · obtain ⟨hm1, hm2, -⟩ := Props.foldl_max_spec (S.map fun p => |p.2 * conf h p.1 - p.2 * F p.1|) 2
    have hbound : ∃ c, (∀ p ∈ S, |p.2 * conf h p.1 - p.2 * F p.1| ≤ c) ∧
        ((∀ p ∈ S, |p.2 * conf h p.1 - p.2 * F p.1| ≤ 2) → c = 2) := by
      by_cases h2 : ∀ p ∈ S, |p.2 * conf h p.1 - p.2 * F p.1| ≤ 2
      · exact ⟨2, h2, fun _ => rfl⟩
      · exact ⟨_, fun p hp => hm2 _ (List.mem_map.2 ⟨p, hp, rfl⟩), fun h3 => absurd h3 h2⟩
    obtain ⟨c₀, hc₀, hc₀'⟩ := hbound
    refine fin (2 / ((n : ℝ) + 2)) c₀ hs0 hs1 ?_ hc₀ ?_
    · unfold FrankWolfe.nextIterate
      rw [if_pos hposlt, ht]
      simp only [FrankWolfe.classic, hclassic]
    · intro h2
      rw [hc₀' h2]
      apply le_of_eq; ring
  · have hni : fw.nextIterate (n + 1) S d hs pos w = fw.shortStep S d hs pos w := by
      unfold FrankWolfe.nextIterate
      rw [if_pos hposlt, ht]
    have hne : hs.length ≠ 1 := by
      intro h0
      obtain ⟨k, hk⟩ := List.length_eq_one_iff.1 h0
      obtain ⟨a, ha⟩ := List.length_eq_one_iff.1 (hl.trans h0)
      have ha1 : a = 1 := by have := hw.2; rw [ha] at this; simpa using this
      have hp0 : pos = 0 := by omega
      rw [hk, hp0] at hpos
      have hkh : k = h := by simpa using hpos
      have : G = 0 := by
        rw [hGdef, sub_eq_zero]
        apply specEdge_congr
        intro e he
        rw [hF, ha, hk, ha1, hkh]
        simp [weightedConf]
      linarith
    obtain ⟨s₁, c₁, q1, q2, q3, q4, q5, ⟨p, hp, q6⟩, q7⟩ :=
      Props.shortStepSize_optimal fw.eta heta S F (conf h) d hdl (by linarith)
    refine fin s₁ c₁ q2 q3 ?_ q5 ?_
    · rw [hni]
      unfold FrankWolfe.shortStep
      rw [if_neg hne, hpos]
      simp only []
      have e1 : margins S h = S.map fun e => e.2 * conf h e.1 := rfl
      have e2 : weightedMargins S w hs = S.map fun e => e.2 * F e.1 := rfl
      rw [e1, e2, q1]
    · intro h2
      refine le_trans ?_ (q7 (2 / ((n : ℝ) + 2)) hs0 hs1)
      have hc2 : c₁ ≤ 2 := by rw [q6]; exact h2 p hp
      have : c₁ ^ 2 ≤ 4 := by nlinarith
      have : (2 / ((n : ℝ) + 2)) ^ 2 * (fw.eta * c₁ ^ 2) ≤ (2 / ((n : ℝ) + 2)) ^ 2 * (fw.eta * 4) :=
        mul_le_mul_of_nonneg_left (mul_le_mul_of_nonneg_left this heta.le) (sq_nonneg _)
      linarith

/-- What one such step does to the gap of the potential. -/
theorem fw_gap {η nu : ℝ} (hη : 0 ≤ η) {S : Examples X ℝ} {F F' g : X → ℝ} {d e : List ℝ} {σ c ρ : ℝ} {n : Nat}
    (hd : IsExpDist η nu S F d) (he : IsExpDist η nu S F' e) (h0 : 0 ≤ σ)
    (hF : ∀ p ∈ S, F' p.1 = (1 - σ) * F p.1 + σ * g p.1)
    (hc : ∀ p ∈ S, |p.2 * g p.1 - p.2 * F p.1| ≤ c)
    (hqual : 2 / ((n : ℝ) + 2) * (Spec.edge S d g - Spec.edge S d F) - 2 * (2 / ((n : ℝ) + 2)) ^ 2 * η ≤
      σ * (Spec.edge S d g - Spec.edge S d F) - σ ^ 2 * (η * c ^ 2) / 2)
    (hrho : ρ ≤ Spec.edge S d g)
    (ih : 1 ≤ n → η * ρ - pot η S F d ≤ 8 * η ^ 2 / ((n : ℝ) + 2)) :
    η * ρ - pot η S F' e ≤ 8 * η ^ 2 / (((n + 1 : ℕ) : ℝ) + 2) := by
  have hsm := pot_smooth (c := σ * c) hd he (by
    intro p hp
    rw [hF p hp]
    have : p.2 * ((1 - σ) * F p.1 + σ * g p.1) - p.2 * F p.1 = σ * (p.2 * g p.1 - p.2 * F p.1) := by ring
    rw [this, abs_mul, abs_of_nonneg h0]
    exact mul_le_mul_of_nonneg_left (hc p hp) h0)
  rw [specEdge_congr d (G := fun x => ((1 : ℝ) - σ) * F x + σ * g x) hF, edge_sub] at hsm
  have hpe := edge_le_pot hd
  set A := Spec.edge S d g
  set B := Spec.edge S d F
  set P' := pot η S F' e
  have hP : pot η S F d = entropyFromUni d + η * B := rfl
  set P := pot η S F d
  have hn2 : (0 : ℝ) < (n : ℝ) + 2 := by positivity
  have hstep : P + η * (2 / ((n : ℝ) + 2) * (A - B) - 2 * (2 / ((n : ℝ) + 2)) ^ 2 * η) ≤ P' := by
    have := mul_le_mul_of_nonneg_left hqual hη
    have e1 : entropyFromUni d + η * ((1 - σ) * B + σ * A) - (σ * c) ^ 2 * η ^ 2 / 2 =
        P + η * (σ * (A - B) - σ ^ 2 * (η * c ^ 2) / 2) := by rw [hP]; ring
    rw [e1] at hsm
    linarith
  have hAB : η * ρ - P ≤ η * (A - B) := by
    have := mul_le_mul_of_nonneg_left hrho hη
    have : η * (A - B) = η * A - η * B := by ring
    linarith
  set τ := 2 / ((n : ℝ) + 2) with hτ
  have hτ0 : 0 ≤ τ := by positivity
  have hgap : η * ρ - P' ≤ (1 - τ) * (η * ρ - P) + 2 * τ ^ 2 * η ^ 2 := by
    have := mul_le_mul_of_nonneg_left hAB hτ0
    nlinarith
  have hcast : ((n + 1 : ℕ) : ℝ) + 2 = (n : ℝ) + 3 := by push_cast; ring
  rw [hcast]
  rcases Nat.eq_zero_or_pos n with h | h
  · rw [h] at hτ ⊢
    have : τ = 1 := by rw [hτ]; norm_num
    rw [this] at hgap
    norm_num
    nlinarith [sq_nonneg η]
  · have hih := ih h
    have hn0 : (0 : ℝ) ≤ n := Nat.cast_nonneg n
    have h1τ : 0 ≤ 1 - τ := by
      rw [hτ, sub_nonneg, div_le_one hn2]; linarith
    have h3 := mul_le_mul_of_nonneg_left hih h1τ
    refine hgap.trans ?_
    have h4 : (1 - τ) * (8 * η ^ 2 / ((n : ℝ) + 2)) + 2 * τ ^ 2 * η ^ 2 =
        8 * η ^ 2 * (((n : ℝ) + 1) / ((n : ℝ) + 2) ^ 2) := by
      rw [hτ]; field_simp; ring
    have h5 : ((n : ℝ) + 1) / ((n : ℝ) + 2) ^ 2 ≤ 1 / ((n : ℝ) + 3) := by
      rw [div_le_div_iff₀ (by positivity) (by positivity)]
      nlinarith
    have h6 := mul_le_mul_of_nonneg_left h5 (by positivity : (0 : ℝ) ≤ 8 * η ^ 2)
    rw [mul_one_div] at h6
    linarith

omit [Classifier H X ℝ] in
/-- The exponential distribution minimises the smoothed edge. -/
theorem pot_min {eta nu : ℝ} {S : Examples X ℝ} {F : X → ℝ} {d d' : List ℝ}
    (hd : IsExpDist eta nu S F d) (hl : d'.length = S.length) (hd' : Spec.IsCapped nu d') :
    pot eta S F d ≤ pot eta S F d' := by
  obtain ⟨hdl, hdc, hdp, hnu, hnu'⟩ := hd.capped
  have h1 := three_point eta nu _ d d' hd (by simpa using hl) hd'
  rw [← edge_eq_inner, ← edge_eq_inner] at h1
  have h2 := (relEnt_ge d' d (by rw [hl, hdl]) (fun x hx => (hd'.1 x hx).1) hdp.1).1
  rw [hd'.2, hdp.2, sub_self] at h2
  unfold pot entropyFromUni
  rw [hdl, hl]
  linarith

omit [Classifier H X ℝ] in
theorem smoothedEdge_eq_pot {eta : ℝ} (heta : 0 < eta) (S : Examples X ℝ) (d : List ℝ) (g : X → ℝ) :
    Spec.smoothedEdge S eta d g = pot eta S g d / eta := by
  have : ((d.map fun p => p * log p).sum + log (d.length : ℝ)) = entropyFromUni d := by
    unfold entropyFromUni entropy
    congr 2
    apply List.map_congr_left
    intro p _
    split <;> simp_all
  unfold Spec.smoothedEdge pot
  rw [this]
  field_simp
  ring

namespace MLPBoost

/-- `objval` computes the smoothed soft margin. -/
theorem objval_ok {eta nu : ℝ} {S : Examples X ℝ} {hs : List H} {w e : List ℝ}
    (he : IsExpDist eta nu S (weightedConf w hs) e) (heta : 0 < eta) :
    objval S eta nu hs w = .ok (pot eta S (weightedConf w hs) e / eta) := by
  unfold objval
  rw [(expDistribution_iff _ _ _ _ _ _).2 he]
  simp only []
  rw [weightedEdge_eq_spec]
  congr 1
  unfold pot
  field_simp
  ring

omit [Classifier H X ℝ] in
theorem isSmoothedMargin_pot {eta nu : ℝ} {S : Examples X ℝ} {F : X → ℝ} {e : List ℝ}
    (he : IsExpDist eta nu S F e) (heta : 0 < eta) :
    Spec.IsSmoothedMargin S nu eta F (pot eta S F e / eta) := by
  obtain ⟨hdl, hdc, hdp, hnu, hnu'⟩ := he.capped
  refine ⟨⟨e, hdl, hdc, smoothedEdge_eq_pot heta _ _ _⟩, ?_⟩
  intro d hl hd
  rw [smoothedEdge_eq_pot heta]
  exact div_le_div_of_nonneg_right (pot_min he hl hd) heta.le

omit [Classifier H X ℝ] in
theorem _root_.Miniboosts.Spec.IsSmoothedMargin.unique {eta nu : ℝ} {S : Examples X ℝ} {F : X → ℝ} {v v' : ℝ}
    (h : Spec.IsSmoothedMargin S nu eta F v) (h' : Spec.IsSmoothedMargin S nu eta F v') : v = v' := by
  obtain ⟨⟨d, h1, h2, h3⟩, h4⟩ := h
  obtain ⟨⟨d', h1', h2', h3'⟩, h4'⟩ := h'
  apply le_antisymm
  · rw [← h3']; exact h4 _ h1' h2'
  · rw [← h3]; exact h4' _ h1 h2

end MLPBoost

/-- What the secondary model holds after the hypotheses `hs` have been registered. -/
structure MLP.Holds (m : MLP.LPModel) (S : Examples X ℝ) (hs : List H) (nu eta : ℝ) : Prop where
  nEx : m.nExamples = S.length
  nHyp : m.nHypotheses = hs.length
  rows : m.rows = rowsOf S hs
  cap : m.capInv = 1 / nu
  eta : m.eta = eta

namespace MLP

theorem holds_init (S : Examples X ℝ) (nu eta : ℝ) :
    Holds (LPModel.init eta S.length (1 / nu)) S ([] : List H) nu eta :=
  ⟨rfl, rfl, (rowsOf_nil S).symm, rfl, rfl⟩

theorem Holds.isGamma {m : LPModel} {S : Examples X ℝ} {hs : List H} {nu eta : ℝ} (hm : Holds m S hs nu eta)
    (noise : Nat → Nat → ℝ) :
    IsGamma (m.program noise) S hs (1 / nu) (1 / nu) (fun i => noise m.draws i / eta) (fun _ => 0) := by
  constructor
  · simp [LPModel.program, hm.nEx, hm.nHyp, hm.rows, hm.cap]
  · simp [LPModel.program, hm.nEx, hm.nHyp, hm.cap]
  · simp [LPModel.program, hm.nEx, hm.nHyp]
  · simp [LPModel.program, hm.nEx]; omega
  · rfl
  · intro i hi
    simp only [LPModel.program]
    rw [Nat.add_comm, List.getD_cons_succ]
    simp [List.getD_eq_getElem?_getD, hm.nEx, hi, hm.eta]
  · simp [LPModel.program, Csc.zeros, hm.nEx]; omega
  · intro x
    exact Csc.zeros_tmulVec _ _ _
  · intro x i hi
    rw [zero_mul]
    exact Csc.zeros_tmulVec _ _ _

theorem Holds.update {m : LPModel} {S : Examples X ℝ} {hs : List H} {nu eta : ℝ} (hm : Holds m S hs nu eta)
    {solver : Solver ℝ} (hsolver : solver.Correct) (noise : Nat → Nat → ℝ) (hS : S ≠ []) (hnu : 1 ≤ nu) (h : H) :
    ∃ m', m.update solver noise S (some h) = .ok (m', m'.weights) ∧ Holds m' S (hs ++ [h]) nu eta ∧
      m'.weights.length = (hs ++ [h]).length ∧ Spec.IsProb m'.weights ∧ m'.draws = m.draws + 1 := by
  set m₁ : LPModel := { m with nHypotheses := m.nHypotheses + 1, rows := pushMargins m.rows (margins S h) } with hm₁
  have hm1 : Holds m₁ S (hs ++ [h]) nu eta :=
    ⟨hm.nEx, by simp [hm₁, hm.nHyp], by simp only [hm₁, hm.rows]; exact pushMargins_rowsOf S hs h, hm.cap, hm.eta⟩
  have hg := hm1.isGamma noise
  have hnu0 : 0 < nu := by linarith
  have hpos : 0 < 1 / nu := by positivity
  have hlen : (1 : ℝ) ≤ S.length := by
    have : 1 ≤ S.length := List.length_pos_iff.2 hS
    exact_mod_cast this
  obtain ⟨sol, hsol⟩ := hg.exists_optimal hS (by simp) (fun _ _ => le_rfl) hpos (by nlinarith)
  have hopt := hsolver _ _ hsol
  obtain ⟨γ, d, hx, hz, hdl, hdp, hdc, hed, hwl, hwp, -, -⟩ := hg.optimal (fun _ _ => le_rfl) _ hopt
  rw [Nat.add_comm 1] at hz hwl hwp
  have hn1 : m₁.nExamples = S.length := hm1.nEx
  refine ⟨{ m₁ with draws := m₁.draws + 1, weights := (solver (m₁.program noise)).z.drop (2 * m₁.nExamples + 1),
                    dist := (solver (m₁.program noise)).x.drop 1 }, ?_, ?_, ?_, ?_, rfl⟩
  · unfold LPModel.update
    simp only []
    rw [← hm₁, if_neg]
    rw [hn1, hx]
    simp only [List.length_cons]
    omega
  · exact ⟨hm1.nEx, hm1.nHyp, hm1.rows, hm1.cap, hm1.eta⟩
  · simp only [hn1]; exact hwl
  · simp only [hn1]; exact hwp

end MLP

namespace MLPBoost

/-- The smallest edge so far, and 1 before the first. -/
noncomputable def bestEdge (S : Examples X ℝ) (wl : WeakLearner ℝ H) (qs : List (List ℝ)) : ℝ :=
  (qs.mapIdx fun k q => Spec.edge S q (conf (wl (k + 1) q))).foldl min 1

theorem bestEdge_snoc (S : Examples X ℝ) (wl : WeakLearner ℝ H) (qs : List (List ℝ)) (d : List ℝ) :
    bestEdge S wl (qs ++ [d]) = min (bestEdge S wl qs) (Spec.edge S d (conf (wl (qs.length + 1) d))) := by
  unfold bestEdge
  rw [List.mapIdx_concat, List.foldl_append]
  rfl

theorem bestEdge_ge {S : Examples X ℝ} {wl : WeakLearner ℝ H} {qs : List (List ℝ)} {ρ : ℝ} (h1 : ρ ≤ 1)
    (hq : ∀ k q, q ∈ qs → ρ ≤ Spec.edge S q (conf (wl k q))) : ρ ≤ bestEdge S wl qs := by
  induction qs using List.reverseRecOn with
  | nil => exact h1
  | append_singleton qs d ih =>
    rw [bestEdge_snoc]
    exact le_min (ih fun k q hq' => hq k q (by simp [hq'])) (hq _ _ (by simp))

variable [BEq H]

/-- What holds of an MLPBoost object after `n` rounds of a run started from `s₀`. -/
structure Inv (S : Examples X ℝ) (s₀ : MLPBoost H) (wl : WeakLearner ℝ H) (n : Nat) (qs : List (List ℝ))
    (s : MLPBoost H) : Prop where
  valid : checkBinary S = .ok ()
  nu : s.nu = s₀.nu
  tol : s.halfTolerance = s₀.halfTolerance
  eta : s.eta = log ((S.length : ℝ) / s₀.nu) / s₀.halfTolerance
  fwEta : s.primary.eta = s.eta
  fwType : s.primary.fwType = s₀.primary.fwType
  maxIter : s.maxIter = ⌈8 * log ((S.length : ℝ) / s₀.nu) / s₀.halfTolerance ^ 2⌉₊
  le : n ≤ s.maxIter
  qlen : qs.length = n
  len : s.weights.length = s.hypotheses.length
  zero : n = 0 → s.hypotheses = []
  prob : 1 ≤ n → Spec.IsProb s.weights
  gamma : s.gamma = bestEdge S wl qs
  nodup : s.hypotheses.Pairwise fun f h => (f == h) = false
  sec : ∃ m, s.secondary = some m ∧ MLP.Holds m S s.hypotheses s₀.nu s.eta ∧
    (1 ≤ n → m.weights.length = s.hypotheses.length ∧ Spec.IsProb m.weights)

theorem inv_start {S : Examples X ℝ} {s₀ s : MLPBoost H} {wl : WeakLearner ℝ H} (h : preprocess S s₀ = .ok s) :
    Inv S s₀ wl 0 [] s := by
  unfold preprocess at h
  cases hc : checkBinary S with
  | error e => rw [hc] at h; simp at h
  | ok u =>
    rw [hc] at h
    simp only [] at h
    split at h
    · simp at h
    rw [Except.ok.injEq] at h
    subst h
    constructor <;> simp [initParams, maxLoop, hc, bestEdge]
    rw [← one_div]
    exact MLP.holds_init (H := H) S _ _

omit [Classifier H X ℝ] [BEq H] in
theorem checkSimplex_prob {w : List ℝ} (hw : Spec.IsProb w) : checkCappedSimplex w 1 = .ok () := by
  have hne : w ≠ [] := by rintro rfl; have := hw.2; simp at this
  have hlen : (1 : ℝ) ≤ w.length := by
    have : 1 ≤ w.length := List.length_pos_iff.2 hne
    exact_mod_cast this
  unfold checkCappedSimplex checkNu
  rw [if_pos ⟨le_rfl, hlen⟩]
  simp only []
  rw [if_pos]
  refine ⟨by rw [hw.2]; norm_num, ?_⟩
  intro p hp
  refine ⟨hw.1 p hp, ?_⟩
  have := LP.prob_le_one hw p hp
  simpa using this

omit [BEq H] in
/-- `betterWeight` picks a candidate with the larger smoothed soft margin. -/
theorem betterWeight_ok {eta nu : ℝ} (heta : 0 < eta) (hnu : 1 ≤ nu) {S : Examples X ℝ} (hnu' : nu ≤ S.length)
    (hs : List H) (w1 w2 : List ℝ) :
    ∃ w, betterWeight S eta nu hs w1 w2 = .ok w ∧ (w = w1 ∨ w = w2) ∧
      ∀ e e1 e2, IsExpDist eta nu S (weightedConf w hs) e → IsExpDist eta nu S (weightedConf w1 hs) e1 →
        IsExpDist eta nu S (weightedConf w2 hs) e2 →
        pot eta S (weightedConf w1 hs) e1 ≤ pot eta S (weightedConf w hs) e ∧
        pot eta S (weightedConf w2 hs) e2 ≤ pot eta S (weightedConf w hs) e := by
  obtain ⟨e1, h1⟩ := exists_expDist eta nu S (weightedConf w1 hs) hnu hnu'
  obtain ⟨e2, h2⟩ := exists_expDist eta nu S (weightedConf w2 hs) hnu hnu'
  have huniq : ∀ {F : X → ℝ} {a b : List ℝ}, IsExpDist eta nu S F a → IsExpDist eta nu S F b → a = b := by
    intro F a b ha hb
    have ha : projectCapped _ _ = .ok a := ha
    have hb : projectCapped _ _ = .ok b := hb
    rw [ha, Except.ok.injEq] at hb; exact hb
  unfold betterWeight
  rw [objval_ok h1 heta, objval_ok h2 heta]
  simp only []
  by_cases hle : pot eta S (weightedConf w2 hs) e2 / eta ≤ pot eta S (weightedConf w1 hs) e1 / eta
  · rw [if_pos hle]
    refine ⟨_, rfl, Or.inl rfl, ?_⟩
    intro e e1' e2' he he1 he2
    rw [huniq he he1, huniq he1 h1, huniq he2 h2]
    exact ⟨le_rfl, by rwa [div_le_div_iff_of_pos_right heta] at hle⟩
  · rw [if_neg hle]
    refine ⟨_, rfl, Or.inr rfl, ?_⟩
    intro e e1' e2' he he1 he2
    rw [huniq he he2, huniq he1 h1, huniq he2 h2]
    rw [not_le] at hle
    exact ⟨by rw [div_lt_div_iff_of_pos_right heta] at hle; exact hle.le, le_rfl⟩

theorem boost_cases {S : Examples X ℝ} {s₀ s : MLPBoost H} {wl : WeakLearner ℝ H} {n : Nat} {qs : List (List ℝ)}
    (hi : Inv S s₀ wl n qs s) {solver : Solver ℝ} (hsolver : solver.Correct) (noise : Nat → Nat → ℝ)
    (htype : s₀.primary.fwType = .classic ∨ s₀.primary.fwType = .shortStep)
    (htol : 0 < s₀.halfTolerance) (hnu : 1 ≤ s₀.nu) (hnu' : s₀.nu ≤ S.length)
    (hbeq : ∀ f h : H, (f == h) = true → ∀ e ∈ S, conf f e.1 = (conf h e.1 : ℝ)) :
    (s.maxIter = n ∧ boost solver noise S s wl (n + 1) = .ok { state := s, flow := .brk n, queries := [] }) ∨
    ∃ d, n < s.maxIter ∧ 0 < s.eta ∧ IsExpDist s.eta s₀.nu S (weightedConf s.weights s.hypotheses) d ∧
      ((n = 0 ∧ ∃ s', boost solver noise S s wl (n + 1) = .ok { state := s', flow := .cont, queries := [d] } ∧
          Inv S s₀ wl (n + 1) (qs ++ [d]) s' ∧ s'.eta = s.eta ∧ s'.hypotheses = [wl 1 d] ∧ s'.weights = [1]) ∨
       (1 ≤ n ∧ bestEdge S wl (qs ++ [d]) - pot s.eta S (weightedConf s.weights s.hypotheses) d / s.eta ≤
            s₀.halfTolerance ∧
          ∃ s', boost solver noise S s wl (n + 1) = .ok { state := s', flow := .brk (n + 1), queries := [d] } ∧
            s'.weights = s.weights ∧ s'.hypotheses = s.hypotheses) ∨
       (1 ≤ n ∧ s₀.halfTolerance <
            bestEdge S wl (qs ++ [d]) - pot s.eta S (weightedConf s.weights s.hypotheses) d / s.eta ∧
        ∃ s', boost solver noise S s wl (n + 1) = .ok { state := s', flow := .cont, queries := [d] } ∧
          Inv S s₀ wl (n + 1) (qs ++ [d]) s' ∧ s'.eta = s.eta ∧
          (∀ k ∈ s'.hypotheses, k ∈ s.hypotheses ∨ k = wl (n + 1) d) ∧
          ∃ prim, (∀ e e1, IsExpDist s.eta s₀.nu S (weightedConf s'.weights s'.hypotheses) e →
              IsExpDist s.eta s₀.nu S (weightedConf prim s'.hypotheses) e1 →
              pot s.eta S (weightedConf prim s'.hypotheses) e1 ≤
                pot s.eta S (weightedConf s'.weights s'.hypotheses) e) ∧
            ∃ σ c, 0 ≤ σ ∧ σ ≤ 1 ∧
              (∀ e ∈ S, weightedConf prim s'.hypotheses e.1 =
                (1 - σ) * weightedConf s.weights s.hypotheses e.1 + σ * conf (wl (n + 1) d) e.1) ∧
              (∀ p ∈ S, |p.2 * conf (wl (n + 1) d) p.1 - p.2 * weightedConf s.weights s.hypotheses p.1| ≤ c) ∧
              ((∀ p ∈ S, |p.2 * conf (wl (n + 1) d) p.1 - p.2 * weightedConf s.weights s.hypotheses p.1| ≤ 2) →
                2 / ((n : ℝ) + 2) * (Spec.edge S d (conf (wl (n + 1) d)) -
                  Spec.edge S d (weightedConf s.weights s.hypotheses)) - 2 * (2 / ((n : ℝ) + 2)) ^ 2 * s.eta ≤
                σ * (Spec.edge S d (conf (wl (n + 1) d)) -
                  Spec.edge S d (weightedConf s.weights s.hypotheses)) - σ ^ 2 * (s.eta * c ^ 2) / 2))) := by
  have hle := hi.le
  by_cases hmax : s.maxIter < n + 1
  · left
    have hn : s.maxIter = n := by omega
    refine ⟨hn, ?_⟩
    unfold boost
    rw [if_pos hmax, hn]
  right
  obtain ⟨d, hd⟩ := exists_expDist s.eta s₀.nu S (weightedConf s.weights s.hypotheses) hnu hnu'
  have hetapos : 0 < s.eta := by
    rw [hi.eta]
    apply div_pos _ htol
    by_contra h0
    have h1 : s.maxIter = 0 := by
      rw [hi.maxIter, Nat.ceil_eq_zero]
      apply div_nonpos_of_nonpos_of_nonneg
      · linarith
      · positivity
    omega
  refine ⟨d, by omega, hetapos, hd, ?_⟩
  have hd' : expDistribution s.eta s.nu S s.weights s.hypotheses = .ok d := by
    rw [hi.nu]; exact (expDistribution_iff _ _ _ _ _ _).2 hd
  have hdl := hd.capped.1
  have hS : S ≠ [] := by
    rintro rfl
    simp at hnu'
    linarith
  obtain ⟨m, hsec, hm, hmw⟩ := hi.sec
  have hg : min s.gamma (edge S d (wl (n + 1) d)) = bestEdge S wl (qs ++ [d]) := by
    rw [bestEdge_snoc, hi.qlen, hi.gamma, edge_eq_spec]
  have hv : objval S s.eta s.nu s.hypotheses s.weights =
      .ok (pot s.eta S (weightedConf s.weights s.hypotheses) d / s.eta) := by
    rw [hi.nu]; exact objval_ok hd hetapos
  rcases Nat.eq_zero_or_pos n with hn | hn
  · left
    refine ⟨hn, ?_⟩
    subst hn
    have hhs := hi.zero rfl
    have hws : s.weights = [] := by
      have := hi.len; rw [hhs] at this; simpa using this
    obtain ⟨m', h1, h2, h3, h4, -⟩ := hm.update hsolver noise hS hnu (wl 1 d)
    refine ⟨{ s with gamma := bestEdge S wl (qs ++ [d]), hypotheses := [wl 1 d], weights := [1], secondary := some m' },
      ?_, ?_, rfl, rfl, rfl⟩
    · unfold boost
      rw [if_neg hmax, hd']
      simp only [hsec, Nat.zero_add] at hg ⊢
      rw [h1, hg, hhs, hws]
      rfl
    · rw [hhs] at h2 h3
      constructor
      · exact hi.valid
      · exact hi.nu
      · exact hi.tol
      · exact hi.eta
      · exact hi.fwEta
      · exact hi.fwType
      · exact hi.maxIter
      · simp only []; omega
      · simp [hi.qlen]
      · rfl
      · intro h; omega
      · intro _; constructor <;> simp
      · rfl
      · simp
      · exact ⟨m', rfl, h2, fun _ => ⟨h3, h4⟩⟩
  right
  set h := wl (n + 1) d with hh
  set F := weightedConf (X := X) s.weights s.hypotheses with hF
  set γ := bestEdge S wl (qs ++ [d]) with hγ
  set v := pot s.eta S F d / s.eta with hvdef
  have hb : boost solver noise S s wl (n + 1) = if γ - v ≤ s.halfTolerance then
      .ok { state := { s with gamma := γ, terminated := n + 1 }, flow := .brk (n + 1), queries := [d] }
    else
      let pos := s.hypotheses.findIdx (fun f => f == h)
      let new := decide (pos = s.hypotheses.length)
      let hs := if new then s.hypotheses ++ [h] else s.hypotheses
      let ws := if new then s.weights ++ [0] else s.weights
      match s.primary.nextIterate (n + 1) S d hs pos ws with
      | .error e => .error e
      | .ok prim =>
        match m.update solver noise S (if new then some h else none) with
        | .error e => .error e
        | .ok (m, seco) =>
          match betterWeight S s.eta s.nu hs prim seco with
          | .error e => .error e
          | .ok w =>
            match checkCappedSimplex w 1 with
            | .error e => .error e
            | .ok () =>
              .ok { state := { s with gamma := γ, hypotheses := hs, weights := w, secondary := some m }
                    flow := .cont, queries := [d] } := by
    conv_lhs => unfold boost
    rw [if_neg hmax, hd']
    simp only [hsec]
    rw [if_neg (by omega), ← hh, hg, hv]
    simp only [hsec]
    rfl
  rw [hb]
  by_cases h1 : γ - v ≤ s₀.halfTolerance
  · left
    exact ⟨hn, h1, { s with gamma := γ, terminated := n + 1 }, by rw [hi.tol]; exact if_pos h1, rfl, rfl⟩
  right
  refine ⟨hn, not_le.1 h1, ?_⟩
  rw [if_neg (by rw [hi.tol]; exact h1)]
  simp only []
  have hGpos : 0 < Spec.edge S d (conf h) - Spec.edge S d F := by
    have e1 : γ ≤ Spec.edge S d (conf h) := by
      rw [hγ, bestEdge_snoc, hi.qlen]; exact min_le_right _ _
    have e2 : Spec.edge S d F ≤ v := by
      rw [hvdef, le_div_iff₀ hetapos, mul_comm]; exact edge_le_pot hd
    linarith [not_le.1 h1]
  have hprob := hi.prob hn
  obtain ⟨hml, hmp⟩ := hmw hn
  -- both branches: the candidates are probability vectors for the registered hypotheses
  have fin : ∀ (hs : List H) (ws : List ℝ) (pos : Nat) (h' : H) (m' : MLP.LPModel), hs[pos]? = some h' →
      (∀ e ∈ S, conf h' e.1 = (conf h e.1 : ℝ)) → Spec.IsProb ws → ws.length = hs.length →
      (∀ x : X, weightedConf ws hs x = F x) → (hs.Pairwise fun f h => (f == h) = false) →
      MLP.Holds m' S hs s₀.nu s.eta → m'.weights.length = hs.length → Spec.IsProb m'.weights →
      (∀ k ∈ hs, k ∈ s.hypotheses ∨ k = h) →
      ∃ s', (match s.primary.nextIterate (n + 1) S d hs pos ws with
      | .error e => (.error e : Except Panic (BoostOut (MLPBoost H) ℝ))
      | .ok prim =>
        match (.ok (m', m'.weights) : Except Panic (MLP.LPModel × List ℝ)) with
        | .error e => .error e
        | .ok (m, seco) =>
          match betterWeight S s.eta s.nu hs prim seco with
          | .error e => .error e
          | .ok w =>
            match checkCappedSimplex w 1 with
            | .error e => .error e
            | .ok () =>
              .ok { state := { s with gamma := γ, hypotheses := hs, weights := w, secondary := some m }
                    flow := .cont, queries := [d] }) = .ok { state := s', flow := .cont, queries := [d] } ∧
          Inv S s₀ wl (n + 1) (qs ++ [d]) s' ∧ s'.eta = s.eta ∧
          (∀ k ∈ s'.hypotheses, k ∈ s.hypotheses ∨ k = h) ∧
          ∃ prim, (∀ e e1, IsExpDist s.eta s₀.nu S (weightedConf s'.weights s'.hypotheses) e →
              IsExpDist s.eta s₀.nu S (weightedConf prim s'.hypotheses) e1 →
              pot s.eta S (weightedConf prim s'.hypotheses) e1 ≤
                pot s.eta S (weightedConf s'.weights s'.hypotheses) e) ∧
            ∃ σ c, 0 ≤ σ ∧ σ ≤ 1 ∧
              (∀ e ∈ S, weightedConf prim s'.hypotheses e.1 = (1 - σ) * F e.1 + σ * conf h e.1) ∧
              (∀ p ∈ S, |p.2 * conf h p.1 - p.2 * F p.1| ≤ c) ∧
              ((∀ p ∈ S, |p.2 * conf h p.1 - p.2 * F p.1| ≤ 2) →
                2 / ((n : ℝ) + 2) * (Spec.edge S d (conf h) - Spec.edge S d F) -
                    2 * (2 / ((n : ℝ) + 2)) ^ 2 * s.eta ≤
                  σ * (Spec.edge S d (conf h) - Spec.edge S d F) - σ ^ 2 * (s.eta * c ^ 2) / 2) := by
    intro hs ws pos h' m' hp hconf hwp hwl hwF hnd hm' hml' hmp' hmem
    have eF : Spec.edge S d (weightedConf (X := X) ws hs) = Spec.edge S d F :=
      specEdge_congr d fun e _ => hwF e.1
    have eh : Spec.edge S d (conf h' : X → ℝ) = Spec.edge S d (conf h) := specEdge_congr d hconf
    obtain ⟨prim, p1, p2, p3, σ, c, p4, p5, p6, p7, p8⟩ := fw_step (fw := s.primary) (h := h')
      (by rw [hi.fwType]; exact htype) (by rw [hi.fwEta]; exact hetapos) hn hdl hwp hwl hp (by rw [eF, eh]; exact hGpos)
    rw [eF, eh, hi.fwEta] at p8
    obtain ⟨w, b1, b2, b3⟩ := betterWeight_ok hetapos hnu hnu' hs prim m'.weights
    have hw : Spec.IsProb w ∧ w.length = hs.length := by
      rcases b2 with rfl | rfl
      · exact ⟨p2, p3⟩
      · exact ⟨hmp', hml'⟩
    rw [p1]
    simp only []
    rw [show betterWeight S s.eta s.nu hs prim m'.weights = .ok w by rw [hi.nu]; exact b1]
    simp only []
    rw [checkSimplex_prob hw.1]
    refine ⟨_, rfl, ?_, rfl, hmem, prim, ?_, σ, c, p4, p5, ?_, ?_, ?_⟩
    · constructor
      · exact hi.valid
      · exact hi.nu
      · exact hi.tol
      · exact hi.eta
      · exact hi.fwEta
      · exact hi.fwType
      · exact hi.maxIter
      · simp only []; omega
      · simp [hi.qlen]
      · exact hw.2
      · intro h; omega
      · intro _; exact hw.1
      · rfl
      · exact hnd
      · exact ⟨m', rfl, hm', fun _ => ⟨hml', hmp'⟩⟩
    · intro e e1 he he1
      obtain ⟨e2, he2⟩ := exists_expDist s.eta s₀.nu S (weightedConf m'.weights hs) hnu hnu'
      exact (b3 e e1 e2 he he1 he2).1
    · intro e he
      rw [p6 e he, hwF, hconf e he]
    · intro p hp
      have := p7 p hp
      rwa [hwF, hconf p hp] at this
    · intro h2
      apply p8
      intro p hp
      rw [hwF, hconf p hp]; exact h2 p hp
  by_cases hp : s.hypotheses.findIdx (fun f => f == h) = s.hypotheses.length
  · obtain ⟨m', u1, u2, u3, u4, -⟩ := hm.update hsolver noise hS hnu h
    simp only [hp, decide_true, if_true, u1]
    apply fin (s.hypotheses ++ [h]) (s.weights ++ [0]) _ h m' (by simp) (fun _ _ => rfl)
    · constructor
      · intro p hp
        rcases List.mem_append.1 hp with h3 | h3
        · exact hprob.1 p h3
        · simp at h3; rw [h3]
      · simp [hprob.2]
    · simp [hi.len]
    · intro x; rw [weightedConf_snoc _ _ _ _ hi.len]; ring
    · rw [List.pairwise_append]
      refine ⟨hi.nodup, by simp, ?_⟩
      intro a ha b hb
      simp at hb; subst hb
      have := List.findIdx_eq_length.1 hp a ha
      simpa using this
    · exact u2
    · exact u3
    · exact u4
    · intro k hk
      rcases List.mem_append.1 hk with h3 | h3
      · exact Or.inl h3
      · exact Or.inr (by simpa using h3)
  · have hlt : s.hypotheses.findIdx (fun f => f == h) < s.hypotheses.length := by
      rcases lt_or_eq_of_le (List.findIdx_le_length (p := fun f => f == h) (xs := s.hypotheses)) with h1 | h1
      · exact h1
      · exact absurd h1 hp
    simp only [hp, decide_false, Bool.false_eq_true, if_false]
    exact fin s.hypotheses s.weights _ (s.hypotheses[s.hypotheses.findIdx (fun f => f == h)]) m (by simp [hlt])
      (hbeq _ _ (List.findIdx_getElem (w := hlt))) hprob hi.len (fun _ => rfl) hi.nodup hm hml hmp (fun k hk => Or.inl hk)

end MLPBoost

end Miniboosts
