import Verif.Lemmas.MLPBoost
import Verif.Spec.Accurate

/-! # MLPBoost with an arbitrary solver

Whatever the solver answers, the weights that MLPBoost keeps have passed the check of the simplex, so they are
non-negative and their total is within `10⁻⁵` of 1. -/

namespace Miniboosts

open Real

variable {H X : Type*} [Classifier H X ℝ]

omit [Classifier H X ℝ] in
theorem specEdge_abs_le (S : Examples X ℝ) (d : List ℝ) (hl : d.length = S.length) (hd : Spec.IsProb d) (g : X → ℝ)
    (hg : ∀ e ∈ S, |e.2 * g e.1| ≤ 1) : |Spec.edge S d g| ≤ 1 := by
  have key : ∀ (l : List ((X × ℝ) × ℝ)), (∀ p ∈ l, 0 ≤ p.2 ∧ |p.1.2 * g p.1.1| ≤ 1) →
      |(l.map fun p => p.2 * (p.1.2 * g p.1.1)).sum| ≤ (l.map Prod.snd).sum := by
    intro l
    induction l with
    | nil => simp
    | cons a l ih =>
      intro h
      have h1 := ih fun p hp => h p (List.mem_cons_of_mem _ hp)
      obtain ⟨h2, h3⟩ := h a (by simp)
      simp only [List.map_cons, List.sum_cons]
      refine (abs_add_le _ _).trans ?_
      rw [abs_mul, abs_of_nonneg h2]
      have := mul_le_mul_of_nonneg_left h3 h2
      linarith
  have := key (List.zip S d) fun p hp => by
    obtain ⟨h1, h2⟩ := List.of_mem_zip hp
    exact ⟨hd.1 _ h2, hg _ h1⟩
  rw [List.map_snd_zip (by omega), hd.2] at this
  exact this

/-- One classic or short Frank-Wolfe step from weights whose total is only close to 1. -/
theorem fw_step_near {fw : FrankWolfe} (htype : fw.fwType = .classic ∨ fw.fwType = .shortStep) (heta : 0 < fw.eta)
    {S : Examples X ℝ} {d w : List ℝ} {hs : List H} {pos : Nat} {h : H} {n : Nat} {δ C : ℝ} (hC : 0 ≤ C)
    (hdl : d.length = S.length) (hw : |w.sum - 1| ≤ δ) (hl : w.length = hs.length) (hpos : hs[pos]? = some h)
    (hb : |Spec.edge S d (conf h)| ≤ 1)
    (hG : δ < Spec.edge S d (conf h) - Spec.edge S d (weightedConf w hs)) :
    ∃ w', fw.nextIterate (n + 1) S d hs pos w = .ok w' ∧ w'.length = hs.length ∧
      ∃ σ c, 0 ≤ σ ∧ σ ≤ 1 ∧
        (∀ e ∈ S, weightedConf w' hs e.1 = (1 - σ) * weightedConf w hs e.1 + σ * conf h e.1) ∧
        (∀ p ∈ S, |p.2 * conf h p.1 - p.2 * weightedConf w hs p.1| ≤ c) ∧
        ((∀ p ∈ S, |p.2 * conf h p.1 - p.2 * weightedConf w hs p.1| ≤ C) →
          2 / ((n : ℝ) + 2) * (Spec.edge S d (conf h) - Spec.edge S d (weightedConf w hs)) -
              C ^ 2 / 2 * (2 / ((n : ℝ) + 2)) ^ 2 * fw.eta ≤
            σ * (Spec.edge S d (conf h) - Spec.edge S d (weightedConf w hs)) - σ ^ 2 * (fw.eta * c ^ 2) / 2) := by
  have hδ : 0 ≤ δ := (abs_nonneg _).trans hw
  have hposlt : pos < hs.length := (List.getElem?_eq_some_iff.1 hpos).1
  set F := weightedConf (X := X) w hs with hF
  set G := Spec.edge S d (conf h) - Spec.edge S d F with hGdef
  have fin : ∀ (σ c : ℝ), 0 ≤ σ → σ ≤ 1 →
      fw.nextIterate (n + 1) S d hs pos w = interiorPoint σ pos w →
      (∀ p ∈ S, |p.2 * conf h p.1 - p.2 * F p.1| ≤ c) →
      ((∀ p ∈ S, |p.2 * conf h p.1 - p.2 * F p.1| ≤ C) →
        2 / ((n : ℝ) + 2) * G - C ^ 2 / 2 * (2 / ((n : ℝ) + 2)) ^ 2 * fw.eta ≤ σ * G - σ ^ 2 * (fw.eta * c ^ 2) / 2) →
      ∃ w', fw.nextIterate (n + 1) S d hs pos w = .ok w' ∧ w'.length = hs.length ∧
      ∃ σ c, 0 ≤ σ ∧ σ ≤ 1 ∧
        (∀ e ∈ S, weightedConf w' hs e.1 = (1 - σ) * F e.1 + σ * conf h e.1) ∧
        (∀ p ∈ S, |p.2 * conf h p.1 - p.2 * F p.1| ≤ c) ∧
        ((∀ p ∈ S, |p.2 * conf h p.1 - p.2 * F p.1| ≤ C) →
          2 / ((n : ℝ) + 2) * G - C ^ 2 / 2 * (2 / ((n : ℝ) + 2)) ^ 2 * fw.eta ≤ σ * G - σ ^ 2 * (fw.eta * c ^ 2) / 2) := by
    intro σ c h0 h1 hni hc hq
    refine ⟨_, hni.trans (interiorPoint_eq h0 h1 pos w), by simp [hl], σ, c, h0, h1, ?_, hc, hq⟩
    intro e he
    rw [interior_conf σ w hs pos h hl hpos]
  have hclassic : 2 / (((n + 1 : ℕ) : ℝ) + 1) = 2 / ((n : ℝ) + 2) := by push_cast; ring_nf
  have hn2 : (0 : ℝ) < (n : ℝ) + 2 := by positivity
  have hs0 : (0 : ℝ) ≤ 2 / ((n : ℝ) + 2) := by positivity
  have hs1 : 2 / ((n : ℝ) + 2) ≤ 1 := by
    rw [div_le_one hn2]
    have : (0 : ℝ) ≤ n := Nat.cast_nonneg n
    linarith
  rcases htype with ht | ht
  · obtain ⟨hm1, hm2, -⟩ := Props.foldl_max_spec (S.map fun p => |p.2 * conf h p.1 - p.2 * F p.1|) C
    have hbound : ∃ c, (∀ p ∈ S, |p.2 * conf h p.1 - p.2 * F p.1| ≤ c) ∧
        ((∀ p ∈ S, |p.2 * conf h p.1 - p.2 * F p.1| ≤ C) → c = C) := by
      by_cases h2 : ∀ p ∈ S, |p.2 * conf h p.1 - p.2 * F p.1| ≤ C
      · exact ⟨C, h2, fun _ => rfl⟩
      · exact ⟨_, fun p hp => hm2 _ (List.mem_map.2 ⟨p, hp, rfl⟩), fun h3 => absurd h3 h2⟩
    obtain ⟨c₀, hc₀, hc₀'⟩ := hbound
    refine fin (2 / ((n : ℝ) + 2)) c₀ hs0 hs1 ?_ hc₀ ?_
    · unfold FrankWolfe.nextIterate
      rw [if_pos hposlt, ht]
      simp only [FrankWolfe.classic, hclassic]
    · intro h2
      rw [hc₀' h2]
      apply le_of_eq; ring
  · have hni : fw.nextIterate (n + 1) S d hs pos w = fw.shortStep S d hs pos w := by
      unfold FrankWolfe.nextIterate
      rw [if_pos hposlt, ht]
    have hne : hs.length ≠ 1 := by
      intro h0
      obtain ⟨k, hk⟩ := List.length_eq_one_iff.1 h0
      obtain ⟨a, ha⟩ := List.length_eq_one_iff.1 (hl.trans h0)
      have hp0 : pos = 0 := by omega
      rw [hk, hp0] at hpos
      have hkh : k = h := by simpa using hpos
      have : G = (1 - a) * Spec.edge S d (conf h) := by
        have e1 : Spec.edge S d F = Spec.edge S d (fun x => (1 - (1 - a)) * conf h x + (1 - a) * 0) := by
          apply specEdge_congr
          intro e he
          rw [hF, ha, hk, hkh]
          simp [weightedConf]
        have e2 := edge_sub S d (fun x => conf h x) (fun _ => (0 : ℝ)) (1 - (1 - a)) (1 - a)
        have e3 : Spec.edge S d (fun _ => (0 : ℝ)) = 0 := by simp [Spec.edge]
        rw [hGdef, e1, e2, e3]; ring
      have h4 : |w.sum - 1| = |1 - a| := by rw [ha, abs_sub_comm]; simp
      have h5 : |G| ≤ δ := by
        rw [this, abs_mul]
        calc |1 - a| * |Spec.edge S d (conf h)| ≤ |1 - a| * 1 := mul_le_mul_of_nonneg_left hb (abs_nonneg _)
          _ ≤ δ := by rw [mul_one, ← h4]; exact hw
      linarith [le_abs_self G]
    obtain ⟨s₁, c₁, q1, q2, q3, q4, q5, ⟨p, hp, q6⟩, q7⟩ :=
      Props.shortStepSize_optimal fw.eta heta S F (conf h) d hdl (by linarith)
    refine fin s₁ c₁ q2 q3 ?_ q5 ?_
    · rw [hni]
      unfold FrankWolfe.shortStep
      rw [if_neg hne, hpos]
      simp only []
      have e1 : margins S h = S.map fun e => e.2 * conf h e.1 := rfl
      have e2 : weightedMargins S w hs = S.map fun e => e.2 * F e.1 := rfl
      rw [e1, e2, q1]
    · intro h2
      refine le_trans ?_ (q7 (2 / ((n : ℝ) + 2)) hs0 hs1)
      have hc2 : c₁ ≤ C := by rw [q6]; exact h2 p hp
      have hc0 : 0 ≤ c₁ := by rw [q6]; exact abs_nonneg _
      have : c₁ ^ 2 ≤ C ^ 2 := by nlinarith
      have : (2 / ((n : ℝ) + 2)) ^ 2 * (fw.eta * c₁ ^ 2) ≤ (2 / ((n : ℝ) + 2)) ^ 2 * (fw.eta * C ^ 2) :=
        mul_le_mul_of_nonneg_left (mul_le_mul_of_nonneg_left this heta.le) (sq_nonneg _)
      linarith

/-- What one such step does to the gap of the potential. -/
theorem fw_gap_near {η nu C : ℝ} (hη : 0 ≤ η) {S : Examples X ℝ} {F F' g : X → ℝ} {d e : List ℝ} {σ c ρ : ℝ} {n : Nat}
    (hd : IsExpDist η nu S F d) (he : IsExpDist η nu S F' e) (h0 : 0 ≤ σ)
    (hF : ∀ p ∈ S, F' p.1 = (1 - σ) * F p.1 + σ * g p.1)
    (hc : ∀ p ∈ S, |p.2 * g p.1 - p.2 * F p.1| ≤ c)
    (hqual : 2 / ((n : ℝ) + 2) * (Spec.edge S d g - Spec.edge S d F) - C ^ 2 / 2 * (2 / ((n : ℝ) + 2)) ^ 2 * η ≤
      σ * (Spec.edge S d g - Spec.edge S d F) - σ ^ 2 * (η * c ^ 2) / 2)
    (hrho : ρ ≤ Spec.edge S d g)
    (ih : 1 ≤ n → η * ρ - pot η S F d ≤ 2 * C ^ 2 * η ^ 2 / ((n : ℝ) + 2)) :
    η * ρ - pot η S F' e ≤ 2 * C ^ 2 * η ^ 2 / (((n + 1 : ℕ) : ℝ) + 2) := by
  have hsm := pot_smooth (c := σ * c) hd he (by
    intro p hp
    rw [hF p hp]
    have : p.2 * ((1 - σ) * F p.1 + σ * g p.1) - p.2 * F p.1 = σ * (p.2 * g p.1 - p.2 * F p.1) := by ring
    rw [this, abs_mul, abs_of_nonneg h0]
    exact mul_le_mul_of_nonneg_left (hc p hp) h0)
  rw [specEdge_congr d (G := fun x => ((1 : ℝ) - σ) * F x + σ * g x) hF, edge_sub] at hsm
  have hpe := edge_le_pot hd
  set A := Spec.edge S d g
  set B := Spec.edge S d F
  set P' := pot η S F' e
  have hP : pot η S F d = entropyFromUni d + η * B := rfl
  set P := pot η S F d
  have hn2 : (0 : ℝ) < (n : ℝ) + 2 := by positivity
  have hstep : P + η * (2 / ((n : ℝ) + 2) * (A - B) - C ^ 2 / 2 * (2 / ((n : ℝ) + 2)) ^ 2 * η) ≤ P' := by
    have := mul_le_mul_of_nonneg_left hqual hη
    have e1 : entropyFromUni d + η * ((1 - σ) * B + σ * A) - (σ * c) ^ 2 * η ^ 2 / 2 =
        P + η * (σ * (A - B) - σ ^ 2 * (η * c ^ 2) / 2) := by rw [hP]; ring
    rw [e1] at hsm
    linarith
  have hAB : η * ρ - P ≤ η * (A - B) := by
    have := mul_le_mul_of_nonneg_left hrho hη
    have : η * (A - B) = η * A - η * B := by ring
    linarith
  set τ := 2 / ((n : ℝ) + 2) with hτ
  have hτ0 : 0 ≤ τ := by positivity
  have hgap : η * ρ - P' ≤ (1 - τ) * (η * ρ - P) + C ^ 2 / 2 * τ ^ 2 * η ^ 2 := by
    have := mul_le_mul_of_nonneg_left hAB hτ0
    have e2 : η * (τ * (A - B) - C ^ 2 / 2 * τ ^ 2 * η) = τ * (η * (A - B)) - C ^ 2 / 2 * τ ^ 2 * η ^ 2 := by ring
    linarith
  have hcast : ((n + 1 : ℕ) : ℝ) + 2 = (n : ℝ) + 3 := by push_cast; ring
  rw [hcast]
  rcases Nat.eq_zero_or_pos n with h | h
  · rw [h] at hτ ⊢
    have : τ = 1 := by rw [hτ]; norm_num
    rw [this] at hgap
    norm_num
    nlinarith [mul_nonneg (sq_nonneg C) (sq_nonneg η)]
  · have hih := ih h
    have hn0 : (0 : ℝ) ≤ n := Nat.cast_nonneg n
    have h1τ : 0 ≤ 1 - τ := by
      rw [hτ, sub_nonneg, div_le_one hn2]; linarith
    have h3 := mul_le_mul_of_nonneg_left hih h1τ
    refine hgap.trans ?_
    have h4 : (1 - τ) * (2 * C ^ 2 * η ^ 2 / ((n : ℝ) + 2)) + C ^ 2 / 2 * τ ^ 2 * η ^ 2 =
        2 * C ^ 2 * η ^ 2 * (((n : ℝ) + 1) / ((n : ℝ) + 2) ^ 2) := by
      rw [hτ]; field_simp; ring
    have h5 : ((n : ℝ) + 1) / ((n : ℝ) + 2) ^ 2 ≤ 1 / ((n : ℝ) + 3) := by
      rw [div_le_div_iff₀ (by positivity) (by positivity)]
      nlinarith
    have h6 := mul_le_mul_of_nonneg_left h5 (by positivity : (0 : ℝ) ≤ 2 * C ^ 2 * η ^ 2)
    rw [mul_one_div] at h6
    linarith

/-- Taking in a hypothesis, whatever the solver answers. -/
theorem MLP.Holds.update_any {m : MLP.LPModel} {S : Examples X ℝ} {hs : List H} {nu eta : ℝ}
    (hm : MLP.Holds m S hs nu eta) {solver : Solver ℝ} (hsolver : solver.Shaped) (noise : Nat → Nat → ℝ) (h : H) :
    ∃ m', m.update solver noise S (some h) = .ok (m', m'.weights) ∧ MLP.Holds m' S (hs ++ [h]) nu eta ∧
      m'.weights.length = (hs ++ [h]).length := by
  set m₁ : MLP.LPModel := { m with nHypotheses := m.nHypotheses + 1, rows := pushMargins m.rows (margins S h) } with hm₁
  have hm1 : MLP.Holds m₁ S (hs ++ [h]) nu eta :=
    ⟨hm.nEx, by simp [hm₁, hm.nHyp], by simp only [hm₁, hm.rows]; exact pushMargins_rowsOf S hs h, hm.cap, hm.eta⟩
  have hg := hm1.isGamma noise
  obtain ⟨hx, hz⟩ := hsolver (m₁.program noise)
  rw [hg.nRows] at hz
  rw [hg.nCols] at hx
  have hn1 : m₁.nExamples = S.length := hm1.nEx
  have hu : m.update solver noise S (some h) = .ok ({ m₁ with draws := m₁.draws + 1, weights := (solver (m₁.program noise)).z.drop (2 * m₁.nExamples + 1), dist := (solver (m₁.program noise)).x.drop 1 }, (solver (m₁.program noise)).z.drop (2 * m₁.nExamples + 1)) := by
    unfold MLP.LPModel.update
    simp only []
    rw [← hm₁, if_neg]
    rw [hn1]; omega
  refine ⟨_, hu, ⟨hm1.nEx, hm1.nHyp, hm1.rows, hm1.cap, hm1.eta⟩, ?_⟩
  simp only [List.length_drop, hz, hn1]; omega

namespace MLPBoost

variable [BEq H]

/-- What holds of an MLPBoost object after `n` rounds of a run started from `s₀`, with an arbitrary solver. -/
structure NearInv (S : Examples X ℝ) (s₀ : MLPBoost H) (wl : WeakLearner ℝ H) (n : Nat) (qs : List (List ℝ))
    (s : MLPBoost H) : Prop where
  valid : checkBinary S = .ok ()
  nu : s.nu = s₀.nu
  tol : s.halfTolerance = s₀.halfTolerance
  eta : s.eta = log ((S.length : ℝ) / s₀.nu) / s₀.halfTolerance
  fwEta : s.primary.eta = s.eta
  fwType : s.primary.fwType = s₀.primary.fwType
  maxIter : s.maxIter = ⌈8 * log ((S.length : ℝ) / s₀.nu) / s₀.halfTolerance ^ 2⌉₊
  le : n ≤ s.maxIter
  qlen : qs.length = n
  len : s.weights.length = s.hypotheses.length
  zero : n = 0 → s.hypotheses = []
  near : 1 ≤ n → (∀ p ∈ s.weights, 0 ≤ p) ∧ |s.weights.sum - 1| ≤ 1 / 100000
  gamma : s.gamma = bestEdge S wl qs
  sec : ∃ m, s.secondary = some m ∧ MLP.Holds m S s.hypotheses s₀.nu s.eta ∧
    (1 ≤ n → m.weights.length = s.hypotheses.length)

theorem nearInv_start {S : Examples X ℝ} {s₀ s : MLPBoost H} {wl : WeakLearner ℝ H} (h : preprocess S s₀ = .ok s) :
    NearInv S s₀ wl 0 [] s := by
  have hi := inv_start (wl := wl) h
  obtain ⟨m, h1, h2, -⟩ := hi.sec
  exact ⟨hi.valid, hi.nu, hi.tol, hi.eta, hi.fwEta, hi.fwType, hi.maxIter, hi.le, hi.qlen, hi.len, hi.zero, by omega,
    hi.gamma, m, h1, h2, by omega⟩

omit [Classifier H X ℝ] [BEq H] in
theorem checkSimplex_cases (w : List ℝ) : checkCappedSimplex w 1 = .error .assertion ∨
    (checkCappedSimplex w 1 = .ok () ∧ (∀ p ∈ w, 0 ≤ p) ∧ |w.sum - 1| ≤ 1 / 100000) := by
  unfold checkCappedSimplex checkNu
  split
  · rename_i e he
    left
    split at he
    · cases he
    · cases he; rfl
  · split
    · rename_i h
      exact Or.inr ⟨rfl, fun p hp => (h.2 p hp).1, h.1.le⟩
    · exact Or.inl rfl

/-- What one call of `boost` does, whatever the solver answers. -/
theorem boost_cases_near {S : Examples X ℝ} {s₀ s : MLPBoost H} {wl : WeakLearner ℝ H} {n : Nat} {qs : List (List ℝ)}
    (hi : NearInv S s₀ wl n qs s) {solver : Solver ℝ} (hsolver : solver.Shaped) (noise : Nat → Nat → ℝ)
    (htype : s₀.primary.fwType = .classic ∨ s₀.primary.fwType = .shortStep)
    (htol : 1 / 100000 ≤ s₀.halfTolerance) (hnu : 1 ≤ s₀.nu) (hnu' : s₀.nu ≤ S.length)
    (hbeq : ∀ f h : H, (f == h) = true → ∀ e ∈ S, conf f e.1 = (conf h e.1 : ℝ))
    (hbound : ∀ k d, ∀ e ∈ S, |e.2 * conf (wl k d) e.1| ≤ (1 : ℝ)) :
    (s.maxIter = n ∧ boost solver noise S s wl (n + 1) = .ok { state := s, flow := .brk n, queries := [] }) ∨
    ∃ d, n < s.maxIter ∧ 0 < s.eta ∧ IsExpDist s.eta s₀.nu S (weightedConf s.weights s.hypotheses) d ∧
      ((n = 0 ∧ ∃ s', boost solver noise S s wl (n + 1) = .ok { state := s', flow := .cont, queries := [d] } ∧
          NearInv S s₀ wl (n + 1) (qs ++ [d]) s' ∧ s'.eta = s.eta ∧ s'.hypotheses = [wl 1 d] ∧ s'.weights = [1]) ∨
       (1 ≤ n ∧ bestEdge S wl (qs ++ [d]) - pot s.eta S (weightedConf s.weights s.hypotheses) d / s.eta ≤
            s₀.halfTolerance ∧
          ∃ s', boost solver noise S s wl (n + 1) = .ok { state := s', flow := .brk (n + 1), queries := [d] } ∧
            s'.weights = s.weights ∧ s'.hypotheses = s.hypotheses) ∨
       (1 ≤ n ∧ s₀.halfTolerance <
            bestEdge S wl (qs ++ [d]) - pot s.eta S (weightedConf s.weights s.hypotheses) d / s.eta ∧
          boost solver noise S s wl (n + 1) = .error .assertion) ∨
       (1 ≤ n ∧ s₀.halfTolerance <
            bestEdge S wl (qs ++ [d]) - pot s.eta S (weightedConf s.weights s.hypotheses) d / s.eta ∧
        ∃ s', boost solver noise S s wl (n + 1) = .ok { state := s', flow := .cont, queries := [d] } ∧
          NearInv S s₀ wl (n + 1) (qs ++ [d]) s' ∧ s'.eta = s.eta ∧
          (∀ k ∈ s'.hypotheses, k ∈ s.hypotheses ∨ k = wl (n + 1) d) ∧
          ∃ prim, (∀ e e1, IsExpDist s.eta s₀.nu S (weightedConf s'.weights s'.hypotheses) e →
              IsExpDist s.eta s₀.nu S (weightedConf prim s'.hypotheses) e1 →
              pot s.eta S (weightedConf prim s'.hypotheses) e1 ≤
                pot s.eta S (weightedConf s'.weights s'.hypotheses) e) ∧
            ∃ σ c, 0 ≤ σ ∧ σ ≤ 1 ∧
              (∀ e ∈ S, weightedConf prim s'.hypotheses e.1 =
                (1 - σ) * weightedConf s.weights s.hypotheses e.1 + σ * conf (wl (n + 1) d) e.1) ∧
              (∀ p ∈ S, |p.2 * conf (wl (n + 1) d) p.1 - p.2 * weightedConf s.weights s.hypotheses p.1| ≤ c) ∧
              ((∀ p ∈ S, |p.2 * conf (wl (n + 1) d) p.1 - p.2 * weightedConf s.weights s.hypotheses p.1| ≤
                  2 + 1 / 100000) →
                2 / ((n : ℝ) + 2) * (Spec.edge S d (conf (wl (n + 1) d)) -
                  Spec.edge S d (weightedConf s.weights s.hypotheses)) -
                  (2 + 1 / 100000) ^ 2 / 2 * (2 / ((n : ℝ) + 2)) ^ 2 * s.eta ≤
                σ * (Spec.edge S d (conf (wl (n + 1) d)) -
                  Spec.edge S d (weightedConf s.weights s.hypotheses)) - σ ^ 2 * (s.eta * c ^ 2) / 2))) := by
  have hle := hi.le
  have htol0 : 0 < s₀.halfTolerance := by linarith
  by_cases hmax : s.maxIter < n + 1
  · left
    have hn : s.maxIter = n := by omega
    refine ⟨hn, ?_⟩
    unfold boost
    rw [if_pos hmax, hn]
  right
  obtain ⟨d, hd⟩ := exists_expDist s.eta s₀.nu S (weightedConf s.weights s.hypotheses) hnu hnu'
  have hetapos : 0 < s.eta := by
    rw [hi.eta]
    apply div_pos _ htol0
    by_contra h0
    have h1 : s.maxIter = 0 := by
      rw [hi.maxIter, Nat.ceil_eq_zero]
      apply div_nonpos_of_nonpos_of_nonneg
      · linarith
      · positivity
    omega
  refine ⟨d, by omega, hetapos, hd, ?_⟩
  have hd' : expDistribution s.eta s.nu S s.weights s.hypotheses = .ok d := by
    rw [hi.nu]; exact (expDistribution_iff _ _ _ _ _ _).2 hd
  obtain ⟨hdl, hdc, -, -, -⟩ := hd.capped
  obtain ⟨m, hsec, hm, hmw⟩ := hi.sec
  have hg : min s.gamma (edge S d (wl (n + 1) d)) = bestEdge S wl (qs ++ [d]) := by
    rw [bestEdge_snoc, hi.qlen, hi.gamma, edge_eq_spec]
  have hv : objval S s.eta s.nu s.hypotheses s.weights =
      .ok (pot s.eta S (weightedConf s.weights s.hypotheses) d / s.eta) := by
    rw [hi.nu]; exact objval_ok hd hetapos
  rcases Nat.eq_zero_or_pos n with hn | hn
  · left
    refine ⟨hn, ?_⟩
    subst hn
    have hhs := hi.zero rfl
    have hws : s.weights = [] := by
      have := hi.len; rw [hhs] at this; simpa using this
    obtain ⟨m', h1, h2, h3⟩ := hm.update_any hsolver noise (wl 1 d)
    refine ⟨{ s with gamma := bestEdge S wl (qs ++ [d]), hypotheses := [wl 1 d], weights := [1], secondary := some m' },
      ?_, ?_, rfl, rfl, rfl⟩
    · unfold boost
      rw [if_neg hmax, hd']
      simp only [hsec, Nat.zero_add] at hg ⊢
      rw [h1, hg, hhs, hws]
      rfl
    · rw [hhs] at h2 h3
      exact ⟨hi.valid, hi.nu, hi.tol, hi.eta, hi.fwEta, hi.fwType, hi.maxIter, by simp only []; omega,
        by simp [hi.qlen], rfl, by omega, fun _ => by constructor <;> simp, rfl, m', rfl, h2, fun _ => h3⟩
  right
  set h := wl (n + 1) d with hh
  set F := weightedConf (X := X) s.weights s.hypotheses with hF
  set γ := bestEdge S wl (qs ++ [d]) with hγ
  set v := pot s.eta S F d / s.eta with hvdef
  have hb : boost solver noise S s wl (n + 1) = if γ - v ≤ s.halfTolerance then
      .ok { state := { s with gamma := γ, terminated := n + 1 }, flow := .brk (n + 1), queries := [d] }
    else
      let pos := s.hypotheses.findIdx (fun f => f == h)
      let new := decide (pos = s.hypotheses.length)
      let hs := if new then s.hypotheses ++ [h] else s.hypotheses
      let ws := if new then s.weights ++ [0] else s.weights
      match s.primary.nextIterate (n + 1) S d hs pos ws with
      | .error e => .error e
      | .ok prim =>
        match m.update solver noise S (if new then some h else none) with
        | .error e => .error e
        | .ok (m, seco) =>
          match betterWeight S s.eta s.nu hs prim seco with
          | .error e => .error e
          | .ok w =>
            match checkCappedSimplex w 1 with
            | .error e => .error e
            | .ok () =>
              .ok { state := { s with gamma := γ, hypotheses := hs, weights := w, secondary := some m }
                    flow := .cont, queries := [d] } := by
    conv_lhs => unfold boost
    rw [if_neg hmax, hd']
    simp only [hsec]
    rw [if_neg (by omega), ← hh, hg, hv]
    simp only []
    rfl
  rw [hb]
  by_cases h1 : γ - v ≤ s₀.halfTolerance
  · left
    exact ⟨hn, h1, { s with gamma := γ, terminated := n + 1 }, by rw [hi.tol]; exact if_pos h1, rfl, rfl⟩
  right
  rw [if_neg (by rw [hi.tol]; exact h1)]
  simp only []
  have hGpos : 1 / 100000 < Spec.edge S d (conf h) - Spec.edge S d F := by
    have e1 : γ ≤ Spec.edge S d (conf h) := by
      rw [hγ, bestEdge_snoc, hi.qlen]; exact min_le_right _ _
    have e2 : Spec.edge S d F ≤ v := by
      rw [hvdef, le_div_iff₀ hetapos, mul_comm]; exact edge_le_pot hd
    linarith [not_le.1 h1]
  have hprob := hi.near hn
  have hml := hmw hn
  have hdprob : Spec.IsProb d := ⟨fun p hp => (hdc.1 p hp).1, hdc.2⟩
  have hedge1 : |Spec.edge S d (conf h)| ≤ 1 := specEdge_abs_le S d hdl hdprob _ (hbound _ _)
  have fin : ∀ (hs : List H) (ws : List ℝ) (pos : Nat) (h' : H) (m' : MLP.LPModel), hs[pos]? = some h' →
      (∀ e ∈ S, conf h' e.1 = (conf h e.1 : ℝ)) → |ws.sum - 1| ≤ 1 / 100000 → ws.length = hs.length →
      (∀ x : X, weightedConf ws hs x = F x) →
      MLP.Holds m' S hs s₀.nu s.eta → m'.weights.length = hs.length →
      (∀ k ∈ hs, k ∈ s.hypotheses ∨ k = h) →
      ∀ r, r = (match s.primary.nextIterate (n + 1) S d hs pos ws with
      | .error e => (.error e : Except Panic (BoostOut (MLPBoost H) ℝ))
      | .ok prim =>
        match (.ok (m', m'.weights) : Except Panic (MLP.LPModel × List ℝ)) with
        | .error e => .error e
        | .ok (m, seco) =>
          match betterWeight S s.eta s.nu hs prim seco with
          | .error e => .error e
          | .ok w =>
            match checkCappedSimplex w 1 with
            | .error e => .error e
            | .ok () =>
              .ok { state := { s with gamma := γ, hypotheses := hs, weights := w, secondary := some m }
                    flow := .cont, queries := [d] }) →
      (1 ≤ n ∧ s₀.halfTolerance < γ - v ∧ r = .error .assertion) ∨ (1 ≤ n ∧ s₀.halfTolerance < γ - v ∧
        ∃ s', r = .ok { state := s', flow := .cont, queries := [d] } ∧
          NearInv S s₀ wl (n + 1) (qs ++ [d]) s' ∧ s'.eta = s.eta ∧
          (∀ k ∈ s'.hypotheses, k ∈ s.hypotheses ∨ k = h) ∧
          ∃ prim, (∀ e e1, IsExpDist s.eta s₀.nu S (weightedConf s'.weights s'.hypotheses) e →
              IsExpDist s.eta s₀.nu S (weightedConf prim s'.hypotheses) e1 →
              pot s.eta S (weightedConf prim s'.hypotheses) e1 ≤
                pot s.eta S (weightedConf s'.weights s'.hypotheses) e) ∧
            ∃ σ c, 0 ≤ σ ∧ σ ≤ 1 ∧
              (∀ e ∈ S, weightedConf prim s'.hypotheses e.1 = (1 - σ) * F e.1 + σ * conf h e.1) ∧
              (∀ p ∈ S, |p.2 * conf h p.1 - p.2 * F p.1| ≤ c) ∧
              ((∀ p ∈ S, |p.2 * conf h p.1 - p.2 * F p.1| ≤ 2 + 1 / 100000) →
                2 / ((n : ℝ) + 2) * (Spec.edge S d (conf h) - Spec.edge S d F) -
                    (2 + 1 / 100000) ^ 2 / 2 * (2 / ((n : ℝ) + 2)) ^ 2 * s.eta ≤
                  σ * (Spec.edge S d (conf h) - Spec.edge S d F) - σ ^ 2 * (s.eta * c ^ 2) / 2)) := by
    intro hs ws pos h' m' hp hconf hwp hwl hwF hm' hml' hmem r hr
    have eF : Spec.edge S d (weightedConf (X := X) ws hs) = Spec.edge S d F :=
      specEdge_congr d fun e _ => hwF e.1
    have eh : Spec.edge S d (conf h' : X → ℝ) = Spec.edge S d (conf h) := specEdge_congr d hconf
    obtain ⟨prim, p1, p3, σ, c, p4, p5, p6, p7, p8⟩ := fw_step_near (fw := s.primary) (h := h') (C := 2 + 1 / 100000)
      (by rw [hi.fwType]; exact htype) (by rw [hi.fwEta]; exact hetapos) (by norm_num) hdl hwp hwl hp
      (by rw [eh]; exact hedge1) (by rw [eF, eh]; exact hGpos)
    rw [eF, eh, hi.fwEta] at p8
    obtain ⟨w, b1, b2, b3⟩ := betterWeight_ok hetapos hnu hnu' hs prim m'.weights
    have hw : w.length = hs.length := by
      rcases b2 with rfl | rfl
      · exact p3
      · exact hml'
    rw [p1] at hr
    simp only [] at hr
    rw [show betterWeight S s.eta s.nu hs prim m'.weights = .ok w by rw [hi.nu]; exact b1] at hr
    simp only [] at hr
    rcases checkSimplex_cases w with hc | ⟨hc, hc1, hc2⟩
    · rw [hc] at hr; exact Or.inl ⟨hn, not_le.1 h1, hr⟩
    right
    rw [hc] at hr
    refine ⟨hn, not_le.1 h1, _, hr, ?_, rfl, hmem, prim, ?_, σ, c, p4, p5, ?_, ?_, ?_⟩
    · exact ⟨hi.valid, hi.nu, hi.tol, hi.eta, hi.fwEta, hi.fwType, hi.maxIter, by show n + 1 ≤ s.maxIter; omega,
        by simp [hi.qlen], hw, by omega, fun _ => ⟨hc1, hc2⟩, rfl, m', rfl, hm', fun _ => hml'⟩
    · intro e e1 he he1
      obtain ⟨e2, he2⟩ := exists_expDist s.eta s₀.nu S (weightedConf m'.weights hs) hnu hnu'
      exact (b3 e e1 e2 he he1 he2).1
    · intro e he
      rw [p6 e he, hwF, hconf e he]
    · intro p hp
      have := p7 p hp
      rwa [hwF, hconf p hp] at this
    · intro h2
      apply p8
      intro p hp
      rw [hwF, hconf p hp]; exact h2 p hp
  by_cases hp : s.hypotheses.findIdx (fun f => f == h) = s.hypotheses.length
  · obtain ⟨m', u1, u2, u3⟩ := hm.update_any hsolver noise h
    simp only [hp, decide_true, if_true, u1]
    apply fin (s.hypotheses ++ [h]) (s.weights ++ [0]) s.hypotheses.length h m' (by simp) (fun _ _ => rfl)
    · simpa using hprob.2
    · simp [hi.len]
    · intro x; rw [weightedConf_snoc _ _ _ _ hi.len]; ring
    · exact u2
    · exact u3
    · intro k hk
      rcases List.mem_append.1 hk with h3 | h3
      · exact Or.inl h3
      · exact Or.inr (by simpa using h3)
    · rfl
  · have hlt : s.hypotheses.findIdx (fun f => f == h) < s.hypotheses.length := by
      rcases lt_or_eq_of_le (List.findIdx_le_length (p := fun f => f == h) (xs := s.hypotheses)) with h1 | h1
      · exact h1
      · exact absurd h1 hp
    simp only [hp, decide_false, Bool.false_eq_true, if_false]
    exact fin s.hypotheses s.weights _ (s.hypotheses[s.hypotheses.findIdx (fun f => f == h)]) m (by simp [hlt])
      (hbeq _ _ (List.findIdx_getElem (w := hlt))) hprob.2 hi.len (fun _ => rfl) hm hml (fun k hk => Or.inl hk) _ rfl

end MLPBoost

end Miniboosts
