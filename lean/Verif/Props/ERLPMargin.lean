import Verif.Lemmas.ERLPMargin

/-! # ERLPBoost: the soft margin of the returned vote -/

namespace Miniboosts.Props

open Real Finset LP ERLPBoost ERLP.Stuck

/-- Twenty examples; the first has label `-1`, the others `+1`. -/
def stuckSample : Examples Nat ℝ := (List.range 20).map fun i => (i, if i = 0 then -1 else 1)

/-- Right on all examples, barely on the first two. -/
noncomputable def stuckH1 : Fn Nat ℝ := ⟨fun i => if i = 0 then -(93 / 1000) else if i = 1 then 128 / 1000 else 1⟩

/-- Right on the first two examples only. -/
noncomputable def stuckH2 : Fn Nat ℝ := ⟨fun i => if i = 0 then -(1 / 10) else if i = 1 then 1 / 10 else -1⟩

/-- The weak learner returns whichever of the two has the larger edge. -/
noncomputable def stuckLearner : WeakLearner ℝ (Fn Nat ℝ) := fun _ d =>
  open Classical in
  if Spec.edge stuckSample d (conf stuckH2) ≤ Spec.edge stuckSample d (conf stuckH1) then stuckH1 else stuckH2

theorem stuckSample_length : stuckSample.length = 20 := by simp [stuckSample]

/-- The margins of the two hypotheses. -/
noncomputable def stuckM1 (i : Nat) : ℝ := if i = 0 then 93 / 1000 else if i = 1 then 128 / 1000 else 1
noncomputable def stuckM2 (i : Nat) : ℝ := if i = 0 then 1 / 10 else if i = 1 then 1 / 10 else -1

theorem split20 (f : Nat → ℝ) : ∑ i ∈ range 20, f i = ∑ i ∈ range 18, f (i + 2) + f 1 + f 0 := by
  rw [Finset.sum_range_succ', Finset.sum_range_succ']

theorem stuck_margin (g : Fn Nat ℝ) (M : Nat → ℝ) (h : ∀ i, i < 20 → (if i = 0 then -1 else 1 : ℝ) * g.f i = M i) (d : List ℝ)
    (hd : d.length = 20) : Spec.edge stuckSample d (conf g) = ∑ i ∈ range 20, M i * d.getD i 0 := by
  rw [edge_fun_sum stuckSample d (conf g) (by rw [hd, stuckSample_length]), stuckSample_length]
  apply Finset.sum_congr rfl
  intro i hi
  have hi := mem_range.1 hi
  congr 1
  rw [← h i hi]
  simp [stuckSample, List.getD_eq_getElem?_getD, hi, conf]

theorem stuck_edge1 (d : List ℝ) (hd : d.length = 20) :
    Spec.edge stuckSample d (conf stuckH1) = ∑ i ∈ range 20, stuckM1 i * d.getD i 0 := by
  apply stuck_margin _ _ _ _ hd
  intro i _
  unfold stuckH1 stuckM1
  by_cases h0 : i = 0
  · simp [h0]
  · by_cases h1 : i = 1
    · simp [h1]
    · simp [h0, h1]

theorem stuck_edge2 (d : List ℝ) (hd : d.length = 20) :
    Spec.edge stuckSample d (conf stuckH2) = ∑ i ∈ range 20, stuckM2 i * d.getD i 0 := by
  apply stuck_margin _ _ _ _ hd
  intro i _
  unfold stuckH2 stuckM2
  by_cases h0 : i = 0
  · simp [h0]
  · by_cases h1 : i = 1
    · simp [h1]
    · simp [h0, h1]

theorem stuck_sum1 (d : Nat → ℝ) :
    ∑ i ∈ range 20, stuckM1 i * d i = 93 / 1000 * d 0 + 128 / 1000 * d 1 + ∑ i ∈ range 18, d (i + 2) := by
  rw [split20]
  simp [stuckM1]
  ring

theorem stuck_sum2 (d : Nat → ℝ) :
    ∑ i ∈ range 20, stuckM2 i * d i = 1 / 10 * d 0 + 1 / 10 * d 1 - ∑ i ∈ range 18, d (i + 2) := by
  rw [split20]
  simp [stuckM2]
  ring

/-- Whatever the (probability) weights, the weak learner finds a hypothesis with edge at least `0.09`. -/
theorem stuckLearner_edge (k : Nat) (d : List ℝ) (hd : d.length = 20) (hp : Spec.IsProb d) :
    9 / 100 ≤ Spec.edge stuckSample d (conf (stuckLearner k d)) := by
  have hcap : Spec.IsCapped 1 d := by
    refine ⟨fun p hpp => ⟨hp.1 p hpp, ?_⟩, hp.2⟩
    have := single_le_sum_map d id (by simpa using hp.1) hpp
    simpa [hp.2] using this
  obtain ⟨h1, h2⟩ := prob_getD hd hcap
  rw [split20] at h2
  have e1 := stuck_edge1 d hd
  have e2 := stuck_edge2 d hd
  rw [stuck_sum1] at e1
  rw [stuck_sum2] at e2
  have a0 := (h1 0 (by norm_num)).1
  have a1 := (h1 1 (by norm_num)).1
  have ab : 0 ≤ ∑ i ∈ range 18, d.getD (i + 2) 0 := Finset.sum_nonneg fun i hi => (h1 (i + 2) (by have := mem_range.1 hi; omega)).1
  unfold stuckLearner
  split
  · next h => rw [e1] at h ⊢; rw [e2] at h; linarith
  · next h => rw [e2] at h ⊢; rw [e1] at h; push Not at h; linarith

theorem stuckLearner_bounded (k : Nat) (d : List ℝ) : ∀ e ∈ stuckSample, |e.2 * conf (stuckLearner k d) e.1| ≤ (1 : ℝ) := by
  intro e he
  simp only [stuckSample, List.mem_map, List.mem_range] at he
  obtain ⟨i, hi, rfl⟩ := he
  have h1 : |conf stuckH1 i| ≤ (1 : ℝ) := by
    simp only [conf, stuckH1]; split_ifs <;> norm_num [abs_le]
  have h2 : |conf stuckH2 i| ≤ (1 : ℝ) := by
    simp only [conf, stuckH2]; split_ifs <;> norm_num [abs_le]
  rw [abs_mul]
  have h3 : |(if i = 0 then -1 else 1 : ℝ)| = 1 := by split_ifs <;> simp
  rw [h3, one_mul]
  unfold stuckLearner
  split <;> assumption

theorem stuckSample_valid : checkBinary stuckSample = .ok () := by
  have h0 : ¬ ((0 : ℝ) ≤ -1) := by norm_num
  have h1 : ⌈(-1 : ℝ)⌉ = -1 := by
    have := Int.ceil_intCast (R := ℝ) (-1); simpa using this
  have h2 : stuckSample.map Prod.snd = -1 :: List.replicate 19 1 := by
    simp [stuckSample, List.range_succ_eq_map, List.replicate]
  simp [checkBinary, isValidBinary, h2, stuckSample_length, trunc, asI32, h0, h1]

theorem zeros_getD (n i : Nat) : (List.replicate n (0 : ℝ)).getD i 0 = 0 := by
  rw [List.getD_eq_getElem?_getD, List.getElem?_replicate]
  split <;> rfl

/-- The parameter `η` of the default setting. -/
noncomputable def stuckEta : ℝ := log 20 / (5 / 1000)

theorem stuckEta_bounds : 594 ≤ stuckEta ∧ stuckEta ≤ 606 := by
  have h := log_twenty_bounds
  unfold stuckEta
  constructor
  · rw [le_div_iff₀ (by norm_num)]; linarith [h.1]
  · rw [div_le_iff₀ (by norm_num)]; linarith [h.2]

/-- The model just before the loop. -/
theorem update_holds {H X : Type*} [Classifier H X ℝ] {S : Examples X ℝ} {hs : List H} {nu : ℝ} {m : ERLP.QPModel}
    (hm : ERLP.Holds m S hs nu) (h : H) (solver : Solver ℝ) (fuel : Nat) :
    ∃ m₁, ERLP.QPModel.update solver fuel S m h = ERLP.QPModel.solveLoop solver fuel m₁ 1000 ∧ ERLP.Holds m₁ S (hs ++ [h]) nu ∧
      m₁.dist = List.replicate S.length (1 / (S.length : ℝ)) ∧ m₁.eta = m.eta := by
  refine ⟨_, rfl, ⟨hm.nEx, by simp [hm.nHyp], ?_, hm.cap, by simp [hm.dlen]⟩, ?_, rfl⟩
  · simp only [hm.rows, pushMargins_rowsOf]
  · simp only [List.map_const', hm.dlen, hm.nEx]

/-- The inverse curvature at the uniform distribution. -/
theorem inv_bounds : 33 / 1000 ≤ 1 / ((1 / 20 + ERLP.eps) * stuckEta) ∧ 1 / ((1 / 20 + ERLP.eps) * stuckEta) ≤ 337 / 10000 := by
  have hb := stuckEta_bounds
  have he := ERLP.eps_pos
  have hes : ERLP.eps ≤ 1 / 10 ^ 100 := eps_small
  have h1 : ERLP.eps ≤ 1 / 10 ^ 10 := le_trans hes (by norm_num)
  constructor
  · rw [le_div_iff₀ (by have : 0 < stuckEta := by linarith
                        positivity)]
    nlinarith
  · rw [div_le_iff₀ (by have : 0 < stuckEta := by linarith
                        positivity)]
    nlinarith

/-- Round 1: after the first hypothesis all weight is (almost) on the first example. -/
theorem stuck_round1 {m : ERLP.QPModel} (hm : ERLP.Holds m stuckSample [stuckH1] 1) (heta : m.eta = stuckEta)
    (hdist : m.dist = List.replicate 20 (1 / 20)) {solver : Solver ℝ}
    (hsolver : solver.Correct) (hrep : solver.Reports) (fuel : Nat) (hfuel : 3 ≤ fuel) :
    ∃ m', ERLP.QPModel.solveLoop solver fuel m 1000 = .ok m' ∧ m'.dist.length = 20 ∧ Spec.IsCapped 1 m'.dist ∧
      1 - 1 / 10 ^ 40 ≤ m'.dist.getD 0 0 := by
  have hb := stuckEta_bounds
  have hx := inv_bounds
  have hη : 0 < stuckEta := by linarith
  have he := ERLP.eps_pos
  have hc : 0 < 1 / 20 + ERLP.eps := by positivity
  have hv : ∀ i, i < 20 → (1 :: List.replicate 19 (0 : ℝ)).getD i 0 = if i = 0 then 1 else 0 := by
    intro i hi
    rcases i with _ | i
    · simp
    · rw [List.getD_cons_succ, zeros_getD]; simp
  have hsum : ∀ (M : Nat → ℝ), ∑ i ∈ range 20, M i * (1 :: List.replicate 19 (0 : ℝ)).getD i 0 = M 0 := by
    intro M
    rw [Finset.sum_congr rfl fun i hi => by rw [hv i (mem_range.1 hi)], split20]
    simp
  obtain ⟨m', h1, h2, h3, h4, -⟩ := loop_stuck hm stuckSample_length (by simp) (by linarith) (by linarith) hdist hsolver hrep fuel hfuel
    (1 :: List.replicate 19 0) (by simp) (by
      intro i hi
      rw [hv i hi]
      split
      · right; norm_num
      · left; rfl) (by simp) (by
      rw [Finset.sum_congr rfl fun i hi => by rw [hv i (mem_range.1 hi)], split20]
      simp; norm_num) stuckM1 stuckM1 (93 / 1000)
    (93 / 1000 + (log (1 / 20 + ERLP.eps) + 1 / (1 / 20 + ERLP.eps)) / stuckEta) (93 / 1000)
    (by intro d γ hd h; rw [← stuck_edge1 d hd]; exact h _ (by simp))
    (by intro d γ hd h; rw [← stuck_edge1 d hd]; exact h _ (by simp))
    (by
      intro h hh
      rw [List.mem_singleton.1 hh, stuck_edge1 _ (by simp), hsum]
      simp [stuckM1])
    (by rw [hsum]; simp [stuckM1]) (by rw [hsum]; simp [stuckM1]) (by norm_num)
    (by
      intro i hi
      rw [hv i hi, heta]
      have e1 : (1 / (1 / 20 + ERLP.eps)) / stuckEta = 1 / ((1 / 20 + ERLP.eps) * stuckEta) := by rw [div_div]
      rw [add_div, add_div, e1]
      unfold stuckM1
      split_ifs
      · rw [e1]; linarith
      · rw [zero_div, zero_div]; linarith
      · rw [zero_div, zero_div]; linarith)
    (by
      intro i hi h0
      rw [hv i hi] at h0 ⊢
      have : i = 0 := by by_contra h; simp [h] at h0
      rw [heta, this]
      simp [stuckM1])
    (by
      intro i hi _
      unfold stuckM1
      split_ifs <;> norm_num)
    (by
      intro i hi h0
      rw [hv i hi] at h0 ⊢
      have : i = 0 := by by_contra h; simp [h] at h0
      rw [this]
      simp [stuckM1]) (by norm_num)
  refine ⟨m', h1, h3, h4, ?_⟩
  have := abs_le.1 (h2 0 (by norm_num))
  rw [hv 0 (by norm_num)] at this
  simp only [if_true] at this
  linarith

/-- Round 2: the hypotheses are weighted so that eighteen examples have a margin below `-4/5`. -/
theorem stuck_round2 {m : ERLP.QPModel} (hm : ERLP.Holds m stuckSample [stuckH1, stuckH2] 1) (heta : m.eta = stuckEta)
    (hdist : m.dist = List.replicate 20 (1 / 20)) {solver : Solver ℝ}
    (hsolver : solver.Correct) (hrep : solver.Reports) (fuel : Nat) (hfuel : 3 ≤ fuel) :
    ∃ m' w, ERLP.QPModel.solveLoop solver fuel m 1000 = .ok m' ∧ m'.weights = [w, 1 - w] ∧ 0 ≤ w ∧ w ≤ 1 / 10 := by
  have hb := stuckEta_bounds
  have hx := inv_bounds
  have hη : 0 < stuckEta := by linarith
  have he := ERLP.eps_pos
  have hes : ERLP.eps ≤ 1 / 10 ^ 100 := eps_small
  have hc : 0 < 1 / 20 + ERLP.eps := by positivity
  set x := 1 / ((1 / 20 + ERLP.eps) * stuckEta) with hxdef
  have hv : ∀ (a b : ℝ) (i : Nat), i < 20 → (a :: b :: List.replicate 18 (0 : ℝ)).getD i 0 = if i = 0 then a else if i = 1 then b else 0 := by
    intro a b i hi
    rcases i with _ | _ | i
    · simp
    · simp
    · rw [List.getD_cons_succ, List.getD_cons_succ, zeros_getD]; simp
  have hsum : ∀ (M : Nat → ℝ) (a b : ℝ), ∑ i ∈ range 20, M i * (a :: b :: List.replicate 18 (0 : ℝ)).getD i 0 = M 0 * a + M 1 * b := by
    intro M a b
    rw [Finset.sum_congr rfl fun i hi => by rw [hv a b i (mem_range.1 hi)], split20]
    simp
    ring
  have hsplit : log (4 / 5) - log (1 / 5) = 2 * log 2 := by
    rw [← log_div (by norm_num) (by norm_num), show (4 / 5 : ℝ) / (1 / 5) = 2 ^ 2 by norm_num, log_pow]
    norm_num
  have hl2 := log_two_lt_d9
  have hl2' := log_two_gt_d9
  -- the two mixtures
  set w₁ : ℝ := 600 / 35 * x with hw1
  set w₂ : ℝ := 2 * log 2 / (35 / 1000 * stuckEta) with hw2
  have hw1b : 0 ≤ w₁ ∧ w₁ ≤ 1 := by rw [hw1]; constructor <;> linarith [hx.1, hx.2]
  have hw2b : 0 ≤ w₂ ∧ w₂ ≤ 1 := by
    rw [hw2]
    constructor
    · have := log_pos (show (1 : ℝ) < 2 by norm_num); positivity
    · rw [div_le_one (by positivity)]; linarith
  have hw2e : 35 / 1000 * w₂ = 2 * log 2 / stuckEta := by
    rw [hw2]; field_simp
  have hmix : ∀ w : ℝ, 0 ≤ w → w ≤ 1 → ∀ (d : List ℝ) (γ : ℝ), d.length = 20 →
      (∀ h ∈ [stuckH1, stuckH2], Spec.edge stuckSample d (conf h) ≤ γ) →
      ∑ i ∈ range 20, (w * stuckM1 i + (1 - w) * stuckM2 i) * d.getD i 0 ≤ γ := by
    intro w h0 h1 d γ hd h
    have e1 := h stuckH1 (by simp)
    have e2 := h stuckH2 (by simp)
    rw [stuck_edge1 d hd] at e1
    rw [stuck_edge2 d hd] at e2
    have : ∑ i ∈ range 20, (w * stuckM1 i + (1 - w) * stuckM2 i) * d.getD i 0 =
        w * ∑ i ∈ range 20, stuckM1 i * d.getD i 0 + (1 - w) * ∑ i ∈ range 20, stuckM2 i * d.getD i 0 := by
      rw [Finset.mul_sum, Finset.mul_sum, ← Finset.sum_add_distrib]
      apply Finset.sum_congr rfl
      intro i _
      ring
    rw [this]
    nlinarith
  have hgm : ∀ w : ℝ, ∑ i ∈ range 20, (w * stuckM1 i + (1 - w) * stuckM2 i) * (4 / 5 :: 1 / 5 :: List.replicate 18 (0 : ℝ)).getD i 0 = 1 / 10 := by
    intro w
    rw [hsum]
    simp [stuckM1, stuckM2]
    ring
  obtain ⟨m', h1, h2, h3, h4, h5, h6, h7⟩ := loop_stuck hm stuckSample_length (by simp) (by linarith) (by linarith) hdist hsolver hrep fuel hfuel
    (4 / 5 :: 1 / 5 :: List.replicate 18 0) (by simp) (by
      intro i hi
      rw [hv _ _ i hi]
      split_ifs
      · right; norm_num
      · right; norm_num
      · left; rfl) (by simp; norm_num) (by
      rw [Finset.sum_congr rfl fun i hi => by rw [hv _ _ i (mem_range.1 hi)], split20]
      simp; norm_num) (fun i => w₁ * stuckM1 i + (1 - w₁) * stuckM2 i) (fun i => w₂ * stuckM1 i + (1 - w₂) * stuckM2 i)
    (1 / 10 - 7 / 1000 * w₂ + log (4 / 5) / stuckEta)
    (1 / 10 - 7 / 1000 * w₁ + (log (1 / 20 + ERLP.eps) / stuckEta + 4 / 5 * x)) (1 / 10)
    (hmix w₁ hw1b.1 hw1b.2) (hmix w₂ hw2b.1 hw2b.2)
    (by
      intro h hh
      simp only [List.mem_cons, List.not_mem_nil, or_false] at hh
      rcases hh with rfl | rfl
      · rw [stuck_edge1 _ (by simp), hsum]; simp [stuckM1]; norm_num
      · rw [stuck_edge2 _ (by simp), hsum]; simp [stuckM2]; norm_num)
    (hgm w₁) (hgm w₂) (by norm_num)
    (by
      intro i hi
      rw [hv _ _ i hi, heta]
      have e1 : ∀ t : ℝ, t / (1 / 20 + ERLP.eps) / stuckEta = t * x := by intro t; rw [hxdef]; field_simp
      rw [add_div, e1]
      unfold stuckM1 stuckM2
      split_ifs
      · apply le_of_eq; ring
      · apply le_of_eq; rw [hw1]; ring
      · rw [hw1]; linarith [hx.1])
    (by
      intro i hi h0
      rw [hv _ _ i hi] at h0 ⊢
      rw [heta]
      have e1 : ∀ t : ℝ, t / (1 / 20 + ERLP.eps) / stuckEta = t * x := by intro t; rw [hxdef]; field_simp
      rw [add_div, e1]
      unfold stuckM1 stuckM2
      split_ifs with c1 c2
      · ring
      · rw [hw1]; ring
      · simp [c1, c2] at h0)
    (by
      intro i hi h0
      unfold stuckM1 stuckM2
      split_ifs <;> linarith [hw2b.1, hw2b.2])
    (by
      intro i hi h0
      rw [hv _ _ i hi] at h0 ⊢
      rw [heta]
      unfold stuckM1 stuckM2
      split_ifs with c1 c2
      · ring
      · have : log (4 / 5) / stuckEta - log (1 / 5) / stuckEta = 2 * log 2 / stuckEta := by rw [← sub_div, hsplit]
        linarith
      · simp [c1, c2] at h0)
    (by
      have : log (4 / 5) / stuckEta ≤ 0 := div_nonpos_of_nonpos_of_nonneg (log_nonpos (by norm_num) (by norm_num)) hη.le
      linarith [hw2b.1])
  rw [heta] at h7
  -- the weights
  obtain ⟨w, w', hww⟩ : ∃ w w', m'.weights = [w, w'] := by
    match hmw : m'.weights, h5 with
    | [w, w'], _ => exact ⟨w, w', rfl⟩
  rw [hww] at h6 h7
  have hws : w + w' = 1 := by have := h6.2; simpa using this
  have hw0 : 0 ≤ w := h6.1 w (by simp)
  refine ⟨m', w, h1, by rw [hww, ← hws]; congr 2; ring, hw0, ?_⟩
  have h := h7 (9 / 10 :: 1 / 10 :: List.replicate 18 0) (by simp) ⟨by
    intro p hp
    simp only [List.mem_cons, List.mem_replicate] at hp
    rcases hp with rfl | rfl | ⟨-, rfl⟩ <;> norm_num, by simp; norm_num⟩
  rw [pair_edge _ _ _ _ (by simp)] at h
  simp only [List.zip_cons_cons, List.zip_nil_right, List.map_cons, List.map_nil, List.sum_cons, List.sum_nil, add_zero] at h
  rw [stuck_edge1 _ (by simp), stuck_edge2 _ (by simp), hsum, hsum] at h
  have hpen : pen stuckEta (fun i => (4 / 5 :: 1 / 5 :: List.replicate 18 (0 : ℝ)).getD i 0)
      (fun i => (9 / 10 :: 1 / 10 :: List.replicate 18 (0 : ℝ)).getD i 0) ≤
      (9 / 10 * log (4 / 5) + 1 / 10 * log (1 / 5) + 54 / 100) / stuckEta := by
    unfold pen
    rw [Finset.sum_congr rfl fun i hi => by
      beta_reduce
      rw [hv (4 / 5) (1 / 5) i (mem_range.1 hi), hv (9 / 10) (1 / 10) i (mem_range.1 hi)], split20]
    simp only [Nat.add_eq_zero_iff, OfNat.ofNat_ne_zero, and_false, if_false, Nat.reduceEqDiff, mul_zero, ne_eq,
      not_false_eq_true, zero_pow, zero_div, add_zero, Finset.sum_const_zero, zero_add, one_ne_zero, if_true]
    have a : ∀ t : ℝ, 1 / 5 ≤ t → log (t + ERLP.eps) ≤ log t + 1 / 1000 := by
      intro t ht
      have h := log_le_sub_one_of_pos (x := (t + ERLP.eps) / t) (by positivity)
      rw [log_div (by positivity) (by linarith)] at h
      have e : (t + ERLP.eps) / t - 1 ≤ 1 / 1000 := by
        rw [sub_le_iff_le_add, div_le_iff₀ (by linarith)]
        have : ERLP.eps ≤ 1 / 10 ^ 10 := le_trans hes (by norm_num)
        nlinarith
      linarith
    have b : ∀ t y : ℝ, 1 / 5 ≤ t → 1 / ((t + ERLP.eps) * stuckEta) * y ^ 2 / 2 ≤ (y ^ 2 / (2 * t)) / stuckEta := by
      intro t y ht
      have e : 1 / ((t + ERLP.eps) * stuckEta) * y ^ 2 / 2 = (y ^ 2 / (2 * (t + ERLP.eps))) / stuckEta := by field_simp
      rw [e]
      apply div_le_div_of_nonneg_right _ hη.le
      apply div_le_div_of_nonneg_left (sq_nonneg _) (by linarith) (by linarith)
    have c : ∀ t y : ℝ, 1 / 5 ≤ t → 0 ≤ y → log (t + ERLP.eps) / stuckEta * y ≤ ((log t + 1 / 1000) * y) / stuckEta := by
      intro t y ht hy
      rw [div_mul_eq_mul_div]
      exact div_le_div_of_nonneg_right (mul_le_mul_of_nonneg_right (a t ht) hy) hη.le
    have b1 := b (4 / 5) (9 / 10) (by norm_num)
    have b2 := b (1 / 5) (1 / 10) (by norm_num)
    have c1 := c (4 / 5) (9 / 10) (by norm_num) (by norm_num)
    have c2 := c (1 / 5) (1 / 10) (by norm_num) (by norm_num)
    refine le_trans (add_le_add (add_le_add c2 b2) (add_le_add c1 b1)) ?_
    rw [← add_div, ← add_div, ← add_div]
    apply div_le_div_of_nonneg_right _ hη.le
    norm_num
    linarith
  have hfin : 35 / 10000 * w ≤ (1 / 10 * (2 * log 2) + 4 / 100) / stuckEta + 1 / 10 ^ 50 := by
    have e1 : 7 / 1000 * w₂ = (1 / 5 * (2 * log 2)) / stuckEta := by
      have : 7 / 1000 * w₂ = 1 / 5 * (35 / 1000 * w₂) := by ring
      rw [this, hw2e]; ring
    rw [e1] at h
    have e2 : (1 / 10 * (2 * log 2) + 4 / 100) / stuckEta = (9 / 10 * log (4 / 5) + 1 / 10 * log (1 / 5) + 54 / 100) / stuckEta -
        (log (4 / 5) / stuckEta - (1 / 5 * (2 * log 2)) / stuckEta + 1 / (2 * stuckEta)) := by
      rw [← hsplit]
      field_simp
      ring
    rw [e2]
    rw [show stuckM1 0 = 93 / 1000 by simp [stuckM1], show stuckM1 1 = 128 / 1000 by simp [stuckM1],
      show stuckM2 0 = 1 / 10 by simp [stuckM2], show stuckM2 1 = 1 / 10 by simp [stuckM2]] at h
    have e3 : w' = 1 - w := by linarith
    rw [e3] at h
    linarith
  have hq : (1 / 10 * (2 * log 2) + 4 / 100) / stuckEta ≤ 34 / 100000 := by
    rw [div_le_iff₀ hη]
    nlinarith
  have : (1 : ℝ) / 10 ^ 50 ≤ 1 / 10 ^ 10 := by norm_num
  norm_num at this hfin hq ⊢
  linarith

/-- What `ERLPBoost::init` builds for this sample: all parameters have their default values. -/
noncomputable def stuckStart : ERLPBoost (Fn Nat ℝ) :=
  { dist := [], gammaHat := 1, gammaStar := 0, eta := max (1 / 2) (log ((20 : Nat) : ℝ) / (5 / 1000)),
    halfTolerance := 5 / 1000, qpModel := none, hypotheses := [], weights := [], nSample := 20, nu := 1,
    terminated := 2 ^ 64 - 1, maxIter := 2 ^ 64 - 1 }

theorem stuckStart_init : ERLPBoost.init stuckSample = .ok stuckStart := by
  unfold ERLPBoost.init
  rw [stuckSample_length]
  rfl

theorem stuck_erlpEta : erlpEta stuckSample stuckStart = stuckEta := by
  have h := stuckEta_bounds
  unfold erlpEta
  rw [stuckSample_length]
  have : log (((20 : Nat) : ℝ) / stuckStart.nu) / stuckStart.halfTolerance = stuckEta := by
    simp [stuckStart, stuckEta]
  rw [this]
  exact max_eq_right (by linarith)

theorem stuck_uniform : List.replicate stuckSample.length (1 / (stuckSample.length : ℝ)) = List.replicate 20 (1 / 20) := by
  rw [stuckSample_length]; norm_num

/-- At the uniform distribution the first hypothesis wins. -/
theorem stuckLearner_uniform (k : Nat) : stuckLearner k (List.replicate 20 (1 / 20)) = stuckH1 ∧
    1 / 2 ≤ Spec.edge stuckSample (List.replicate 20 (1 / 20)) (conf stuckH1) := by
  have hu : ∀ i, i < 20 → (List.replicate 20 (1 / 20 : ℝ)).getD i 0 = 1 / 20 := by
    intro i hi
    rw [List.getD_eq_getElem?_getD, List.getElem?_replicate, if_pos hi]; rfl
  have e1 : Spec.edge stuckSample (List.replicate 20 (1 / 20)) (conf stuckH1) = 18221 / 20000 := by
    rw [stuck_edge1 _ (by simp), Finset.sum_congr rfl fun i hi => by rw [hu i (mem_range.1 hi)], stuck_sum1 (fun _ => 1 / 20)]
    simp; norm_num
  have e2 : Spec.edge stuckSample (List.replicate 20 (1 / 20)) (conf stuckH2) = -(178 / 200) := by
    rw [stuck_edge2 _ (by simp), Finset.sum_congr rfl fun i hi => by rw [hu i (mem_range.1 hi)], stuck_sum2 (fun _ => 1 / 20)]
    simp; norm_num
  unfold stuckLearner
  rw [e1, e2]
  norm_num

/-- When almost all weight is on the first example, the second hypothesis wins, by more than half the tolerance. -/
theorem stuckLearner_first (k : Nat) (d : List ℝ) (hd : d.length = 20) (hc : Spec.IsCapped 1 d) (h0 : 1 - 1 / 10 ^ 40 ≤ d.getD 0 0) :
    stuckLearner k d = stuckH2 ∧ Spec.edge stuckSample d (conf stuckH1) ≤ 1 / 10 ∧
      Spec.edge stuckSample d (conf stuckH1) + 6 / 1000 ≤ Spec.edge stuckSample d (conf stuckH2) := by
  obtain ⟨h1, h2⟩ := prob_getD hd hc
  rw [split20] at h2
  have a1 := (h1 1 (by norm_num)).1
  have a0 := (h1 0 (by norm_num)).2
  have ab : 0 ≤ ∑ i ∈ range 18, d.getD (i + 2) 0 := Finset.sum_nonneg fun i hi => (h1 (i + 2) (by have := mem_range.1 hi; omega)).1
  have hs : (1 : ℝ) / 10 ^ 40 ≤ 1 / 10 ^ 6 := by norm_num
  have hm : 1 - 1 / 10 ^ 6 ≤ d.getD 0 0 := by linarith
  have e1 : Spec.edge stuckSample d (conf stuckH1) = _ := stuck_edge1 d hd
  have e2 : Spec.edge stuckSample d (conf stuckH2) = _ := stuck_edge2 d hd
  rw [stuck_sum1] at e1
  rw [stuck_sum2] at e2
  have key : Spec.edge stuckSample d (conf stuckH1) + 6 / 1000 ≤ Spec.edge stuckSample d (conf stuckH2) := by
    rw [e1, e2]; norm_num at hm; linarith
  refine ⟨?_, ?_, key⟩
  · unfold stuckLearner
    rw [if_neg (by linarith)]
  · rw [e1]; norm_num at hm; linarith

section run

variable {solver : Solver ℝ} {fuel : Nat}

/-- After the first round. -/
theorem stuck_reach1 (hsolver : solver.Correct) (hrep : solver.Reports) (hfuel : 3 ≤ fuel) {qs : List (List ℝ)}
    {s : ERLPBoost (Fn Nat ℝ)} (hr : (ERLPBoost.booster solver fuel stuckSample).Reachable stuckLearner stuckStart 1 qs s) :
    s.hypotheses = [stuckH1] ∧ 1 - 1 / 10 ^ 40 ≤ s.dist.getD 0 0 ∧ qs = [List.replicate 20 (1 / 20)] := by
  have hn : stuckStart.nSample = stuckSample.length := by rw [stuckSample_length]; rfl
  cases hr with
  | @step _ qs s₁ out hr hb hf =>
    have hi := er_inv hn hr
    obtain ⟨i1, i2, m, i3, i4, i5⟩ := er_holds hn hsolver hr
    have hnil : s₁.hypotheses = [] := List.length_eq_zero_iff.1 hi.hlen
    have hq : qs = [] := List.length_eq_zero_iff.1 hi.qlen
    have hu : s₁.dist = List.replicate 20 (1 / 20) := by rw [hi.uni rfl, stuck_uniform]
    rcases er_step hi stuckLearner hb with ⟨-, h, -⟩ | ⟨h1, h2, h3, ⟨h, -⟩ | ⟨-, h4, h5, m₀, m', h6, h7, h8, h9⟩⟩
    · rw [h] at hf; cases hf
    · rw [h] at hf; cases hf
    rw [hu, (stuckLearner_uniform _).1] at h5 h7
    rw [hnil] at i4 h5
    rw [i3, Option.some.injEq] at h6
    subst h6
    obtain ⟨m₁, u1, u2, u3, u4⟩ := update_holds i4 stuckH1 solver fuel
    obtain ⟨m'', v1, v2, v3, v4⟩ := stuck_round1 u2 (by rw [u4, i5, stuck_erlpEta]) (by rw [u3, stuck_uniform]) hsolver hrep fuel hfuel
    rw [h7, v1, Except.ok.injEq] at u1
    subst u1
    refine ⟨h5, by rw [h9]; exact v4, by rw [hq, h2, hu]; rfl⟩

/-- After the second round. -/
theorem stuck_reach2 (hsolver : solver.Correct) (hrep : solver.Reports) (hfuel : 3 ≤ fuel) {qs : List (List ℝ)}
    {s : ERLPBoost (Fn Nat ℝ)} (hr : (ERLPBoost.booster solver fuel stuckSample).Reachable stuckLearner stuckStart 2 qs s) :
    s.hypotheses = [stuckH1, stuckH2] ∧ ∃ m w, s.qpModel = some m ∧ m.weights = [w, 1 - w] ∧ 0 ≤ w ∧ w ≤ 1 / 10 := by
  have hn : stuckStart.nSample = stuckSample.length := by rw [stuckSample_length]; rfl
  cases hr with
  | @step _ qs s₁ out hr hb hf =>
    have hi := er_inv hn hr
    obtain ⟨i1, i2, m, i3, i4, i5⟩ := er_holds hn hsolver hr
    obtain ⟨r1, r2, -⟩ := stuck_reach1 hsolver hrep hfuel hr
    rw [stuckSample_length] at i1
    have hw := (stuckLearner_first (1 + 1) s₁.dist i1 i2 r2).1
    rcases er_step hi stuckLearner hb with ⟨-, h, -⟩ | ⟨h1, h2, h3, ⟨h, -⟩ | ⟨-, h4, h5, m₀, m', h6, h7, h8, h9⟩⟩
    · rw [h] at hf; cases hf
    · rw [h] at hf; cases hf
    rw [hw] at h5 h7
    rw [r1] at i4 h5
    rw [i3, Option.some.injEq] at h6
    subst h6
    obtain ⟨m₁, u1, u2, u3, u4⟩ := update_holds i4 stuckH2 solver fuel
    obtain ⟨m'', w, v1, v2, v3, v4⟩ := stuck_round2 u2 (by rw [u4, i5, stuck_erlpEta]) (by rw [u3, stuck_uniform]) hsolver hrep fuel hfuel
    rw [h7, v1, Except.ok.injEq] at u1
    subst u1
    exact ⟨h5, m', w, h8, v2, v3, v4⟩

theorem stuck_limit : 3 < erlpLimit stuckSample stuckStart := by
  unfold erlpLimit
  rw [Nat.lt_ceil]
  refine lt_of_lt_of_le ?_ (le_max_left _ _)
  norm_num [stuckStart]

/-- The second round does not stop, the third does. -/
theorem stuck_rounds (hsolver : solver.Correct) (hrep : solver.Reports) (hfuel : 3 ≤ fuel) {n : Nat} {qs : List (List ℝ)}
    {s : ERLPBoost (Fn Nat ℝ)} (hr : (ERLPBoost.booster solver fuel stuckSample).Reachable stuckLearner stuckStart n qs s) :
    n ≤ 2 ∧ ∀ out, (ERLPBoost.booster solver fuel stuckSample).boost s stuckLearner (n + 1) = .ok out →
      ((∃ k, out.flow = .brk k) ↔ n = 2) := by
  have hn : stuckStart.nSample = stuckSample.length := by rw [stuckSample_length]; rfl
  have hη := stuckEta_bounds
  have hη0 : 0 < stuckEta := by linarith
  have hlog : ((log 20) / stuckEta) = 5 / 1000 := by
    unfold stuckEta
    have := log_twenty_bounds.1
    field_simp
  have hse : ∀ (d : List ℝ) (g : Nat → ℝ), d.length = 20 → Spec.IsCapped 1 d →
      Spec.edge stuckSample d g ≤ Spec.smoothedEdge stuckSample stuckEta d g ∧
      Spec.smoothedEdge stuckSample stuckEta d g ≤ Spec.edge stuckSample d g + 5 / 1000 := by
    intro d g hl hc
    have hb := entropyFromUni_bounds d ⟨fun p hp => (hc.1 p hp).1, hc.2⟩
    unfold Spec.smoothedEdge
    rw [← entropyFromUni_spec]
    rw [hl] at hb
    constructor
    · have := div_nonneg hb.1 hη0.le; linarith
    · have := div_le_div_of_nonneg_right hb.2.2 hη0.le
      rw [show ((20 : Nat) : ℝ) = 20 by norm_num, hlog] at this
      linarith
  have hucap : Spec.IsCapped 1 (List.replicate 20 (1 / 20 : ℝ)) := by
    refine ⟨fun p hp => ?_, by rw [List.sum_replicate]; norm_num⟩
    rw [List.eq_of_mem_replicate hp]; norm_num
  have stops : ∀ {n qs s}, (ERLPBoost.booster solver fuel stuckSample).Reachable stuckLearner stuckStart n qs s → n ≤ 2 →
      ∀ out, (ERLPBoost.booster solver fuel stuckSample).boost s stuckLearner (n + 1) = .ok out →
      ((∃ k, out.flow = .brk k) ↔ n = 2) := by
    intro n qs s hr hn2 out hb
    have hi := er_inv hn hr
    have hlim := stuck_limit
    obtain ⟨s1, -, s3, s4, s5⟩ := erlp_stopping stuckSample stuckStart hn solver fuel stuckLearner n qs s hr out hb
    have hq : out.queries ≠ [] := by intro h; rw [s4] at h; omega
    obtain ⟨-, s6⟩ := s5 hq
    rw [stuck_erlpEta] at s6
    have htol : stuckStart.halfTolerance = 5 / 1000 := rfl
    rw [s3, htol]
    obtain ⟨i1, i2, -⟩ := er_holds hn hsolver hr
    rw [stuckSample_length] at i1
    have hnl : n ≠ erlpLimit stuckSample stuckStart := by omega
    simp only [hnl, false_or]
    rcases Nat.lt_or_ge n 2 with h | h
    · have hne : n ≠ 2 := by omega
      simp only [hne, iff_false, not_le]
      interval_cases n
      · -- round 1
        rw [hi.star0 rfl, s6]
        have hu : s.dist = List.replicate 20 (1 / 20) := by rw [hi.uni rfl, stuck_uniform]
        have hh : s.gammaHat = 1 := by
          have := hi.hat_mem
          rw [List.length_eq_zero_iff.1 hi.hlen] at this
          simpa [smoothedEdges] using this
        rw [hh, hu, (stuckLearner_uniform _).1]
        have h1 := (stuckLearner_uniform 0).2
        have h2 := (hse (List.replicate 20 (1 / 20)) (conf stuckH1) (by simp) hucap).1
        rcases min_choice (1 : ℝ) (Spec.smoothedEdge stuckSample stuckEta (List.replicate 20 (1 / 20)) (conf stuckH1)) with hm | hm
        · rw [hm]; norm_num
        · rw [hm]; linarith
      · -- round 2
        obtain ⟨r1, r2, r3⟩ := stuck_reach1 hsolver hrep hfuel hr
        obtain ⟨f1, f2, f3⟩ := stuckLearner_first (1 + 1) s.dist i1 i2 r2
        obtain ⟨-, h, hh, hst⟩ := hi.star1 (by norm_num)
        rw [r1, List.mem_singleton] at hh
        rw [hh, stuck_erlpEta] at hst
        rw [s6, hst, f1]
        have b1 := hse s.dist (conf stuckH1) i1 i2
        have b2 : Spec.smoothedEdge stuckSample stuckEta s.dist (conf stuckH2) - Spec.smoothedEdge stuckSample stuckEta s.dist (conf stuckH1) =
            Spec.edge stuckSample s.dist (conf stuckH2) - Spec.edge stuckSample s.dist (conf stuckH1) := by
          unfold Spec.smoothedEdge; ring
        have hhat := hi.hat_mem
        rw [r1, r3, stuck_erlpEta] at hhat
        simp only [smoothedEdges, List.zipWith_cons_cons, List.zipWith_nil_left, List.mem_cons, List.not_mem_nil, or_false] at hhat
        have hhat' : 1 / 2 ≤ s.gammaHat := by
          rcases hhat with h | h
          · rw [h]; norm_num
          · rw [h]
            exact le_trans (stuckLearner_uniform 0).2 (hse _ (conf stuckH1) (by simp) hucap).1
        rcases min_choice s.gammaHat (Spec.smoothedEdge stuckSample stuckEta s.dist (conf stuckH2)) with hm | hm
        · rw [hm]; linarith [b1.2]
        · rw [hm]; linarith
    · have hn2' : n = 2 := by omega
      subst hn2'
      simp only [iff_true]
      obtain ⟨r1, -⟩ := stuck_reach2 hsolver hrep hfuel hr
      have hstar := (hi.star1 (by norm_num)).1
      rw [r1, stuck_erlpEta] at hstar
      have : Spec.smoothedEdge stuckSample stuckEta s.dist (conf (stuckLearner (2 + 1) s.dist)) ≤ s.gammaStar := by
        unfold stuckLearner
        split
        · exact hstar _ (by simp)
        · exact hstar _ (by simp)
      rw [s6]
      have := min_le_right s.gammaHat (Spec.smoothedEdge stuckSample stuckEta s.dist (conf (stuckLearner (2 + 1) s.dist)))
      linarith
  have hle : ∀ {n qs s}, (ERLPBoost.booster solver fuel stuckSample).Reachable stuckLearner stuckStart n qs s → n ≤ 2 := by
    intro n qs s hr
    induction hr with
    | start _ => omega
    | @step n qs s₁ out hr hb hf ih =>
      rcases Nat.lt_or_ge n 2 with h | h
      · omega
      · obtain ⟨k, hk⟩ := (stops hr ih out hb).2 (by omega)
        rw [hk] at hf; cases hf
  exact ⟨hle hr, stops hr (hle hr)⟩

end run

/-- C79, a disagreement: ERLPBoost with its default parameters (`ν = 1`, tolerance `0.01`), a solver that is always
right, and a weak learner that finds, for all probability weights, a hypothesis with edge at least `0.09`, returns on
this sample of twenty examples a vote that is wrong on eighteen of them, each with a margin below `-0.8`.
The documented guarantee is a soft margin of at least `0.09 - 0.01` (with `ν = 1`, so every margin). -/
theorem erlp_soft_margin_false :
    ERLPBoost.init stuckSample = .ok stuckStart ∧ stuckStart.nu = 1 ∧ stuckStart.halfTolerance = 5 / 1000 ∧
    (∀ k d, d.length = stuckSample.length → Spec.IsProb d → 9 / 100 ≤ Spec.edge stuckSample d (conf (stuckLearner k d))) ∧
    (∀ k d, ∀ e ∈ stuckSample, |e.2 * conf (stuckLearner k d) e.1| ≤ (1 : ℝ)) ∧
    ∀ solver : Solver ℝ, solver.Correct → solver.Reports → ∀ fuel, ERLP.enough stuckSample.length ≤ fuel →
      ∃ f qs, (ERLPBoost.booster solver fuel stuckSample).run stuckLearner (erlpLimit stuckSample stuckStart + 1) stuckStart =
          some (.ok (f, qs)) ∧
        ¬ Spec.SoftMarginGe stuckSample 1 (conf f) (9 / 100 - 2 * (5 / 1000)) ∧
        Spec.errors stuckSample (predict (K := ℝ) f) = 18 ∧
        ∀ e ∈ stuckSample, 2 ≤ e.1 → e.2 * conf f e.1 ≤ -(4 / 5 : ℝ) := by
  refine ⟨stuckStart_init, rfl, rfl, ?_, stuckLearner_bounded, ?_⟩
  · intro k d hl hp
    exact stuckLearner_edge k d (by rw [hl, stuckSample_length]) hp
  intro solver hsolver hrep fuel hfuel
  have hn : stuckStart.nSample = stuckSample.length := by rw [stuckSample_length]; rfl
  have hf3 : 3 ≤ fuel := by
    have : 3 ≤ ERLP.enough stuckSample.length := by rw [stuckSample_length]; unfold ERLP.enough; norm_num
    omega
  obtain ⟨f, qs, hrun, hfp, -⟩ := erlp_returns stuckSample stuckStart hn stuckSample_valid (by norm_num [stuckStart]) (by norm_num [stuckStart])
    (by norm_num [stuckStart]) (by rw [stuckSample_length]; norm_num [stuckStart]) solver hsolver hrep fuel hfuel stuckLearner
    stuckLearner_bounded (by
      intro d hl hc
      have := stuckLearner_edge 1 d (by rw [hl, stuckSample_length]) ⟨fun p hp => (hc.1 p hp).1, hc.2⟩
      have h2 : stuckStart.halfTolerance = 5 / 1000 := rfl
      rw [h2]; linarith)
  refine ⟨f, qs, hrun, ?_⟩
  obtain ⟨n, qs', s, out, k, h1, h2, h3, h4, h5, h6⟩ := (ERLPBoost.booster solver fuel stuckSample).run_spec stuckLearner stuckStart hrun
  obtain ⟨-, hst⟩ := stuck_rounds hsolver hrep hf3 h1
  have hn2 := (hst out h3).1 ⟨k, h4⟩
  subst hn2
  obtain ⟨r1, m, w, r2, r3, r4, r5⟩ := stuck_reach2 hsolver hrep hf3 h1
  have hi := er_inv hn h1
  obtain ⟨q1, q2⟩ : out.state.hypotheses = s.hypotheses ∧ out.state.qpModel = s.qpModel := by
    rcases er_step hi stuckLearner h3 with ⟨-, -, -, g1⟩ | ⟨-, -, g2, ⟨-, -, g3, g4⟩ | ⟨g1, -⟩⟩
    · rw [g1]; exact ⟨rfl, rfl⟩
    · exact ⟨g3, g4⟩
    · rw [g1] at h4; cases h4
  obtain ⟨f', hf', hconf, -⟩ := fromSlices_prob (X := Nat) [w, 1 - w] [stuckH1, stuckH2] rfl ⟨by
    intro p hp
    simp only [List.mem_cons, List.not_mem_nil, or_false] at hp
    rcases hp with rfl | rfl <;> linarith, by simp⟩
  have hff : f = f' := by
    have : (ERLPBoost.booster solver fuel stuckSample).postprocess out.state = .ok f' := by
      simp only [ERLPBoost.booster, ERLPBoost.postprocess, q2, r2, r3, q1, r1]; exact hf'
    rw [this, Except.ok.injEq] at h6
    exact h6.symm
  subst hff
  have hc : ∀ i : Nat, (conf f i : ℝ) = w * stuckH1.f i + (1 - w) * stuckH2.f i := by
    intro i
    rw [hconf, weightedConf_eq_vote]
    simp [Spec.vote, conf]
  have hbad : ∀ i : Nat, 2 ≤ i → (conf f i : ℝ) ≤ -(4 / 5) := by
    intro i h2
    rw [hc]
    simp only [stuckH1, stuckH2, show i ≠ 0 by omega, show i ≠ 1 by omega, if_false]
    linarith
  refine ⟨?_, ?_, ?_⟩
  · intro hsm
    have h := hsm (0 :: 0 :: 1 :: List.replicate 17 0) (by rw [stuckSample_length]; simp) ⟨by
      intro p hp
      simp only [List.mem_cons, List.mem_replicate] at hp
      rcases hp with rfl | rfl | rfl | ⟨-, rfl⟩ <;> norm_num, by simp⟩
    have he : Spec.edge stuckSample (0 :: 0 :: 1 :: List.replicate 17 0) (conf f) = conf f 2 := by
      simp [Spec.edge, stuckSample, List.range_succ_eq_map, List.replicate]
    rw [he] at h
    have := hbad 2 le_rfl
    linarith
  · have h0 : predict (K := ℝ) f 0 = -1 := by
      unfold predict
      rw [hc, if_neg]
      simp only [stuckH1, stuckH2, if_true]
      linarith
    have h1 : predict (K := ℝ) f 1 = 1 := by
      unfold predict
      rw [hc, if_pos]
      simp only [stuckH1, stuckH2, one_ne_zero, if_false, if_true]
      linarith
    have h2 : ∀ i, 2 ≤ i → predict (K := ℝ) f i = -1 := by
      intro i hi
      unfold predict
      rw [if_neg]
      have := hbad i hi
      linarith
    unfold Spec.errors stuckSample
    rw [List.countP_map]
    have : ∀ i ∈ List.range 20, ((fun e : Nat × ℝ => decide (e.2 ≠ ((predict (K := ℝ) f e.1 : Int) : ℝ))) ∘
        fun i => (i, if i = 0 then -1 else 1)) i = decide (2 ≤ i) := by
      intro i _
      simp only [Function.comp]
      rcases i with _ | _ | i
      · simp [h0]
      · simp [h1]
      · rw [h2 (i + 2) (by omega)]
        simp
        norm_num
    rw [List.countP_congr (q := fun i => decide (2 ≤ i)) (fun i hi => by rw [this i hi])]
    decide
  · intro e he h2
    simp only [stuckSample, List.mem_map, List.mem_range] at he
    obtain ⟨i, hi, rfl⟩ := he
    simp only at h2 ⊢
    rw [if_neg (by omega), one_mul]
    exact hbad i h2

section guarantee

variable {H X : Type*} [Classifier H X ℝ]

theorem loop_last {S : Examples X ℝ} {hs : List H} {nu : ℝ} (hS : S ≠ []) (hhs : hs ≠ []) (hnu1 : 1 ≤ nu)
    (hnu2 : nu ≤ S.length) {solver : Solver ℝ} (hsolver : solver.Correct) (hrep : solver.Reports) (fuel : Nat) (m m' : ERLP.QPModel)
    (old : ℝ) (hm : ERLP.Holds m S hs nu) (heta : 0 < m.eta) (hd : Spec.IsCapped nu m.dist)
    (h : ERLP.QPModel.solveLoop solver fuel m old = .ok m') :
    m' = m ∨ ∃ c, c.length = S.length ∧ (∀ q ∈ c, 0 < q) ∧ Spec.ErlpSolution S hs nu m.eta c m'.dist m'.weights := by
  induction fuel generalizing m old with
  | zero => simp [ERLP.QPModel.solveLoop] at h
  | succ fuel ih =>
    obtain ⟨γ, o, d, w, h1, h2, h3, h4, h5, h6, h7, h8⟩ := loop_step hm hS hhs hnu1 hnu2 heta hd hsolver hrep fuel old
    rw [h1] at h
    split at h
    · left; exact (Except.ok.inj h).symm
    · right
      have hc : ∀ q ∈ m.dist.map (fun q => q + ERLP.eps), 0 < q := by
        intro q hq
        obtain ⟨p, hp, rfl⟩ := List.mem_map.1 hq
        have := (hd.1 p hp).1
        have := ERLP.eps_pos
        linarith
      have hpen : ∀ e : List ℝ, e.length = S.length → quadPen S.length (fun i => log (m.dist.getD i 0 + ERLP.eps) / m.eta)
          (fun i => 1 / ((m.dist.getD i 0 + ERLP.eps) * m.eta)) e =
          Spec.entropyTaylor (m.dist.map fun q => q + ERLP.eps) e / m.eta + ((m.dist.map fun q => q + ERLP.eps).sum / 2) / m.eta := by
        intro e he
        rw [← quadPen_taylor (m.dist.map fun q => q + ERLP.eps) e S.length (by simp [hm.dlen]) he hc m.eta heta]
        unfold quadPen
        apply Finset.sum_congr rfl
        intro i hi
        have : (m.dist.map fun q => q + ERLP.eps).getD i 0 = m.dist.getD i 0 + ERLP.eps := by
          have := Finset.mem_range.1 hi
          simp [List.getD_eq_getElem?_getD, hm.dlen, this]
        simp only [this]
      have hsol : Spec.ErlpSolution S hs nu m.eta (m.dist.map fun q => q + ERLP.eps) d w := by
        refine ⟨h2, h3, h5, h6, fun h' hh' d' hl' hd' => ?_⟩
        have := h8 d' hl' hd'
        rw [h7, hpen d h2, hpen d' hl'] at this
        have := h4 h' hh'
        linarith
      rcases ih { m with dist := d, weights := w } o ⟨hm.nEx, hm.nHyp, hm.rows, hm.cap, h2⟩ heta h3 h with h9 | h9
      · rw [h9]
        exact ⟨_, by simp [hm.dlen], hc, hsol⟩
      · exact h9

/-- C79: after at least one round, the weights on the examples and on the hypotheses solve the program of the paper,
expanded around some positive vector. -/
theorem erlp_last_solution (S : Examples X ℝ) (s₀ : ERLPBoost H) (hn : s₀.nSample = S.length) (solver : Solver ℝ)
    (hsolver : solver.Correct) (hrep : solver.Reports) (fuel : Nat) (hfuel : ERLP.enough S.length ≤ fuel) (wl : WeakLearner ℝ H)
    (hb : ∀ k d, ∀ e ∈ S, |e.2 * conf (wl k d) e.1| ≤ (1 : ℝ)) (n : Nat) (hpos : 0 < n) (qs : List (List ℝ)) (s : ERLPBoost H)
    (hr : (ERLPBoost.booster solver fuel S).Reachable wl s₀ n qs s) :
    ∃ m c, s.qpModel = some m ∧ c.length = S.length ∧ (∀ q ∈ c, 0 < q) ∧
      Spec.ErlpSolution S s.hypotheses s₀.nu (erlpEta S s₀) c s.dist m.weights := by
  cases hr with
  | start h => omega
  | @step n qs s₁ out hr hbo hf =>
    have hi := er_inv hn hr
    have hη : 0 < erlpEta S s₀ := by unfold erlpEta; exact lt_of_lt_of_le (by norm_num) (le_max_left _ _)
    have hS := checkBinary_ne_nil hi.bin
    rcases er_step hi wl hbo with ⟨-, h, -⟩ | ⟨h1, h2, h3, ⟨h, -⟩ | ⟨-, h4, h5, m, m', h6, h7, h8, h9⟩⟩
    · rw [h] at hf; cases hf
    · rw [h] at hf; cases hf
    obtain ⟨i1, i2, m₀, i3, i4, i5⟩ := er_holds hn hsolver hr
    have hw := er_weights hn hsolver hrep hfuel hb hr
    rw [h6, Option.some.injEq] at i3
    subst i3
    have hlen : m.weights.length = s₁.hypotheses.length := by
      rcases Nat.eq_zero_or_pos n with h0 | h0
      · obtain ⟨m₁, a1, a2, a3, -⟩ := hi.model
        rw [h6, Option.some.injEq] at a1
        subst a1
        rw [a3 h0, hi.hlen, h0]
        rfl
      · obtain ⟨m₁, a1, a2, -⟩ := hw.2 h0
        rw [h6, Option.some.injEq] at a1
        subst a1
        exact a2
    obtain ⟨m'', u1, u2, u3⟩ := ERLP.update_total hS hi.nu1 hi.nu2 hsolver hrep (wl (n + 1) s₁.dist)
      (fun h hm => by
        rcases List.mem_append.1 hm with hm | hm
        · obtain ⟨k, d, rfl⟩ := hw.1 h hm; exact hb k d
        · rw [List.mem_singleton] at hm; rw [hm]; exact hb _ _) fuel m i4 (by rw [i5]; exact le_max_left _ _) hfuel
    rw [h7, Except.ok.injEq] at u1
    subst u1
    have hwm : ∀ h fuel, ∃ m₁, ERLP.QPModel.update solver fuel S m h = ERLP.QPModel.solveLoop solver fuel m₁ 1000 ∧
        ERLP.Holds m₁ S (s₁.hypotheses ++ [h]) s₀.nu ∧ m₁.dist = List.replicate S.length (1 / (S.length : ℝ)) ∧ m₁.eta = m.eta ∧
        m₁.weights = m.weights := by
      intro h fuel
      refine ⟨_, rfl, ⟨i4.nEx, by simp [i4.nHyp], ?_, i4.cap, by simp [i4.dlen]⟩, ?_, rfl, rfl⟩
      · simp only [i4.rows, pushMargins_rowsOf]
      · simp only [List.map_const', i4.dlen, i4.nEx]
    obtain ⟨m₁, v1, v2, v3, v4, v5⟩ := hwm (wl (n + 1) s₁.dist) fuel
    rw [h7] at v1
    have hSpos : (0 : ℝ) < S.length := by exact_mod_cast List.length_pos_iff.2 hS
    rcases loop_last hS (by simp) hi.nu1 hi.nu2 hsolver hrep fuel m₁ m' 1000 v2 (by rw [v4, i5]; exact hη) (by
      rw [v3]
      refine ⟨fun p hp => ?_, ?_⟩
      · rw [List.eq_of_mem_replicate hp]
        exact ⟨by positivity, one_div_le_one_div_of_le (by linarith [hi.nu1]) hi.nu2⟩
      · rw [List.sum_replicate, nsmul_eq_mul]; field_simp) v1.symm with hl | ⟨c, c1, c2, c3⟩
    · exfalso
      rw [hl, v5, hlen] at u2
      omega
    · refine ⟨m', c, h8, c1, c2, ?_⟩
      rw [h5, h9, ← i5, ← v4]
      exact c3

/-- C79, what holds: if every query is answered with edge at least `ρ` and the run stops before the limit, the returned
vote has soft margin at least `ρ - tolerance - r²/((1-r) η)`, where `r` bounds the relative change of the weights in
the last accepted step of the inner loop (from `c` to the last query). -/
theorem erlp_soft_margin_partial (S : Examples X ℝ) (s₀ : ERLPBoost H) (hn : s₀.nSample = S.length) (solver : Solver ℝ)
    (hsolver : solver.Correct) (hrep : solver.Reports) (fuel : Nat) (hfuel : ERLP.enough S.length ≤ fuel) (wl : WeakLearner ℝ H)
    (hb : ∀ k d, ∀ e ∈ S, |e.2 * conf (wl k d) e.1| ≤ (1 : ℝ)) (ρ : ℝ)
    (hρ : ∀ k d, d.length = S.length → Spec.IsCapped s₀.nu d → ρ ≤ Spec.edge S d (conf (wl k d)))
    (k : Nat) (f : WeightedMajority ℝ H) (qs : List (List ℝ))
    (hrun : (ERLPBoost.booster solver fuel S).run wl k s₀ = some (.ok (f, qs))) (hlt : qs.length < erlpLimit S s₀)
    (hfirst : 1 < qs.length) :
    ∃ (c d : List ℝ) (hs : List H) (w : List ℝ), qs.getLast? = some d ∧ c.length = S.length ∧ (∀ q ∈ c, 0 < q) ∧
      Spec.ErlpSolution S hs s₀.nu (erlpEta S s₀) c d w ∧ (∀ x : X, (conf f x : ℝ) = Spec.vote conf (List.zip w hs) x) ∧
      ∀ r : ℝ, 0 ≤ r → r < 1 → (∀ i, i < S.length → |d.getD i 0 - c.getD i 0| ≤ r * c.getD i 0) →
        Spec.SoftMarginGe S s₀.nu (conf f) (ρ - 2 * s₀.halfTolerance - r ^ 2 / (1 - r) / erlpEta S s₀) := by
  obtain ⟨n, qs', s, out, k', h1, h2, h3, h4, h5, h6⟩ := (ERLPBoost.booster solver fuel S).run_spec wl s₀ hrun
  have hi := er_inv hn h1
  have hη : 0 < erlpEta S s₀ := by unfold erlpEta; exact lt_of_lt_of_le (by norm_num) (le_max_left _ _)
  have hS := checkBinary_ne_nil hi.bin
  obtain ⟨i1, i2, m₀, i3, i4, i5⟩ := er_holds hn hsolver h1
  -- the run stops by the gap rule
  have hq : n ≠ erlpLimit S s₀ := by
    intro h
    rw [h5, List.length_append, hi.qlen] at hlt
    omega
  obtain ⟨g1, g2, g3, g4, g5⟩ := erlp_stopping S s₀ hn solver fuel wl n qs' s h1 out h3
  have hgap := (g3.1 ⟨k', h4⟩).resolve_left hq
  have hqne : out.queries ≠ [] := by intro h; exact hq (g4.1 h)
  obtain ⟨q1, q2⟩ := g5 hqne
  have hpos : 0 < n := by
    rw [h5, List.length_append, hi.qlen, q1] at hfirst
    simp at hfirst
    omega
  obtain ⟨m, c, a1, a2, a3, a4⟩ := erlp_last_solution S s₀ hn solver hsolver hrep fuel hfuel wl hb n hpos qs' s h1
  -- the upper estimate is at least ρ
  have hsm : ∀ k d, d.length = S.length → Spec.IsCapped s₀.nu d → ρ ≤ Spec.smoothedEdge S (erlpEta S s₀) d (conf (wl k d)) := by
    intro k d hl hc
    have e1 := hρ k d hl hc
    unfold Spec.smoothedEdge
    rw [← entropyFromUni_spec]
    have := div_nonneg (entropyFromUni_bounds d ⟨fun p hp => (hc.1 p hp).1, hc.2⟩).1 hη.le
    linarith
  have hρ1 : ρ ≤ 1 :=
    le_trans (hρ 0 s.dist i1 i2) (ERLP.edge_bounds i1 ⟨fun p hp => (i2.1 p hp).1, i2.2⟩ (conf (wl 0 s.dist)) (hb 0 s.dist)).2
  have hhat : ∀ {n qs s}, (ERLPBoost.booster solver fuel S).Reachable wl s₀ n qs s → ρ ≤ s.gammaHat := by
    intro n qs s hr
    induction hr with
    | start h =>
      have := (er_start hn h).hat_mem
      rw [List.length_eq_zero_iff.1 (er_start hn h).hlen] at this
      simp [smoothedEdges] at this
      rw [this]; exact hρ1
    | @step n qs s₁ out hr hb' hf ih =>
      have hi' := er_inv hn hr
      obtain ⟨j1, j2, -⟩ := er_holds hn hsolver hr
      rcases er_step hi' wl hb' with ⟨-, h, -⟩ | ⟨-, -, e3, -⟩
      · rw [h] at hf; cases hf
      · rw [e3]; exact le_min ih (hsm _ _ j1 j2)
  have hout : ρ ≤ out.state.gammaHat := by rw [q2]; exact le_min (hhat h1) (hsm _ _ i1 i2)
  -- the returned vote
  obtain ⟨p1, p2⟩ : out.state.hypotheses = s.hypotheses ∧ out.state.qpModel = s.qpModel := by
    rcases er_step hi wl h3 with ⟨-, -, -, g1⟩ | ⟨-, -, g2, ⟨-, -, g3, g4⟩ | ⟨g1, -⟩⟩
    · rw [g1]; exact ⟨rfl, rfl⟩
    · exact ⟨g3, g4⟩
    · rw [g1] at h4; cases h4
  obtain ⟨f', hf', hconf, -⟩ := fromSlices_prob (X := X) m.weights s.hypotheses a4.2.2.1 a4.2.2.2.1
  have hff : f = f' := by
    have : (ERLPBoost.booster solver fuel S).postprocess out.state = .ok f' := by
      simp only [ERLPBoost.booster, ERLPBoost.postprocess, p2, a1, p1]; exact hf'
    rw [this, Except.ok.injEq] at h6
    exact h6.symm
  subst hff
  have hvote : ∀ x : X, (conf f x : ℝ) = Spec.vote conf (List.zip m.weights s.hypotheses) x := by
    intro x; rw [hconf, weightedConf_eq_vote]
  refine ⟨c, s.dist, s.hypotheses, m.weights, by rw [h5, q1]; simp, a2, a3, a4, hvote, ?_⟩
  intro r hr0 hr1 hclose d' hl' hd'
  obtain ⟨hstar, h, hh, hst⟩ := hi.star1 hpos
  have hhs : s.hypotheses ≠ [] := List.ne_nil_of_mem hh
  have key := solution_margin hη hhs a2 a3 a4 hr0 hr1 hclose h hh d' hl' hd'
  have hcongr : Spec.edge S d' (conf f) = Spec.edge S d' (fun x => Spec.vote conf (List.zip m.weights s.hypotheses) x) := by
    congr 1; funext x; exact hvote x
  rw [hcongr]
  -- the entropy of a capped distribution
  have hent : ((d'.map fun p => p * log p).sum + log (S.length : ℝ)) / erlpEta S s₀ ≤ s₀.halfTolerance := by
    have hnu0 : 0 < s₀.nu := by linarith [hi.nu1]
    have hSpos : (0 : ℝ) < S.length := by exact_mod_cast List.length_pos_iff.2 hS
    have e1 : (d'.map fun p => p * log p).sum ≤ -log s₀.nu := by
      have : (d'.map fun p => p * log p).sum ≤ (d'.map fun p => p * -log s₀.nu).sum := by
        apply sum_map_le
        intro p hp
        obtain ⟨p0, p1⟩ := hd'.1 p hp
        rcases p0.eq_or_lt with rfl | p0
        · simp
        · apply mul_le_mul_of_nonneg_left _ p0.le
          have := log_le_log p0 p1
          rwa [one_div, log_inv] at this
      rw [List.sum_map_mul_right, List.map_id', hd'.2, one_mul] at this
      exact this
    have e2 : (d'.map fun p => p * log p).sum + log (S.length : ℝ) ≤ log ((S.length : ℝ) / s₀.nu) := by
      rw [log_div hSpos.ne' hnu0.ne']; linarith
    rw [div_le_iff₀ hη]
    have e3 : log ((S.length : ℝ) / s₀.nu) / s₀.halfTolerance ≤ erlpEta S s₀ := le_max_right _ _
    rw [div_le_iff₀ hi.tol0] at e3
    linarith
  have hst' : Spec.edge S s.dist (conf h) = s.gammaStar - ((s.dist.map fun p => p * log p).sum + log (S.length : ℝ)) / erlpEta S s₀ := by
    rw [hst]; unfold Spec.smoothedEdge; rw [i1]; ring
  rw [hst'] at key
  have e4 : ((s.dist.map fun p => p * log p).sum - (d'.map fun p => p * log p).sum - r ^ 2 / (1 - r)) / erlpEta S s₀ =
      ((s.dist.map fun p => p * log p).sum + log (S.length : ℝ)) / erlpEta S s₀ -
        ((d'.map fun p => p * log p).sum + log (S.length : ℝ)) / erlpEta S s₀ - r ^ 2 / (1 - r) / erlpEta S s₀ := by
    ring
  rw [e4] at key
  linarith

end guarantee

end Miniboosts.Props
