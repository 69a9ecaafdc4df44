import Verif.Props.Strategies

/-! # C61: MLPBoost with the blended pairwise strategy can panic when the weak learner repeats an answer -/

namespace Miniboosts.Props

open Miniboosts Real

/-- Margins `0` and `-1` on `exSample`. -/
def exBlendA : Fn Nat ℝ := ⟨fun x => if x = 0 then 0 else 1⟩

/-- Margins `-1` and `0` on `exSample`. -/
def exBlendB : Fn Nat ℝ := ⟨fun x => if x = 0 then -1 else 0⟩

/-- Answers A, B, A, A, ... -/
def exBlendLearner : WeakLearner ℝ (Fn Nat ℝ) := fun k _ => if k = 2 then exBlendB else exBlendA

/-- A state of the run: MLPBoost with tolerance `1/10` and the blended pairwise strategy. -/
noncomputable def blendState (η : ℝ) (m : Option MLP.LPModel) (w : List ℝ) (hs : List (Fn Nat ℝ)) (N : Nat) (g : ℝ) : MLPBoost (Fn Nat ℝ) :=
  { halfTolerance := 1 / 10 / 2, nSample := 2, nu := 1, eta := η, primary := ⟨η, 1, .blendedPairwise⟩, secondary := m, weights := w, hypotheses := hs,
    terminated := N, maxIter := N, gamma := g }

/-- Random numbers `r`: the perturbations `ln ln (1/r)` are `0` for the first example and `-10 ln 2` for the second. -/
noncomputable def exBlendRandom : Nat → Nat → ℝ := fun _ i => if i = 1 then exp (-(1 / 1024)) else exp (-1)

theorem exBlendRandom_range (k i : Nat) : 0 < exBlendRandom k i ∧ exBlendRandom k i < 1 := by
  unfold exBlendRandom
  split <;> exact ⟨exp_pos _, by rw [exp_lt_one_iff]; norm_num⟩

theorem exBlend_noise (k i : Nat) : log (log (1 / exBlendRandom k i)) = if i = 1 then -(10 * log 2) else 0 := by
  unfold exBlendRandom
  split
  · rw [one_div, log_inv, log_exp, neg_neg, one_div, log_inv, show (1024 : ℝ) = 2 ^ 10 by norm_num, log_pow]
    norm_num
  · rw [one_div, log_inv, log_exp, neg_neg, log_one]

theorem blend_A_ne_B : (exBlendA == exBlendB) = false := by
  have : exBlendA ≠ exBlendB := by
    intro h
    have := congrArg (fun g : Fn Nat ℝ => g.f 0) h
    simp [exBlendA, exBlendB] at this
  simp [BEq.beq, this]

theorem blend_dist (η : ℝ) (hη : 0 < η) (F : Nat → ℝ) (m1 m2 : ℝ) (h1 : F 0 = m1) (h2 : F 1 = -m2) :
    ∃ a b, IsExpDist η 1 exSample F [a, b] ∧ 0 < a ∧ 0 < b ∧ a + b = 1 ∧ (m1 ≤ m2 → b ≤ a) ∧ (m1 < m2 → b < a) ∧ (m2 ≤ m1 → a ≤ b) := by
  have hZ : 0 < exp (-η * m1) + (exp (-η * m2) + 0) := by positivity
  refine ⟨exp (-η * m1) / (exp (-η * m1) + (exp (-η * m2) + 0)), exp (-η * m2) / (exp (-η * m1) + (exp (-η * m2) + 0)), ?_, by positivity, by positivity,
    ?_, ?_, ?_, ?_⟩
  · unfold IsExpDist
    rw [project_one _ (by simp [exSample])]
    simp [exSample, h1, h2, Spec.softmax]
  · field_simp; ring
  · intro h
    apply div_le_div_of_nonneg_right _ hZ.le
    apply exp_le_exp.2
    nlinarith
  · intro h
    apply div_lt_div_of_pos_right _ hZ
    apply exp_lt_exp.2
    nlinarith
  · intro h
    apply div_le_div_of_nonneg_right _ hZ.le
    apply exp_le_exp.2
    nlinarith

theorem blend_edge (a b : ℝ) (F : Nat → ℝ) : Spec.edge exSample [a, b] F = a * F 0 - b * F 1 := by
  simp [Spec.edge, exSample]; ring

theorem blend_entropy (a b : ℝ) : entropyFromUni [a, b] = entropyFromUni [b, a] := by
  simp [entropyFromUni, entropy]; ring

theorem blend_edge' (a b : ℝ) (h : Fn Nat ℝ) : Miniboosts.edge exSample [a, b] h = a * h.f 0 - b * h.f 1 := by
  rw [edge_eq_spec, blend_edge]; rfl

theorem blend_capped_left : Spec.IsCapped 1 ([1, 0] : List ℝ) := by
  constructor <;> simp

theorem blend_capped_right : Spec.IsCapped 1 ([0, 1] : List ℝ) := by
  constructor <;> simp

theorem blend_entropy_point : entropyFromUni [1, 0] = log 2 ∧ entropyFromUni [0, 1] = log 2 := by
  constructor <;> simp [entropyFromUni, entropy]

/-- What `objval` returns, and two bounds for it. -/
theorem blend_objval {η : ℝ} (hη : 0 < η) {F : Nat → ℝ} {w : List ℝ} {hs : List (Fn Nat ℝ)} (hF : weightedConf (X := Nat) w hs = F) {a b : ℝ}
    (hd : IsExpDist η 1 exSample F [a, b]) : MLPBoost.objval exSample η 1 hs w = .ok (pot η exSample F [a, b] / η) ∧
      a * F 0 - b * F 1 ≤ pot η exSample F [a, b] / η ∧ pot η exSample F [a, b] / η ≤ log 2 / η + F 0 ∧
      pot η exSample F [a, b] / η ≤ log 2 / η - F 1 := by
  refine ⟨by rw [← hF] at hd ⊢; exact MLPBoost.objval_ok hd hη, ?_, ?_, ?_⟩
  · have := edge_le_pot hd
    rw [blend_edge] at this
    rw [le_div_iff₀ hη]; linarith
  · have := pot_min hd (d' := [1, 0]) rfl blend_capped_left
    rw [div_le_iff₀ hη]
    refine this.trans (le_of_eq ?_)
    unfold pot
    rw [blend_entropy_point.1, blend_edge]
    field_simp; ring
  · have := pot_min hd (d' := [0, 1]) rfl blend_capped_right
    rw [div_le_iff₀ hη]
    refine this.trans (le_of_eq ?_)
    unfold pot
    rw [blend_entropy_point.2, blend_edge]
    field_simp; ring

theorem blend_conf (p q : ℝ) : weightedConf (X := Nat) [p, q] [exBlendA, exBlendB] = fun x => if x = 0 then -q else p := by
  funext x
  by_cases h : x = 0 <;> simp [weightedConf, conf, exBlendA, exBlendB, h]

theorem blend_conf1 : weightedConf (X := Nat) [(1 : ℝ)] [exBlendA] = fun x => if x = 0 then 0 else 1 := by
  funext x
  by_cases h : x = 0 <;> simp [weightedConf, conf, exBlendA, h]

/-- The blended pairwise step of the second round. -/
theorem blend_step2 {η a b : ℝ} (ha : 0 < a) (hb : 0 < b) (hab : a + b = 1) :
    FrankWolfe.nextIterate ⟨η, 1, .blendedPairwise⟩ 2 exSample [a, b] [exBlendA, exBlendB] 1 [1, 0] = .ok [0, 1] := by
  have hscan : FrankWolfe.scan exSample [a, b] [exBlendA, exBlendB] 1 [1, 0] =
      { worstEdge := -b, localBest := -b, globalBest := -b, posWorst := 0, posLocal := 0, posGlobal := 0 } := by
    unfold FrankWolfe.scan
    have h1 : ¬ (1 : ℝ) ≤ 0 := by norm_num
    have h2 : (-2 : ℝ) < -b := by linarith
    have h3 : -b < (2 : ℝ) := by linarith
    simp [List.zipIdx_cons, blend_edge', exBlendA, h1, FrankWolfe.scanStep, h2, h3]
  have hcur : weightedEdge exSample [a, b] [1, 0] [exBlendA, exBlendB] = -b := by
    rw [weightedEdge_eq_spec, blend_edge, blend_conf]; simp
  unfold FrankWolfe.nextIterate
  rw [if_pos (by simp)]
  simp only [FrankWolfe.blendedPairwise, hscan, hcur]
  rw [if_pos le_rfl]
  have hz : List.zipWith (fun a b : ℝ => a - b) (margins exSample exBlendA) (margins exSample exBlendA) = [0, 0] := by
    simp [margins, exSample]
  simp only [List.getElem?_cons_zero, hz]
  obtain ⟨d, hd⟩ := exists_expDist η 1 exSample (weightedConf (X := Nat)
    (List.zipWith (fun dir cur : ℝ => cur + 1 * dir) [0, 0] (weightedMargins exSample [1, 0] [exBlendA, exBlendB])) [exBlendA, exBlendB]) le_rfl (by simp [exSample])
  rw [(expDistribution_iff _ _ _ _ _ _).2 hd]
  have hi : innerProduct d [0, 0] ≤ 0 := by
    have hl := hd.capped.1
    match d, hl with
    | [x, y], _ => simp [innerProduct]
  simp only [hi, if_true]
  simp

/-- The blended pairwise step of the third round: a quarter of the weight is lost. -/
theorem blend_step3 {η a b : ℝ} (hη : 0 < η) (hb : 0 < b) (hab : a + b = 1) (hlt : b < a) :
    FrankWolfe.nextIterate ⟨η, 1, .blendedPairwise⟩ 3 exSample [a, b] [exBlendA, exBlendB] 0 [1 / 4, 3 / 4] = .ok [3 / 4, 0] := by
  have hscan : FrankWolfe.scan exSample [a, b] [exBlendA, exBlendB] 0 [1 / 4, 3 / 4] =
      { worstEdge := -a, localBest := -b, globalBest := -b, posWorst := 1, posLocal := 0, posGlobal := 0 } := by
    unfold FrankWolfe.scan
    have h1 : ¬ (1 / 4 : ℝ) ≤ 0 := by norm_num
    have h1' : ¬ (3 / 4 : ℝ) ≤ 0 := by norm_num
    have h2 : (-2 : ℝ) < -b := by linarith
    have h3 : -b < (2 : ℝ) := by linarith
    have h4 : ¬ (-b < -a) := by linarith
    have h5 : (-2 : ℝ) < -a := by linarith
    have h6 : ¬ a < b := by linarith
    have hA : exBlendA.f 0 = 0 ∧ exBlendA.f 1 = 1 := by simp [exBlendA]
    have hB : exBlendB.f 0 = -1 ∧ exBlendB.f 1 = 0 := by simp [exBlendB]
    simp only [List.zip_cons_cons, List.zip_nil_right, List.zipIdx_cons, List.zipIdx_nil, List.filterMap_cons, List.filterMap_nil, if_neg h1, if_neg h1',
      blend_edge', hA.1, hA.2, hB.1, hB.2]
    simp [FrankWolfe.scanStep, h2, h3, h5, h6, hlt]
  have hcur : weightedEdge exSample [a, b] [1 / 4, 3 / 4] [exBlendA, exBlendB] = -(3 / 4) * a - 1 / 4 * b := by
    rw [weightedEdge_eq_spec, blend_edge, blend_conf]; simp; ring
  unfold FrankWolfe.nextIterate
  rw [if_pos (by simp)]
  simp only [FrankWolfe.blendedPairwise, hscan, hcur]
  rw [if_pos (by linarith)]
  have hz : List.zipWith (fun a b : ℝ => a - b) (margins exSample exBlendA) (margins exSample exBlendB) = [1, -1] := by
    simp [margins, exSample, exBlendA, exBlendB, conf]
  have hm : List.zipWith (fun dir cur : ℝ => cur + 3 / 4 * dir) [1, -1] (weightedMargins exSample [1 / 4, 3 / 4] [exBlendA, exBlendB]) = [0, -1] := by
    simp only [weightedMargins, blend_conf]
    norm_num [exSample]
  simp only [List.getElem?_cons_zero, List.getElem?_cons_succ, hz, hm]
  obtain ⟨a', b', hd, -, -, -, -, -, hle⟩ := blend_dist η hη (weightedConf (X := Nat) [0, -1] [exBlendA, exBlendB]) 1 0 (by rw [blend_conf]; simp)
    (by rw [blend_conf]; simp)
  rw [(expDistribution_iff _ _ _ _ _ _).2 hd]
  have hi : innerProduct [a', b'] [1, -1] ≤ 0 := by
    have := hle (by norm_num)
    simp [innerProduct]; linarith
  simp only [hi, if_true]
  simp

/-- The weights of the perturbed linear program of the second round. -/
theorem blend_lp {solver : Solver ℝ} (hsolver : solver.Correct) {η : ℝ} (hη : η = 20 * log 2) {m : MLP.LPModel}
    (hm : MLP.Holds m exSample [exBlendA] 1 η) : ∃ m', m.update solver (fun k i => log (log (1 / exBlendRandom k i))) exSample (some exBlendB) = .ok (m', m'.weights) ∧
      m'.weights = [1 / 4, 3 / 4] := by
  set noise : Nat → Nat → ℝ := fun k i => log (log (1 / exBlendRandom k i))
  set m₁ : MLP.LPModel := { m with nHypotheses := m.nHypotheses + 1, rows := pushMargins m.rows (margins exSample exBlendB) } with hm₁
  have hm1 : MLP.Holds m₁ exSample ([exBlendA] ++ [exBlendB]) 1 η :=
    ⟨hm.nEx, by simp [hm₁, hm.nHyp], by simp only [hm₁, hm.rows]; exact pushMargins_rowsOf _ _ _, hm.cap, hm.eta⟩
  have hg := hm1.isGamma noise
  obtain ⟨sol, hsol⟩ := hg.exists_optimal (by simp [exSample]) (by simp) (fun _ _ => le_rfl) (by norm_num) (by simp [exSample])
  have hopt := hsolver _ _ hsol
  obtain ⟨γ, d, hx, hz, hdl, hdp, hdc, hed, hwl, hwp, -, hmin⟩ := hg.optimal (fun _ _ => le_rfl) _ hopt
  rw [Nat.add_comm 1] at hz hwl hwp hmin
  have hn1 : m₁.nExamples = exSample.length := hm1.nEx
  refine ⟨{ m₁ with draws := m₁.draws + 1, weights := (solver (m₁.program noise)).z.drop (2 * m₁.nExamples + 1),
                    dist := (solver (m₁.program noise)).x.drop 1 }, ?_, ?_⟩
  · unfold MLP.LPModel.update
    simp only []
    rw [← hm₁, if_neg]
    rw [hn1, hx]
    simp only [List.length_cons]
    omega
  · simp only [hn1]
    generalize (solver (m₁.program noise)).z.drop (2 * exSample.length + 1) = w at hwl hwp hmin
    have hlog : log 2 ≠ 0 := (log_pos (by norm_num)).ne'
    have hc0 : ∀ k, noise k 0 / η = 0 := fun k => by
      show log (log (1 / exBlendRandom k 0)) / η = 0
      rw [exBlend_noise]; simp
    have hc1 : ∀ k, noise k 1 / η = -(1 / 2) := fun k => by
      simp only [noise, exBlend_noise, if_true, hη]; field_simp; norm_num
    have hpen : ∀ x y : ℝ, quadPen exSample.length (fun i => noise m₁.draws i / η) (fun _ => 0) [x, y] = -(1 / 2) * y := by
      intro x y
      simp [quadPen, exSample, Finset.sum_range_succ, hc0, hc1]
    match d, hdl, w, hwl with
    | [x, y], _, [p, q], _ =>
      have hsum : x + y = 1 := by simpa using hdp.2
      have hw : p + q = 1 := by simpa using hwp.2
      have e1 := hed exBlendA (by simp)
      have e2 := hed exBlendB (by simp)
      rw [blend_edge] at e1 e2
      simp only [conf, exBlendA, exBlendB] at e1 e2
      norm_num at e1 e2
      have f1 := hmin [1, 0] rfl ⟨by simp, by simp⟩ (by simp)
      have f2 := hmin [0, 1] rfl ⟨by simp, by simp⟩ (by simp)
      rw [hpen, hpen, blend_edge] at f1 f2
      simp [Spec.vote, conf, exBlendA, exBlendB] at f1 f2
      have hp : p = 1 / 4 := by linarith
      have hq : q = 3 / 4 := by linarith
      rw [hp, hq]

/-- One call of `boost` after the first round. -/
theorem blend_boost {solver : Solver ℝ} {noise : Nat → Nat → ℝ} {η : ℝ} {m : MLP.LPModel} {w : List ℝ} {hs : List (Fn Nat ℝ)} {N n : Nat} {g : ℝ}
    {d : List ℝ} {v : ℝ} (hN : ¬ N < n) (hn : n ≠ 1) (hd : expDistribution η 1 exSample w hs = .ok d)
    (hv : MLPBoost.objval exSample η 1 hs w = .ok v) (hgap : ¬ min g (edge exSample d (exBlendLearner n d)) - v ≤ 1 / 10 / 2) :
    MLPBoost.boost solver noise exSample (blendState η (some m) w hs N g) exBlendLearner n =
      (let pos := hs.findIdx (fun f => f == exBlendLearner n d)
       let new := decide (pos = hs.length)
       let hs := if new then hs ++ [exBlendLearner n d] else hs
       let ws := if new then w ++ [0] else w
       match FrankWolfe.nextIterate ⟨η, 1, .blendedPairwise⟩ n exSample d hs pos ws with
       | .error e => .error e
       | .ok prim =>
         match m.update solver noise exSample (if new then some (exBlendLearner n d) else none) with
         | .error e => .error e
         | .ok (m, seco) =>
           match MLPBoost.betterWeight exSample η 1 hs prim seco with
           | .error e => .error e
           | .ok w =>
             match checkCappedSimplex w 1 with
             | .error e => .error e
             | .ok () =>
               .ok { state := blendState η (some m) w hs N (min g (edge exSample d (exBlendLearner n d))), flow := .cont, queries := [d] }) := by
  unfold MLPBoost.boost
  rw [if_neg (show ¬ (blendState η (some m) w hs N g).maxIter < n from hN)]
  simp only [blendState] at *
  rw [hd]
  simp only []
  rw [if_neg hn, hv]
  simp only []
  exact if_neg hgap

/-- The preprocessing. -/
theorem blend_pre (s : MLPBoost (Fn Nat ℝ)) (hs : MLPBoost.init exSample = .ok s) :
    ∃ N, 3 ≤ N ∧ MLPBoost.preprocess exSample ((s.setTolerance (1 / 10)).setFwType .blendedPairwise) =
      .ok (blendState (20 * log 2) (some (MLP.LPModel.init (20 * log 2) 2 (1 / 1))) [] [] N 1) := by
  unfold MLPBoost.init at hs
  rw [if_neg (by simp [exSample]), Except.ok.injEq] at hs
  subst hs
  refine ⟨⌈8 * log 2 / (1 / 10 / 2) ^ 2⌉₊, ?_, ?_⟩
  · have := Real.log_two_gt_d9
    have h3 : (3 : ℝ) ≤ 8 * log 2 / (1 / 10 / 2) ^ 2 := by
      rw [le_div_iff₀ (by norm_num)]; norm_num; linarith
    exact_mod_cast h3.trans (Nat.le_ceil _)
  · unfold MLPBoost.preprocess
    rw [exSample_valid]
    have he : log ((2 : ℝ) / 1) / (1 / 10 / 2) = 20 * log 2 := by rw [div_one]; ring
    simp only [MLPBoost.setTolerance, MLPBoost.setFwType, MLPBoost.initParams, MLPBoost.maxLoop, blendState]
    refine (if_neg (show ¬ ((1 : ℝ) / 10 / 2 = 0) by norm_num)).trans ?_
    rw [show ((exSample.length : ℕ) : ℝ) = 2 by simp [exSample], he, show (2 : ℝ) / 1 = 2 from div_one 2, show exSample.length = 2 from rfl]

theorem blend_round1 {solver : Solver ℝ} (hsolver : solver.Correct) (noise : Nat → Nat → ℝ) {N : Nat} (hN : 3 ≤ N) :
    ∃ d m g, MLPBoost.boost solver noise exSample (blendState (20 * log 2) (some (MLP.LPModel.init (20 * log 2) 2 (1 / 1))) [] [] N 1)
      exBlendLearner 1 = .ok { state := blendState (20 * log 2) (some m) [1] [exBlendA] N g, flow := .cont, queries := [d] } ∧
      MLP.Holds m exSample [exBlendA] 1 (20 * log 2) ∧ -(1 / 2) ≤ g := by
  have hη : 0 < 20 * log 2 := by have := Real.log_two_gt_d9; linarith
  obtain ⟨a, b, hd, ha, hb, hab, h1, -, -⟩ := blend_dist (20 * log 2) hη (weightedConf (X := Nat) [] ([] : List (Fn Nat ℝ))) 0 0 (by simp [weightedConf])
    (by simp [weightedConf])
  have hle := h1 le_rfl
  obtain ⟨m', u1, u2, -⟩ := (MLP.holds_init (H := Fn Nat ℝ) exSample 1 (20 * log 2)).update hsolver noise (by simp [exSample]) le_rfl exBlendA
  refine ⟨[a, b], m', min 1 (edge exSample [a, b] exBlendA), ?_, u2, ?_⟩
  · unfold MLPBoost.boost
    rw [if_neg (show ¬ (blendState _ _ _ _ _ _).maxIter < 1 from by simp [blendState]; omega)]
    simp only [blendState]
    rw [(expDistribution_iff _ _ _ _ _ _).2 hd]
    simp only [if_true, exBlendLearner]
    rw [show exSample.length = 2 from rfl] at u1
    simp only [show ¬ (1 : Nat) = 2 by decide, if_false, u1]
    rfl
  · rw [blend_edge']
    simp only [exBlendA]
    norm_num
    linarith

theorem blend_round2 {solver : Solver ℝ} (hsolver : solver.Correct) {N : Nat} (hN : 3 ≤ N) {m : MLP.LPModel} {g : ℝ} (hg : -(1 / 2) ≤ g)
    (hm : MLP.Holds m exSample [exBlendA] 1 (20 * log 2)) :
    ∃ d m' g', MLPBoost.boost solver (fun k i => log (log (1 / exBlendRandom k i))) exSample (blendState (20 * log 2) (some m) [1] [exBlendA] N g)
      exBlendLearner 2 = .ok { state := blendState (20 * log 2) (some m') [1 / 4, 3 / 4] [exBlendA, exBlendB] N g', flow := .cont, queries := [d] } ∧
      m'.weights = [1 / 4, 3 / 4] ∧ -(1 / 2) ≤ g' := by
  have hη : 0 < 20 * log 2 := by have := Real.log_two_gt_d9; linarith
  have hlog : log 2 / (20 * log 2) = 1 / 20 := by
    have : log 2 ≠ 0 := (log_pos (by norm_num)).ne'
    field_simp
  obtain ⟨a, b, hd, ha, hb, hab, -, -, h1⟩ := blend_dist (20 * log 2) hη (fun x => if x = 0 then 0 else 1) 0 (-1) (by simp) (by simp)
  have hle := h1 (by norm_num)
  have hv := blend_objval hη blend_conf1 hd
  simp only [hlog] at hv
  norm_num at hv
  obtain ⟨hv0, -, -, hv2⟩ := hv
  have hlearn : exBlendLearner 2 [a, b] = exBlendB := rfl
  have hedge : edge exSample [a, b] exBlendB = -a := by rw [blend_edge']; simp [exBlendB]
  have hmin : -(1 / 2) ≤ min g (-a) := le_min hg (by linarith)
  obtain ⟨m', u1, u2⟩ := blend_lp hsolver rfl hm
  refine ⟨[a, b], m', min g (-a), ?_, u2, hmin⟩
  rw [blend_boost (by omega) (by norm_num) (by rw [expDistribution_iff, blend_conf1]; exact hd) hv0 (by rw [hlearn, hedge]; linarith)]
  have hpos : [exBlendA].findIdx (fun f => f == exBlendB) = 1 := by simp [List.findIdx_cons, blend_A_ne_B]
  simp only [hlearn, hpos, hedge, List.length_cons, List.length_nil, decide_true, if_true, Nat.zero_add, List.cons_append, List.nil_append]
  rw [blend_step2 ha hb hab]
  simp only [u1, u2]
  obtain ⟨a1, b1, hd1, -⟩ := blend_dist (20 * log 2) hη (fun x => if x = 0 then -1 else 0) (-1) 0 (by simp) (by simp)
  obtain ⟨a2, b2, hd2, ha2, hb2, hab2, -⟩ := blend_dist (20 * log 2) hη (fun x => if x = 0 then -(3 / 4) else 1 / 4) (-(3 / 4)) (-(1 / 4)) (by simp) (by simp)
  have v1 := blend_objval hη (blend_conf 0 1) hd1
  have v2 := blend_objval hη (blend_conf (1 / 4) (3 / 4)) hd2
  simp only [hlog] at v1 v2
  norm_num at v1 v2
  have hbw : MLPBoost.betterWeight exSample (20 * log 2) 1 [exBlendA, exBlendB] [0, 1] [1 / 4, 3 / 4] = .ok [1 / 4, 3 / 4] := by
    unfold MLPBoost.betterWeight
    have e1 := v1.1
    have e2 := v2.1
    norm_num at e1 e2 ⊢
    rw [e1, e2]
    simp only []
    rw [if_neg]
    obtain ⟨-, -, h3, -⟩ := v1
    obtain ⟨-, h4, -, -⟩ := v2
    linarith
  rw [hbw]
  simp only []
  rw [MLPBoost.checkSimplex_prob ⟨by simp; norm_num, by norm_num⟩]

theorem blend_round3 {solver : Solver ℝ} {noise : Nat → Nat → ℝ} {N : Nat} (hN : 3 ≤ N) {m : MLP.LPModel} {g : ℝ} (hg : -(1 / 2) ≤ g)
    (hm : m.weights = [1 / 4, 3 / 4]) :
    MLPBoost.boost solver noise exSample (blendState (20 * log 2) (some m) [1 / 4, 3 / 4] [exBlendA, exBlendB] N g) exBlendLearner 3 = .error .assertion := by
  have hη : 0 < 20 * log 2 := by have := Real.log_two_gt_d9; linarith
  have hlog : log 2 / (20 * log 2) = 1 / 20 := by
    have : log 2 ≠ 0 := (log_pos (by norm_num)).ne'
    field_simp
  obtain ⟨a, b, hd, ha, hb, hab, -, h1, -⟩ := blend_dist (20 * log 2) hη (fun x => if x = 0 then -(3 / 4) else 1 / 4) (-(3 / 4)) (-(1 / 4)) (by simp) (by simp)
  have hlt := h1 (by norm_num)
  have hv := blend_objval hη (blend_conf (1 / 4) (3 / 4)) hd
  simp only [hlog] at hv
  obtain ⟨hv0, -, hv2, -⟩ := hv
  norm_num at hv2
  have hlearn : exBlendLearner 3 [a, b] = exBlendA := rfl
  have hedge : edge exSample [a, b] exBlendA = -b := by rw [blend_edge']; simp [exBlendA]
  have hmin : -(1 / 2) ≤ min g (-b) := le_min hg (by linarith)
  rw [blend_boost (by omega) (by norm_num) (by rw [expDistribution_iff, blend_conf]; exact hd) hv0 (by rw [hlearn, hedge]; linarith)]
  have hpos : [exBlendA, exBlendB].findIdx (fun f => f == exBlendA) = 0 := by
    simp [List.findIdx_cons]
  simp only [hlearn, hpos, hedge, List.length_cons, List.length_nil]
  simp only [show decide ((0 : Nat) = 0 + 1 + 1) = false by decide, Bool.false_eq_true, if_false]
  rw [blend_step3 hη hb hab hlt]
  simp only [MLP.LPModel.update, hm]
  obtain ⟨a1, b1, hd1, ha1, hb1, hab1, -⟩ := blend_dist (20 * log 2) hη (fun x => if x = 0 then -0 else 3 / 4) 0 (-(3 / 4)) (by simp) (by simp)
  have e1 := (blend_objval hη (blend_conf (3 / 4) 0) hd1).1
  have hswap := pot_min hd (d' := [b1, a1]) rfl (by
    constructor
    · intro x hx
      simp at hx
      rcases hx with rfl | rfl <;> constructor <;> linarith
    · simp; linarith)
  have hcmp : pot (20 * log 2) exSample (fun x => if x = 0 then -(3 / 4) else 1 / 4) [a, b] / (20 * log 2) ≤
      pot (20 * log 2) exSample (fun x => if x = 0 then -0 else 3 / 4) [a1, b1] / (20 * log 2) := by
    apply div_le_div_of_nonneg_right _ hη.le
    refine hswap.trans ?_
    unfold pot
    rw [blend_entropy b1 a1, blend_edge, blend_edge]
    have : 20 * log 2 * (b1 * -(3 / 4) - a1 * (1 / 4)) ≤ 20 * log 2 * (a1 * -0 - b1 * (3 / 4)) := mul_le_mul_of_nonneg_left (by linarith) hη.le
    simp at this ⊢
    linarith
  have hbw : MLPBoost.betterWeight exSample (20 * log 2) 1 [exBlendA, exBlendB] [3 / 4, 0] [1 / 4, 3 / 4] = .ok [3 / 4, 0] := by
    unfold MLPBoost.betterWeight
    rw [e1, hv0]
    simp only []
    rw [if_pos hcmp]
  rw [hbw]
  simp only []
  have hck : checkCappedSimplex [(3 / 4 : ℝ), 0] 1 = .error .assertion := by
    unfold checkCappedSimplex checkNu
    rw [if_pos ⟨le_rfl, by norm_num⟩]
    simp only []
    rw [if_neg]
    rintro ⟨h, -⟩
    norm_num at h
  rw [hck]

/-- C61 is false of MLPBoost with the blended pairwise strategy: on two examples with the tolerance `1/10`, whatever (correct) solver is used, a weak
learner that answers A, B, A makes `run` panic in the third round for possible values of the random numbers.  The pairwise step towards A, which
already has the weight 1/4, replaces its weight instead of raising it, and the assertion that the weights sum to one fails. -/
theorem mlp_blended_can_panic (solver : Solver ℝ) (hsolver : solver.Correct) (s : MLPBoost (Fn Nat ℝ)) (hs : MLPBoost.init exSample = .ok s) :
    ∃ r : Nat → Nat → ℝ, (∀ k i, 0 < r k i ∧ r k i < 1) ∧ ∀ fuel, 3 ≤ fuel →
      (MLPBoost.booster solver (fun k i => log (log (1 / r k i))) exSample).run exBlendLearner fuel
        ((s.setTolerance (1 / 10)).setFwType .blendedPairwise) = some (.error .assertion) := by
  refine ⟨exBlendRandom, exBlendRandom_range, ?_⟩
  intro fuel hf
  obtain ⟨f, rfl⟩ : ∃ f, fuel = f + 3 := ⟨fuel - 3, by omega⟩
  obtain ⟨N, hN, hpre⟩ := blend_pre s hs
  obtain ⟨d1, m1, g1, b1, hm1, hg1⟩ := blend_round1 hsolver (fun k i => log (log (1 / exBlendRandom k i))) hN
  obtain ⟨d2, m2, g2, b2, hm2, hg2⟩ := blend_round2 hsolver hN hg1 hm1
  have b3 := blend_round3 (solver := solver) (noise := fun k i => log (log (1 / exBlendRandom k i))) hN hg2 hm2
  simp only [Booster.run, MLPBoost.booster, hpre, Booster.loop, b1, b2, b3, Option.map_some, Except.map]

/-- The object exists. -/
example : ∃ s, MLPBoost.init (H := Fn Nat ℝ) exSample = .ok s := ⟨_, if_neg (by simp [exSample])⟩

end Miniboosts.Props
