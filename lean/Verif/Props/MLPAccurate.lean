import Verif.Props.MLPBoost
import Verif.Props.LPAccurate
import Verif.Lemmas.MLPBoostAny

/-! # MLPBoost tolerates no inaccuracy of the solver (C115) -/

namespace Miniboosts.Props

open Real MLPBoost

/-- A hypothesis with margin 1/2 on the first example and 0 on the second. -/
noncomputable def exHalfFirst : Fn Nat ℝ := ⟨fun x => if x = 0 then 1 / 2 else 0⟩

/-- A hypothesis with margin 1 on both examples. -/
noncomputable def exBoth : Fn Nat ℝ := ⟨fun x => if x = 0 then 1 else -1⟩

/-- `exHalfFirst` first, then `exBoth`. -/
noncomputable def exTwo : WeakLearner ℝ (Fn Nat ℝ) := fun k _ => if k = 1 then exHalfFirst else exBoth

/-- The solver that adds `ε` to the last multiplier when the result is still accurate up to `ε`. -/
noncomputable def bump (ε : ℝ) (solver : Solver ℝ) : Solver ℝ := fun p =>
  let s := solver p
  let s' : Solution ℝ := { s with z := s.z.dropLast ++ [s.z.getLastD 0 + ε] }
  open Classical in if p.Accurate ε s' then s' else s

theorem bump_accurate {ε : ℝ} (hε : 0 ≤ ε) {solver : Solver ℝ} (h : solver.Correct) : (bump ε solver).Accurate ε := by
  intro p s hp hs
  unfold bump
  simp only []
  split
  · assumption
  · exact correct_accurate solver h ε hε p s hp hs

theorem exBoth_edge (d : List ℝ) (hl : d.length = 2) : Spec.edge exSample d (conf exBoth) = d.sum := by
  match d, hl with
  | [a, b], _ => simp [Spec.edge, exSample, exBoth, conf]

theorem exHalfFirst_edge (d : List ℝ) (hl : d.length = 2) : Spec.edge exSample d (conf exHalfFirst) = d.getD 0 0 / 2 := by
  match d, hl with
  | [a, b], _ => simp [Spec.edge, exSample, exHalfFirst, conf]; ring

/-- The optimal multipliers of the hypotheses in the second round. -/
theorem ex_weights {p : Program ℝ} {b : Nat → ℝ} (hg : IsGamma p exSample [exHalfFirst, exBoth] 1 1 b (fun _ => 0))
    {s : Solution ℝ} (ho : p.Optimal s) : ∃ z1 z2 z3 z4 z5, s.z = [z1, z2, z3, z4, z5, 0, 1] := by
  obtain ⟨γ, d, hx, hz, hdl, hdp, hdc, hed, hwl, hwp, -, hsad⟩ := hg.optimal (fun _ _ => le_rfl) s ho
  have hl : exSample.length = 2 := rfl
  have hzl := ho.zlen
  rw [hg.nRows, hl] at hzl
  have h1 := hsad d hdl hdp hdc
  have h2 := hed exBoth (by simp)
  rw [exBoth_edge d hdl, hdp.2] at h2
  match hz' : s.z, hzl with
  | [z1, z2, z3, z4, z5, z6, z7], _ =>
    have e : s.z.drop (1 + 2 * exSample.length) = [z6, z7] := by rw [hz']; rfl
    rw [e] at hwp h1
    obtain ⟨h3, h4⟩ := hwp
    simp at h3 h4
    match d, hdl with
    | [a, c], _ =>
      have h5 : a + c = 1 := by simpa using hdp.2
      have h6 := hdp.1 a (by simp)
      have h7 := hdp.1 c (by simp)
      simp [Spec.edge, Spec.vote, exSample, exHalfFirst, exBoth, conf] at h1
      have : z6 = 0 := by nlinarith [h3.1, h3.2, mul_nonneg h3.1 h6, mul_nonneg h3.1 h7]
      refine ⟨z1, z2, z3, z4, z5, ?_⟩
      rw [this, show z7 = 1 by linarith]

theorem ex_bump {p : Program ℝ} {b : Nat → ℝ} (hg : IsGamma p exSample [exHalfFirst, exBoth] 1 1 b (fun _ => 0))
    (hp : p.WellFormed) {ε : ℝ} (hε : 0 ≤ ε) {s : Solution ℝ} (ho : p.Optimal s) :
    p.Accurate ε { s with z := s.z.dropLast ++ [s.z.getLastD 0 + ε] } := by
  obtain ⟨z1, z2, z3, z4, z5, hz⟩ := ex_weights hg ho
  have ha := Accurate.of_optimal hp ho
  obtain ⟨hst0, hst⟩ := gamma_tmulVec exSample [exHalfFirst, exBoth] 1 s.z
  obtain ⟨hst0', hst'⟩ := gamma_tmulVec exSample [exHalfFirst, exBoth] 1 [z1, z2, z3, z4, z5, 0, 1 + ε]
  have hz' : s.z.dropLast ++ [s.z.getLastD 0 + ε] = [z1, z2, z3, z4, z5, 0, 1 + ε] := by rw [hz]; simp
  rw [hz']
  have hl : exSample.length = 2 := rfl
  obtain ⟨-, -, -, hb⟩ := hg.b_getD
  rw [← hg.A, hz] at hst0 hst
  rw [← hg.A] at hst0' hst'
  have hstat := ha.stationary
  rw [hz] at hstat
  refine ⟨ha.xlen, ?_, fun i hi => (ha.equality i hi).trans hε, fun i hi => (neg_nonpos.2 hε).trans (by simpa using ha.inequality i hi),
    fun i hi => ?_, fun j hj => ?_, ha.value.trans hε, ?_⟩
  · rw [hg.nRows]; rfl
  · have h1 := ha.dual i hi
    rw [hz] at h1
    rw [hg.isEq, hl] at hi
    have hi7 : i < 7 := by
      by_contra h
      rw [if_neg (by omega), if_neg (by simp; omega)] at hi
      simp at hi
    interval_cases i <;> simp at h1 ⊢ <;> linarith
  · have h1 := hstat j hj
    rw [hg.nCols, hl] at hj
    rw [abs_nonpos_iff] at h1
    interval_cases j
    · rw [hst0'] 
      rw [hst0] at h1
      simp [hl, Finset.sum_range_succ] at h1 ⊢
      rw [abs_le]; constructor <;> linarith
    · rw [hst' 0 (by simp [hl])] 
      rw [hst 0 (by simp [hl])] at h1
      simp [Finset.sum_range_succ, margins, exSample, exHalfFirst, exBoth, conf] at h1 ⊢
      rw [abs_le]; constructor <;> linarith
    · rw [hst' 1 (by simp [hl])] 
      rw [hst 1 (by simp [hl])] at h1
      simp [Finset.sum_range_succ, margins, exSample, exHalfFirst, exBoth, conf] at h1 ⊢
      rw [abs_le]; constructor <;> linarith
  · have h1 := ha.gap
    unfold Program.dualObjective at h1 ⊢
    rw [hz] at h1
    have h6 := hb 1
    rw [hg.nRows, hl] at h1 ⊢
    simp [hl, List.range_succ] at h1 h6 ⊢
    simp [h6] at h1 ⊢
    rw [h1]; simpa using hε

section
variable {H X : Type*} [Classifier H X ℝ]

/-- With an accurate solver the secondary model takes in a hypothesis. -/
theorem mlp_update_accurate {m : MLP.LPModel} {S : Examples X ℝ} {hs : List H} {nu eta : ℝ}
    (hm : MLP.Holds m S hs nu eta) {solver : Solver ℝ} {ε : ℝ} (hsolver : solver.Accurate ε) (noise : Nat → Nat → ℝ)
    (hS : S ≠ []) (hnu : 1 ≤ nu) (h : H) :
    ∃ m', m.update solver noise S (some h) = .ok (m', m'.weights) ∧ MLP.Holds m' S (hs ++ [h]) nu eta ∧
      ∃ p s, IsGamma p S (hs ++ [h]) (1 / nu) (1 / nu) (fun i => noise m.draws i / eta) (fun _ => 0) ∧
        p.WellFormed ∧ p.Optimal s ∧ m'.weights = (solver p).z.drop (2 * S.length + 1) := by
  set m₁ : MLP.LPModel := { m with nHypotheses := m.nHypotheses + 1, rows := pushMargins m.rows (margins S h) } with hm₁
  have hm1 : MLP.Holds m₁ S (hs ++ [h]) nu eta :=
    ⟨hm.nEx, by simp [hm₁, hm.nHyp], by simp only [hm₁, hm.rows]; exact pushMargins_rowsOf S hs h, hm.cap, hm.eta⟩
  have hg := hm1.isGamma noise
  have hnu0 : 0 < nu := by linarith
  have hpos : 0 < 1 / nu := by positivity
  have hlen : (1 : ℝ) ≤ S.length := by
    have : 1 ≤ S.length := List.length_pos_iff.2 hS
    exact_mod_cast this
  obtain ⟨sol, hsol⟩ := hg.exists_optimal hS (by simp) (fun _ _ => le_rfl) hpos (by nlinarith)
  have hp := mlp_program hnu0 hg
  have hwf : (m₁.program noise).WellFormed := ⟨hp.1.1, hp.1.2.1, hp.1.2.2.1, hp.1.2.2.2.1, hp.1.2.2.2.2⟩
  have ha := hsolver _ _ hwf hsol
  have hz := ha.zlen
  have hx := ha.xlen
  rw [hg.nRows] at hz
  rw [hg.nCols] at hx
  have hn1 : m₁.nExamples = S.length := hm1.nEx
  have hu : m.update solver noise S (some h) = .ok ({ m₁ with draws := m₁.draws + 1, weights := (solver (m₁.program noise)).z.drop (2 * m₁.nExamples + 1), dist := (solver (m₁.program noise)).x.drop 1 }, (solver (m₁.program noise)).z.drop (2 * m₁.nExamples + 1)) := by
    unfold MLP.LPModel.update
    simp only []
    rw [← hm₁, if_neg]
    rw [hn1]; omega
  exact ⟨_, hu, ⟨hm1.nEx, hm1.nHyp, hm1.rows, hm1.cap, hm1.eta⟩, _, sol, hg, hwf, hsol, by rw [hn1]⟩

end

theorem second_panics {ε : ℝ} (hε : 0 < ε) {base : Solver ℝ} (hbase : base.Correct) (noise : Nat → Nat → ℝ)
    {s : MLPBoost (Fn Nat ℝ)} (hmax : 2 ≤ s.maxIter) (heta : s.eta = log 2 / (1 / 10)) (hnu : s.nu = 1)
    (hpe : s.primary.eta = s.eta) (hpn : s.primary.nu = 1) (hpt : s.primary.fwType = .shortStep) (hw : s.weights = [1])
    (hh : s.hypotheses = [exHalfFirst]) (htol : s.halfTolerance = 1 / 10) (hgam : s.gamma = 1 / 4) {m : MLP.LPModel}
    (hsec : s.secondary = some m) (hm : MLP.Holds m exSample [exHalfFirst] 1 s.eta) :
    boost (bump ε base) noise exSample s exTwo 2 = .error .assertion := by
  have hlog := Real.log_two_gt_d9
  have hl : exSample.length = 2 := rfl
  have hpos : 0 < s.eta := by rw [heta]; positivity
  obtain ⟨d, hd⟩ := exists_expDist s.eta 1 exSample (weightedConf s.weights s.hypotheses) le_rfl (by simp [hl])
  obtain ⟨hdl, hdc, -, -, -⟩ := hd.capped
  rw [hl] at hdl
  have hv := objval_ok hd hpos
  set v := pot s.eta exSample (weightedConf s.weights s.hypotheses) d / s.eta with hvdef
  have hvle : v ≤ 1 / 10 := by
    have h1 := pot_min hd (d' := [0, 1]) rfl (by constructor <;> simp)
    rw [hvdef, div_le_iff₀ hpos]
    refine h1.trans ?_
    rw [heta, hw, hh]
    simp [pot, entropyFromUni, entropy, weightedConf, Spec.edge, exSample, exHalfFirst, conf]
    linarith
  have hedge : edge exSample d exBoth = 1 := by rw [edge_eq_spec, exBoth_edge d hdl, hdc.2]
  have hne : (exHalfFirst == exBoth) = false := by
    have : exHalfFirst ≠ exBoth := by
      intro h
      have := congrArg (fun f => f.f 0) h
      simp [exHalfFirst, exBoth] at this
    simpa [BEq.beq] using this
  have hE : exTwo 2 d = exBoth := rfl
  obtain ⟨m', hu, -, p, sol, hg, hwf, hsol, hmw⟩ := mlp_update_accurate hm (bump_accurate hε.le hbase) noise
    (by simp [exSample]) le_rfl exBoth
  unfold boost
  rw [if_neg (by omega)]
  rw [hnu, (expDistribution_iff _ _ _ _ _ _).2 hd]
  simp only [hsec, hE]
  rw [if_neg (by norm_num), hgam, hedge, hv]
  simp only [hh, htol]
  rw [if_neg (by norm_num; linarith)]
  have hidx : [exHalfFirst].findIdx (fun f => f == exBoth) = 1 := by simp [List.findIdx, List.findIdx.go, hne]
  simp only [hidx, List.length_singleton, decide_true, if_true, hw]
  have hprob : Spec.IsProb [(1 : ℝ), 0] := by constructor <;> simp
  obtain ⟨prim, h1, h2, h3⟩ := step_prob s.primary (by rw [hpe]; exact hpos) (S := exSample) (by rw [hpn])
    (by rw [hpn]; simp [hl]) (d := d) (w := [1, 0]) (hs := [exHalfFirst, exBoth]) (pos := 1) (h := exBoth) (n := 1) le_rfl
    (by rw [hpt]; left; decide) hdl hprob rfl rfl (by
      rw [exBoth_edge d hdl, hdc.2]
      match d, hdl with
      | [a, c], _ =>
        have h5 : a + c = 1 := by simpa using hdc.2
        have h6 := (hdc.1 a (by simp)).1
        have h7 := (hdc.1 c (by simp)).1
        simp [Spec.edge, weightedConf, exSample, exHalfFirst, exBoth, conf]
        linarith)
  rw [show [1] ++ [(0 : ℝ)] = [1, 0] from rfl, show [exHalfFirst] ++ [exBoth] = [exHalfFirst, exBoth] from rfl, h1]
  simp only []
  rw [hu]
  simp only []
  -- the weights of the secondary update
  have hseco : m'.weights = [0, 1 + ε] := by
    have hg' : IsGamma p exSample [exHalfFirst, exBoth] 1 1 (fun i => noise m.draws i / s.eta) (fun _ => 0) := by
      simpa using hg
    have ho := hbase p sol hsol
    have ha := ex_bump hg' hwf hε.le ho
    obtain ⟨z1, z2, z3, z4, z5, hz⟩ := ex_weights hg' ho
    rw [hmw]
    unfold bump
    simp only []
    rw [if_pos ha, hz]
    simp [exSample]
  rw [hseco]
  have hbw : betterWeight exSample s.eta 1 [exHalfFirst, exBoth] prim [0, 1 + ε] = .ok [0, 1 + ε] := by
    obtain ⟨e1, he1⟩ := exists_expDist s.eta 1 exSample (weightedConf prim [exHalfFirst, exBoth]) le_rfl (by simp [hl])
    obtain ⟨e2, he2⟩ := exists_expDist s.eta 1 exSample (weightedConf [0, 1 + ε] [exHalfFirst, exBoth]) le_rfl (by simp [hl])
    unfold betterWeight
    rw [objval_ok he1 hpos, objval_ok he2 hpos]
    simp only []
    rw [if_neg]
    have h4 : pot s.eta exSample (weightedConf prim [exHalfFirst, exBoth]) e1 ≤ s.eta := by
      have h5 := pot_min he1 (d' := [1 / 2, 1 / 2]) rfl (by constructor <;> norm_num)
      refine h5.trans ?_
      match prim, h3 with
      | [a, c], _ =>
        have h6 : a + c = 1 := by simpa using h2.2
        have h7 := h2.1 a (by simp)
        have e0 : entropyFromUni [(1 : ℝ) / 2, 1 / 2] = 0 := by
          simp [entropyFromUni, entropy]; ring
        unfold pot
        rw [e0, zero_add]
        apply mul_le_of_le_one_right hpos.le
        simp [Spec.edge, weightedConf, exSample, exHalfFirst, exBoth, conf]
        linarith
    have h5 : s.eta * (1 + ε) ≤ pot s.eta exSample (weightedConf [0, 1 + ε] [exHalfFirst, exBoth]) e2 := by
      refine le_trans (le_of_eq ?_) (edge_le_pot he2)
      obtain ⟨hel, hec, -⟩ := he2.capped
      congr 1
      match e2, hel with
      | [a, c], _ =>
        have h5 : a + c = 1 := by simpa using hec.2
        simp [Spec.edge, weightedConf, exSample, exHalfFirst, exBoth, conf]
        rw [← add_mul, h5, one_mul]
    rw [not_le, div_lt_div_iff_of_pos_right hpos]
    have := mul_pos hpos hε
    linarith
  rw [hbw]
  simp only []
  have hcheck : checkCappedSimplex [0, 1 + ε] 1 = .error .assertion := by
    unfold checkCappedSimplex checkNu
    rw [if_pos (by norm_num)]
    simp only []
    rw [if_neg]
    rintro ⟨-, h6⟩
    have := (h6 (1 + ε) (by simp)).2
    linarith
  rw [hcheck]

/-- C115: for every accuracy `ε > 0` there are a solver of accuracy `ε`, a sample of two rows and a weak learner of two
hypotheses for which MLPBoost panics in the second round, whatever the perturbation. -/
theorem mlpboost_accurate_panics (ε : ℝ) (hε : 0 < ε) : ∃ solver : Solver ℝ, solver.Accurate ε ∧
    ∀ noise fuel, 2 ≤ fuel →
      (MLPBoost.booster solver noise exSample).run exTwo fuel exMlp = some (.error .assertion) := by
  obtain ⟨base, hbase⟩ := exists_correct_solver
  refine ⟨bump ε base, bump_accurate hε.le hbase, fun noise fuel hf => ?_⟩
  have hlog := Real.log_two_gt_d9
  have hl : exSample.length = 2 := rfl
  obtain ⟨s, hs⟩ : ∃ s, preprocess exSample exMlp = .ok s := by
    unfold preprocess
    rw [exSample_valid]
    simp only []
    rw [if_neg exMlp_ok.tol.ne']
    exact ⟨_, rfl⟩
  have hi := inv_start (wl := exTwo) hs
  obtain ⟨m, hsec, hm, -⟩ := hi.sec
  have hhyp := hi.zero rfl
  have hws : s.weights = [] := by have := hi.len; rw [hhyp] at this; simpa using this
  have hpn : s.primary.nu = 1 := by
    unfold preprocess at hs
    rw [exSample_valid] at hs
    simp only [] at hs
    rw [if_neg exMlp_ok.tol.ne', Except.ok.injEq] at hs
    rw [← hs]; rfl
  have hmax : 2 ≤ s.maxIter := by
    rw [hi.maxIter, Nat.succ_le_iff, Nat.lt_ceil]
    norm_num [exSample, exMlp]
    linarith
  obtain ⟨d, hd⟩ := exists_expDist s.eta 1 exSample (weightedConf s.weights s.hypotheses) le_rfl (by simp [hl])
  have hdu : d = [1 / 2, 1 / 2] := by
    rw [expDist_zero (by intro x; rw [hhyp]; simp [weightedConf]) hd]
    simp [exSample, List.replicate]
  have hnu : s.nu = 1 := hi.nu
  rw [hhyp] at hm
  obtain ⟨m', hu, hm', -⟩ := mlp_update_accurate hm (bump_accurate hε.le hbase) noise (by simp [exSample])
    (show 1 ≤ exMlp.nu from le_rfl) exHalfFirst
  set s1 : MLPBoost (Fn Nat ℝ) := { s with gamma := 1 / 4, hypotheses := [exHalfFirst], weights := [1], secondary := some m' } with hs1
  have hb1 : boost (bump ε base) noise exSample s exTwo 1 = .ok { state := s1, flow := .cont, queries := [d] } := by
    unfold boost
    rw [if_neg (by omega), hnu, (expDistribution_iff _ _ _ _ _ _).2 hd]
    have hedge : edge exSample d exHalfFirst = 1 / 4 := by
      rw [edge_eq_spec, hdu, exHalfFirst_edge _ rfl]; norm_num
    have hgam : s.gamma = 1 := by rw [hi.gamma]; simp [bestEdge]
    simp only [hsec, if_true, show exTwo 1 d = exHalfFirst from rfl, hu, hedge, hgam, hhyp, hws]
    rw [hs1]
    congr 2
    norm_num [hnu]
  have hb2 : boost (bump ε base) noise exSample s1 exTwo 2 = .error .assertion := by
    refine second_panics hε hbase noise hmax ?_ hnu hi.fwEta hpn hi.fwType rfl rfl hi.tol rfl rfl ?_
    · have := hi.eta
      simpa [exSample, exMlp] using this
    · exact hm'
  obtain ⟨k, rfl⟩ : ∃ k, fuel = k + 2 := ⟨fuel - 2, by omega⟩
  unfold Booster.run
  rw [show (MLPBoost.booster (bump ε base) noise exSample).preprocess exMlp exTwo = .ok s from hs]
  simp only []
  rw [Booster.loop, show (MLPBoost.booster (bump ε base) noise exSample).boost s exTwo 1 = _ from hb1]
  simp only []
  rw [Booster.loop, show (MLPBoost.booster (bump ε base) noise exSample).boost s1 exTwo (1 + 1) = _ from hb2]
  simp [Except.map]

/-- With a correct solver the same run returns. -/
example (noise : Nat → Nat → ℝ) (solver : Solver ℝ) (hsolver : solver.Correct) :
    ∃ f qs, (MLPBoost.booster solver noise exSample).run exTwo (mlpLimit exSample exMlp + 1) exMlp = some (.ok (f, qs)) :=
  mlp_returns exSample exMlp exMlp_ok solver hsolver noise exSample_valid (by norm_num [exMlp, exSample]) exTwo

end Miniboosts.Props
