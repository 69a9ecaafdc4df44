import Verif.Lemmas.GammaAccurate
import Verif.Props.SoftBoost
import Verif.Props.LPAccurate

/-! # SoftBoost and TotalBoost with a solver of finite accuracy (C116) -/

namespace Miniboosts.Props

open Real LP

variable {H X : Type*} [Classifier H X ℝ]

/-- A positive vector whose total is within `ε` of 1. -/
def NearPosProb (ε : ℝ) (d : List ℝ) : Prop := (∀ p ∈ d, 0 < p) ∧ |d.sum - 1| ≤ ε

theorem NearPosProb.le_two {ε : ℝ} (hε1 : ε ≤ 1) {d : List ℝ} (hd : NearPosProb ε d) : ∀ q ∈ d, q ≤ 2 := by
  intro q hq
  have h1 := (abs_le.1 hd.2).2
  have h2 := single_le_sum_map d (fun r => r) (fun r hr => (hd.1 r hr).le) hq
  rw [List.map_id'] at h2
  linarith

theorem pen_ge_two (dist d : List ℝ) (n : Nat) (hl : dist.length = n) (h0 : ∀ q ∈ dist, 0 < q) (h2 : ∀ q ∈ dist, q ≤ 2) :
    -2 * (n : ℝ) ≤ quadPen n (fun i => log (dist.getD i 0)) (fun i => 1 / dist.getD i 0) d := by
  unfold quadPen
  have : ∀ i ∈ Finset.range n, (-2 : ℝ) ≤ log (dist.getD i 0) * d.getD i 0 + 1 / dist.getD i 0 * d.getD i 0 ^ 2 / 2 := by
    intro i hi
    have hi' := Finset.mem_range.1 hi
    have hmem := getD_mem dist i (by rw [hl]; exact hi')
    have h1 := log_expansion_ge (dist.getD i 0) (d.getD i 0) (h0 _ hmem) (h2 _ hmem)
    have h2 : d.getD i 0 ^ 2 / (2 * dist.getD i 0) = 1 / dist.getD i 0 * d.getD i 0 ^ 2 / 2 := by
      have := (h0 _ hmem).ne'
      field_simp
    linarith
  have h := Finset.sum_le_sum this
  rw [Finset.sum_const, Finset.card_range, nsmul_eq_mul] at h
  linarith

/-- One answer of the solver, if it passes the test for positive entries. -/
theorem soft_answer_near {m : SoftQP.QPModel} {S : Examples X ℝ} {hs : List H} {nu : ℝ} (hm : SoftQP.Holds m S hs nu) (g ε : ℝ)
    (hε1 : ε ≤ 1) (dist : List ℝ) (hl : dist.length = S.length) (hd : NearPosProb ε dist) {solver : Solver ℝ}
    (hsolver : solver.Accurate ε) (hsig : solver.Signals) (hpos : ∀ q ∈ (solver (m.program g dist)).x, 0 < q) :
    (solver (m.program g dist)).x.length = S.length ∧ NearPosProb ε (solver (m.program g dist)).x ∧
      (∀ h ∈ hs, Spec.edge S (solver (m.program g dist)).x (conf h) ≤ g + ε) ∧
      -2 * (S.length : ℝ) - ε ≤ (solver (m.program g dist)).objVal := by
  have hp := hm.isDist g dist hl
  have hwf : (m.program g dist).WellFormed := by
    refine ⟨?_, ?_, ?_, ?_, hp.isEq_length⟩
    · rw [hp.A]; exact dist_wellFormed S hs _
    · rw [hp.qlen, hp.nCols]
    · rw [hp.pcols, hp.nCols]
    · rw [hp.rhs, hp.nRows]; simp [rhsOf]; omega
  have hex : ∃ s, (m.program g dist).Optimal s := by
    by_contra hno
    obtain ⟨q, hq, hq2⟩ := hsig (m.program g dist) (fun s hs => hno ⟨s, hs⟩)
    exact absurd (hpos q hq) (not_lt.2 hq2)
  obtain ⟨sol, hsol⟩ := hex
  have ho := hsolver _ sol hwf hsol
  set x := (solver (m.program g dist)).x with hx
  have hxl : x.length = S.length := by rw [hx, ho.xlen, hp.nCols]
  obtain ⟨s0, s1, s2, s3⟩ := hp.slack x hxl
  refine ⟨hxl, ⟨hpos, ?_⟩, ?_, ?_⟩
  · have := ho.equality 0 (by rw [hp.isEq, if_pos rfl])
    rw [← hx, s0] at this
    rw [abs_sub_comm]; exact this
  · intro h hh
    obtain ⟨k, hk, rfl⟩ := List.getElem_of_mem hh
    have := ho.inequality (1 + 2 * S.length + k) (by rw [hp.isEq, if_neg (by omega), if_pos (by omega)])
    rw [← hx, s3 k hs[k] (by simp [hk])] at this
    linarith
  · have h1 := (abs_le.1 ho.value).1
    rw [← hx, hp.objective_eq _ hxl] at h1
    have h2 := pen_ge_two dist x S.length hl hd.1 (hd.le_two hε1)
    linarith

/-- The inner loop ends and leaves a nearly normalised positive vector. -/
theorem soft_loop_near {S : Examples X ℝ} {hs : List H} {nu ε : ℝ} (hε1 : ε ≤ 1) {solver : Solver ℝ}
    (hsolver : solver.Accurate ε) (hsig : solver.Signals) {m : SoftQP.QPModel} (hm : SoftQP.Holds m S hs nu) (g : ℝ) (fuel : Nat)
    (dist : List ℝ) (old : ℝ) (hl : dist.length = S.length) (hd : NearPosProb ε dist)
    (hold : -2 * (S.length : ℝ) - 1 ≤ old)
    (hfuel : old + 2 * (S.length : ℝ) + 1 < (fuel : ℝ) * SoftQP.qpTolerance) :
    ∃ d b, SoftQP.QPModel.solveLoop solver m g fuel dist old = .ok (d, b) ∧ d.length = S.length ∧ NearPosProb ε d ∧
      (b = true → ∀ h ∈ hs, Spec.edge S d (conf h) ≤ g + ε) := by
  induction fuel generalizing dist old with
  | zero => simp at hfuel; linarith
  | succ fuel ih =>
    have c0 : ¬ (dist.any fun d => decide (d ≤ 0)) = true := by
      rw [List.any_eq_true]
      rintro ⟨p, hp, hp2⟩
      have := hd.1 p hp
      simp at hp2
      linarith
    simp only [SoftQP.QPModel.solveLoop]
    rw [if_neg c0]
    by_cases c1 : ((solver (m.program g dist)).x.all fun d => decide (0 < d)) = true
    · rw [if_neg (by simpa using c1)]
      have hpos : ∀ q ∈ (solver (m.program g dist)).x, 0 < q := by
        intro q hq
        have := List.all_eq_true.1 c1 q hq
        simpa using this
      obtain ⟨s2, s3, s4, s5⟩ := soft_answer_near hm g ε hε1 dist hl hd hsolver hsig hpos
      rw [SoftQP.updateZip_snd dist _ (by rw [s2, hl])]
      by_cases c2 : old - (solver (m.program g dist)).objVal < SoftQP.qpTolerance
      · rw [if_pos c2]
        exact ⟨_, _, rfl, s2, s3, fun _ => s4⟩
      · rw [if_neg c2]
        exact ih _ _ s2 s3 (by linarith) (by push_cast at hfuel; linarith)
    · rw [if_pos (by simpa using c1)]
      exact ⟨dist, false, rfl, hl, hd, by simp⟩

/-- Rounds that suffice for the inner loop. -/
def softEnough (n : Nat) : Nat := SoftQP.enough (n + 1)

theorem softEnough_spec (n fuel : Nat) (h : softEnough n ≤ fuel) :
    (10 : ℝ) ^ 9 + 2 * (n : ℝ) + 1 < (fuel : ℝ) * SoftQP.qpTolerance := by
  have := SoftQP.enough_spec (n + 1) fuel h
  push_cast at this
  linarith

theorem near_uniform {ε : ℝ} (hε : 0 ≤ ε) (S : Examples X ℝ) (hS : S ≠ []) :
    NearPosProb ε (List.replicate S.length (1 / (S.length : ℝ))) := by
  obtain ⟨h1, h2⟩ := SoftQP.uniform_prob S hS
  exact ⟨h1, by rw [h2, sub_self, abs_zero]; exact hε⟩

theorem soft_dist_near {S : Examples X ℝ} {ε : ℝ} (hε : 0 ≤ ε) (hε1 : ε ≤ 1) {s₀ : SoftBoost H} {solver : Solver ℝ}
    (hsolver : solver.Accurate ε) (hsig : solver.Signals) {fuel : Nat} (hfuel : softEnough S.length ≤ fuel)
    {wl : WeakLearner ℝ H} {n : Nat} {qs : List (List ℝ)} {s : SoftBoost H}
    (hr : (SoftBoost.booster solver fuel S).Reachable wl s₀ n qs s) : NearPosProb ε s.dist := by
  induction hr with
  | start h =>
    have hi := soft_start h
    rw [hi.uni rfl]
    exact near_uniform hε S (checkBinary_ne_nil hi.bin)
  | @step n qs s₁ out hr hb hf ih =>
    have hi := soft_inv hr
    rcases soft_step hi wl hb with ⟨-, h, -⟩ | ⟨h1, h2, h3, h4, h5, m, d, b, h6, h7, h8, h9, -⟩
    · rw [h] at hf; cases hf
    obtain ⟨m₀, hm₀, hh⟩ := hi.model
    rw [h6, Option.some.injEq] at hm₀
    subst hm₀
    obtain ⟨d', b', e1, e2, e3, -⟩ := soft_loop_near hε1 hsolver hsig (hh.addColumn (wl (n + 1) s₁.dist))
      out.state.gammaHat fuel s₁.dist (10 ^ 9) hi.dlen ih
      (by have : (0 : ℝ) ≤ S.length := Nat.cast_nonneg _; linarith) (softEnough_spec _ _ hfuel)
    rw [h9, Except.ok.injEq, Prod.mk.injEq] at e1
    rw [h8, e1.1]; exact e3

/-- C116: with a solver of accuracy `ε ≤ 1` no round panics or hangs, every vector handed to the weak learner has
one positive entry per example and a total within `ε` of 1, and if the run goes on after the round, the new vector
gives every hypothesis collected so far an edge of at most the target plus `ε`. -/
theorem softboost_accurate_rounds (S : Examples X ℝ) (ε : ℝ) (hε : 0 ≤ ε) (hε1 : ε ≤ 1) (s₀ : SoftBoost H)
    (solver : Solver ℝ) (hsolver : solver.Accurate ε) (hsig : solver.Signals) (fuel : Nat)
    (hfuel : softEnough S.length ≤ fuel) (wl : WeakLearner ℝ H) (n : Nat) (qs : List (List ℝ)) (s : SoftBoost H)
    (hr : (SoftBoost.booster solver fuel S).Reachable wl s₀ n qs s) :
    ∃ out, (SoftBoost.booster solver fuel S).boost s wl (n + 1) = .ok out ∧
      (∀ d ∈ out.queries, d.length = S.length ∧ (∀ p ∈ d, 0 < p) ∧ |d.sum - 1| ≤ ε) ∧
      (out.flow = .cont → ∀ h ∈ out.state.hypotheses,
        Spec.edge S out.state.dist (conf h) ≤ out.state.gammaHat + ε) := by
  have hi := soft_inv hr
  have hd := soft_dist_near hε hε1 hsolver hsig hfuel hr
  obtain ⟨m, hm, hh⟩ := hi.model
  have hloop := fun g => soft_loop_near hε1 hsolver hsig (hh.addColumn (wl (n + 1) s.dist)) g fuel s.dist (10 ^ 9) hi.dlen hd
        (by have : (0 : ℝ) ≤ S.length := Nat.cast_nonneg _; linarith) (softEnough_spec _ _ hfuel)
  have hex : ∃ out, (SoftBoost.booster solver fuel S).boost s wl (n + 1) = .ok out := by
    simp only [SoftBoost.booster, SoftBoost.boost, hm, SoftQP.QPModel.update]
    split
    · exact ⟨_, rfl⟩
    · generalize (if Miniboosts.edge S s.dist (wl (n + 1) s.dist) < s.gammaHat then Miniboosts.edge S s.dist (wl (n + 1) s.dist)
        else s.gammaHat) = g
      obtain ⟨d', b', e1, -⟩ := hloop g
      rw [e1]
      simp only
      cases b' with
      | true => exact ⟨_, rfl⟩
      | false => exact ⟨_, rfl⟩
  obtain ⟨out, ho⟩ := hex
  refine ⟨out, ho, ?_⟩
  rcases soft_step hi wl ho with ⟨-, h1, h2, -⟩ | ⟨-, h2, -, h4, -, m', d, b, h6, -, h8, h9, h10⟩
  · rw [h1, h2]; simp
  · refine ⟨fun d hdm => ?_, fun hc => ?_⟩
    · rw [h2, List.mem_singleton] at hdm
      rw [hdm]; exact ⟨hi.dlen, hd⟩
    · rcases h10 with ⟨-, h⟩ | ⟨hb, -⟩
      · rw [h] at hc; cases hc
      rw [hm, Option.some.injEq] at h6
      subst h6
      obtain ⟨d', b', e1, -, -, e4⟩ := hloop out.state.gammaHat
      rw [h9, Except.ok.injEq, Prod.mk.injEq] at e1
      rw [h8, h4, e1.1]
      exact e4 (by rw [← e1.2]; exact hb)

/-! ## The output -/

/-- C116: the final linear program. `run` returns a convex combination `f` of the collected hypotheses, and there are
a value `γ` and a capped distribution `d` such that the soft margin of `f` is at least `γ` up to `ε` times
`m/ν + 2 T + 4`, while `d` gives every collected hypothesis an edge of at most `γ` up to `ε` times `2 m + 3`; `m`
examples, `T` rounds. -/
theorem softboost_accurate_output (S : Examples X ℝ) (ε : ℝ) (hε : 0 ≤ ε) (hε1 : ε < 1) (s₀ : SoftBoost H)
    (solver : Solver ℝ) (hsolver : solver.Accurate ε) (fuel : Nat) (wl : WeakLearner ℝ H)
    (hb : ∀ k d, ∀ e ∈ S, |e.2 * conf (wl k d) e.1| ≤ (1 : ℝ)) (k : Nat)
    (f : WeightedMajority ℝ H) (qs : List (List ℝ))
    (hrun : (SoftBoost.booster solver fuel S).run wl k s₀ = some (.ok (f, qs))) :
    ∃ hs : List H, ∃ γ : ℝ, ∃ d : List ℝ, hs.length = qs.length ∧
      (∀ i q h, qs[i]? = some q → hs[i]? = some h → h = wl (i + 1) q) ∧
      Spec.IsProb f.weights ∧ (∀ h ∈ f.hypotheses, h ∈ hs) ∧
      Spec.SoftMarginGe S s₀.nu (conf f) (γ - (S.length / s₀.nu + 2 * qs.length + 4) * ε) ∧
      d.length = S.length ∧ Spec.IsCapped s₀.nu d ∧ ∀ h ∈ hs, Spec.edge S d (conf h) ≤ γ + (2 * S.length + 3) * ε := by
  obtain ⟨hs, m, hS, hnu1, hnu2, g3, g4, g5, hne, w, hw', hpost⟩ := soft_final S s₀ solver fuel wl k f qs hrun
  have hbs : ∀ h ∈ hs, ∀ e ∈ S, |e.2 * conf h e.1| ≤ 1 := by
    intro h hh
    obtain ⟨i, hi, rfl⟩ := List.getElem_of_mem hh
    rw [g5 i qs[i] hs[i] (by simp) (by simp)]
    exact hb _ _
  have hgam := g3.isGamma
  have hcl : (1 : ℝ) ≤ (S.length : ℝ) * (1 / s₀.nu) := ERLP.cap_length hnu1 hnu2
  have hci : 0 ≤ 1 / s₀.nu := by positivity
  obtain ⟨sol, hsol⟩ := hgam.exists_optimal hS hne (fun _ _ => le_rfl) one_pos hcl
  obtain ⟨γ, d, k1, k2, k3, k4, k5, k6, k7, k8, k9, k10⟩ :=
    hgam.accurate (fun _ _ => le_rfl) hci ε hε _ (hsolver _ sol hgam.wellFormed hsol)
  have hw : m.weights solver = .ok ((solver m.lpProgram).z.drop (1 + 2 * S.length)) := by
    unfold SoftQP.QPModel.weights
    rw [g3.nEx]
    simp only
    rw [if_neg (by omega)]
  rw [hw', Except.ok.injEq] at hw
  rw [← hw] at k7 k8 k10
  obtain ⟨f', hf1, hf2, hf3, hf4, hf5⟩ := Accurate.fromSlices_near (X := X) w hs k7 ε hε hε1 k8
  rw [hpost, Except.ok.injEq] at hf1
  subst hf1
  have hpen : ∀ d : List ℝ, quadPen S.length (fun _ => 0) (fun _ => 0) d = 0 := by
    intro d; unfold quadPen; simp
  obtain ⟨d', x1, x2, x3⟩ := exists_near_capped S d k3 s₀.nu hnu1 hnu2 ε hε k4 (fun q hq => by
    have := k5 q hq; linarith)
  rw [hpen, add_zero] at k9
  have h9 := abs_le.1 k9
  refine ⟨hs, (solver m.lpProgram).objVal, d', g4, g5, hf2, hf4, ?_, x1, x2, fun h hh => ?_⟩
  · intro d'' hd'' hcap
    have h1 := k10 d'' hd'' ⟨fun p hp => (hcap.1 p hp).1, hcap.2⟩ (fun p hp => by rw [one_mul]; exact hcap.1 p hp)
    rw [hpen, add_zero] at h1
    have hprob : Spec.IsProb d'' := ⟨fun p hp => (hcap.1 p hp).1, hcap.2⟩
    -- the vote and the normalised vote
    have h2 : Spec.edge S d'' (fun x => Spec.vote conf (List.zip w hs) x) ≤
        Spec.edge S d'' (conf f) + (2 * hs.length + 1) * ε := by
      have hle : ∀ (S : Examples X ℝ) (q : List ℝ), q.length = S.length → (∀ p ∈ q, 0 ≤ p) → ∀ (u v : X → ℝ) (c : ℝ),
          (∀ e ∈ S, e.2 * u e.1 ≤ e.2 * v e.1 + c) → Spec.edge S q u ≤ Spec.edge S q v + c * q.sum := by
        intro S
        induction S with
        | nil => intro q hq _ u v c _; simp at hq; subst hq; simp [Spec.edge]
        | cons e S ih =>
          intro q hq hq0 u v c huv
          match q, hq with
          | p :: q, hq =>
            have i1 := ih q (by simpa using hq) (fun p hp => hq0 p (by simp [hp])) u v c (fun e he => huv e (by simp [he]))
            have i2 := mul_le_mul_of_nonneg_left (huv e (by simp)) (hq0 p (by simp))
            simp only [Spec.edge, List.zip_cons_cons, List.map_cons, List.sum_cons] at i1 ⊢
            linarith
      have := hle S d'' hd'' hprob.1 (fun x => Spec.vote conf (List.zip w hs) x) (conf f) ((2 * hs.length + 1) * ε) (by
        intro e he
        have := (abs_le.1 (hf5 e.2 e.1 fun h hh => hbs h hh e he)).1
        linarith)
      rw [hprob.2, mul_one] at this
      exact this
    rw [g4] at h2
    have e : (S.length : ℝ) * (1 / s₀.nu) = S.length / s₀.nu := by ring
    rw [e] at h1
    linarith
  · have h1 := k6 h hh
    have h2 := (abs_le.1 (x3 (conf h) (hbs h hh))).2
    linarith [h9.1]

/-- C116: no convex combination of the collected hypotheses has a soft margin that is better than that of the
hypothesis returned by more than `ε` times `m/ν + 2 m + 2 T + 7`. -/
theorem softboost_accurate_optimal (S : Examples X ℝ) (ε : ℝ) (hε : 0 ≤ ε) (hε1 : ε < 1) (s₀ : SoftBoost H)
    (solver : Solver ℝ) (hsolver : solver.Accurate ε) (fuel : Nat) (wl : WeakLearner ℝ H)
    (hb : ∀ k d, ∀ e ∈ S, |e.2 * conf (wl k d) e.1| ≤ (1 : ℝ)) (k : Nat) (f : WeightedMajority ℝ H) (qs : List (List ℝ))
    (hrun : (SoftBoost.booster solver fuel S).run wl k s₀ = some (.ok (f, qs)))
    (v : List (ℝ × H)) (hv : ∀ p ∈ v, 0 ≤ p.1 ∧ ∃ i q, qs[i]? = some q ∧ p.2 = wl (i + 1) q) (hv1 : (v.map Prod.fst).sum = 1)
    (ρ : ℝ) (hρ : Spec.SoftMarginGe S s₀.nu (Spec.vote conf v) ρ) :
    Spec.SoftMarginGe S s₀.nu (conf f) (ρ - (S.length / s₀.nu + 2 * S.length + 2 * qs.length + 7) * ε) := by
  obtain ⟨hs, γ, d, h1, h2, h3, h4, h5, h6, h7, h8⟩ := softboost_accurate_output S ε hε hε1 s₀ solver hsolver fuel wl hb k f qs hrun
  have e1 := hρ d h6 h7
  have e2 : Spec.edge S d (Spec.vote conf v) ≤ γ + (2 * S.length + 3) * ε := by
    have h2' := LP.pair_edge S (v.map Prod.snd) d (v.map Prod.fst) (by simp)
    rw [zip_map_fst_snd] at h2'
    rw [show Spec.edge S d (Spec.vote conf v) = _ from h2']
    refine LP.weighted_le v (fun p hp => (hv p hp).1) hv1 (fun h => Spec.edge S d (conf h)) _ ?_
    intro p hp
    obtain ⟨i, q, hq, hpq⟩ := (hv p hp).2
    apply h8
    have hi : i < qs.length := (List.getElem?_eq_some_iff.1 hq).1
    have hi' : i < hs.length := by omega
    have := h2 i q hs[i] hq (by simp [hi'])
    rw [hpq, ← this]
    exact List.getElem_mem hi'
  intro d' hd' hcap
  have := h5 d' hd' hcap
  linarith

/-- C116: with a valid sample, a nonzero tolerance, `1 ≤ ν < m` and a solver of accuracy `ε < 1`, `run` returns. -/
theorem softboost_accurate_returns (S : Examples X ℝ) (ε : ℝ) (hε : 0 ≤ ε) (hε1 : ε < 1) (s₀ : SoftBoost H)
    (hbin : checkBinary S = .ok ()) (htol : s₀.tolerance ≠ 0)
    (hnu1 : 1 ≤ s₀.nu) (hnu2 : s₀.nu < S.length) (solver : Solver ℝ) (hsolver : solver.Accurate ε) (hsig : solver.Signals)
    (fuel : Nat) (hfuel : softEnough S.length ≤ fuel) (wl : WeakLearner ℝ H) :
    ∃ f qs, (SoftBoost.booster solver fuel S).run wl (softLimit S s₀ + 1) s₀ = some (.ok (f, qs)) ∧
      qs.length ≤ softLimit S s₀ := by
  obtain ⟨r, hr, hrl⟩ := softboost_terminates S s₀ solver fuel wl
  suffices hok : ∃ f qs, r = .ok (f, qs) by
    obtain ⟨f, qs, rfl⟩ := hok
    exact ⟨f, qs, hr, hrl f qs rfl⟩
  have hlim := (softLimit_pos S s₀ htol hnu1).2 hnu2
  obtain ⟨s1, hs1⟩ := (softboost_preprocess_iff S s₀).2 ⟨hbin, htol, hnu1, hnu2.le⟩
  unfold Booster.run at hr
  rw [show (SoftBoost.booster solver fuel S).preprocess s₀ wl = .ok s1 from hs1] at hr
  simp only at hr
  cases hl : (SoftBoost.booster solver fuel S).loop wl (softLimit S s₀ + 1) s1 1 with
  | none => rw [hl] at hr; simp at hr
  | some r' =>
    rcases (SoftBoost.booster solver fuel S).loop_spec wl s₀ (Booster.Reachable.start (B := SoftBoost.booster solver fuel S)
      (wl := wl) (s := s₀) hs1) hl with ⟨n', qs', s', h1, h2, e, h3, h4⟩ | ⟨n', qs', s', out, k, h1, h2, h3, h4, qs, h5, h6⟩
    · obtain ⟨out, g1, -⟩ := softboost_accurate_rounds S ε hε hε1.le s₀ solver hsolver hsig fuel hfuel wl n' qs' s' h1
      rw [g1] at h3; cases h3
    · rw [hl, h6] at hr
      simp only at hr
      have hi := soft_inv h1
      have hS := checkBinary_ne_nil hi.bin
      obtain ⟨m, hm, hh⟩ := hi.model
      have key : ∀ (m : SoftQP.QPModel) (hs : List H) (s : SoftBoost H), SoftQP.Holds m S hs s₀.nu → hs ≠ [] → s.qpModel = some m →
          s.hypotheses = hs → ∃ f, SoftBoost.postprocess solver s = .ok f := by
        intro m hs s hm hne hq hh
        have hgam := hm.isGamma
        obtain ⟨sol, hsol⟩ := hgam.exists_optimal hS hne (fun _ _ => le_rfl) one_pos (ERLP.cap_length hi.nu1 hi.nu2)
        obtain ⟨γ, d, k1, k2, k3, k4, k5, k6, k7, k8, k9, k10⟩ := hgam.accurate (fun _ _ => le_rfl) (by positivity) ε hε _
          (hsolver _ sol hgam.wellFormed hsol)
        have hw : m.weights solver = .ok ((solver m.lpProgram).z.drop (1 + 2 * S.length)) := by
          unfold SoftQP.QPModel.weights
          rw [hm.nEx]
          simp only
          rw [if_neg (by omega)]
        obtain ⟨f', hf1, -⟩ := Accurate.fromSlices_near (X := X) _ hs k7 ε hε hε1 k8
        simp only [SoftBoost.postprocess, hq, hw, hh]
        exact ⟨f', hf1⟩
      have hpost : ∃ f, (SoftBoost.booster solver fuel S).postprocess out.state = .ok f := by
        rcases soft_step hi wl h3 with ⟨a1, a2, a3, a4⟩ | ⟨a1, a2, a3, a4, a5, m', d, b, a6, a7, a8, a9, -⟩
        · rw [a4]
          refine key m _ s' hh ?_ hm rfl
          intro h0
          have := hi.hlen
          rw [h0] at this
          simp at this; omega
        · rw [a6, Option.some.injEq] at hm
          subst hm
          exact key _ _ _ (hh.addColumn _) (by simp) a7 a4
      obtain ⟨f, hf⟩ := hpost
      rw [hf] at hr
      simp only [Option.some.injEq] at hr
      exact ⟨f, qs, hr.symm⟩

/-! ## A case that meets the hypotheses -/

theorem exMinLearner_bound (k : Nat) (d : List ℝ) : ∀ e ∈ exThree, |e.2 * conf (exMinLearner k d) e.1| ≤ (1 : ℝ) := by
  have h : ∀ i, ∀ e ∈ exThree, |e.2 * conf (exWrongAt i) e.1| ≤ (1 : ℝ) := by
    intro i e he
    simp only [exWrongAt, conf]
    simp [exThree] at he
    rcases he with rfl | rfl | rfl <;> simp only [] <;> split_ifs <;> simp
  intro e he
  unfold exMinLearner
  split_ifs <;> exact h _ e he

/-- TotalBoost on the three-example sample with a solver that really is off by `10⁻⁸`: `run` returns, and no convex
combination of the hypotheses has a margin that is better by more than `(16 + 2 T) 10⁻⁸`. -/
example : ∃ (solver : Solver ℝ) (t : TotalBoost (Fn Nat ℝ)) (f : WeightedMajority ℝ (Fn Nat ℝ)) (qs : List (List ℝ)),
    solver.Accurate (1 / 10 ^ 8) ∧ solver.Signals ∧ ¬ solver.Correct ∧ TotalBoost.init exThree = .ok t ∧
    (TotalBoost.booster solver (softEnough 3) exThree).run exMinLearner (softLimit exThree t.softboost + 1) t = some (.ok (f, qs)) ∧
    ∀ (v : List (ℝ × Fn Nat ℝ)), (∀ p ∈ v, 0 ≤ p.1 ∧ ∃ i q, qs[i]? = some q ∧ p.2 = exMinLearner (i + 1) q) →
      (v.map Prod.fst).sum = 1 → ∀ ρ, Spec.SoftMarginGe exThree 1 (Spec.vote conf v) ρ →
        Spec.SoftMarginGe exThree 1 (conf f) (ρ - (16 + 2 * qs.length) / 10 ^ 8) := by
  obtain ⟨solver, h1, h2⟩ := exists_correct_signalling_solver
  have hacc := offBy_accurate (1 / 10 ^ 8) (by positivity) solver h1
  obtain ⟨k1, k2, -, k4⟩ := totalboost_is_softboost exThree (offBy (1 / 10 ^ 8) solver) (softEnough 3) exMinLearner
  obtain ⟨t, ht⟩ := k2.2 (by simp [exThree])
  obtain ⟨e1, e2⟩ := k1 t ht
  have hsig : (offBy (1 / 10 ^ 8) solver).Signals := h2
  obtain ⟨f, qs, hf, -⟩ := softboost_accurate_returns exThree (1 / 10 ^ 8) (by positivity) (by norm_num) t.softboost exThree_valid
    (by rw [e2]; simp [exThree]) (by rw [e1]) (by rw [e1]; simp [exThree]) _ hacc hsig (softEnough 3) le_rfl exMinLearner
  refine ⟨_, t, f, qs, hacc, hsig, ?_, ht, by rw [k4]; exact hf, fun v hv hv1 ρ hρ => ?_⟩
  · intro hc
    have h1' := lpboost_solver_answers exSample (by simp [exSample]) 1 le_rfl [exLearner 0 []] (by simp) solver h1
    have h2' := hc _ _ h1'
    have h3 := h1'.value
    have h4 := h2'.value
    simp only [offBy] at h4
    rw [h3] at h4
    norm_num at h4
  · have := softboost_accurate_optimal exThree (1 / 10 ^ 8) (by positivity) (by norm_num) t.softboost _ hacc (softEnough 3)
      exMinLearner exMinLearner_bound _ f qs hf v hv hv1 ρ (by rw [e1]; exact hρ)
    rw [e1] at this
    convert this using 1
    simp only [exThree, List.length_cons, List.length_nil]
    push_cast
    ring

end Miniboosts.Props
