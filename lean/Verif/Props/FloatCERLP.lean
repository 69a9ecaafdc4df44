import Verif.Lemmas.FloatCERLPRun
import Verif.Lemmas.Basic
import Verif.Props.Rounding
import Verif.Props.FloatMada

/-! # C125: CERLPBoost in `f64` -/

namespace Miniboosts.Props

open Miniboosts F64 CERLPBoostF

variable {H X : Type*} [Classifier H X F64] [BEq H]

/-- The single run, in one piece. -/
private theorem cerlp_core (L : Libm) (hexp : ∀ x ≤ 0, L.expA x ≤ 1) (other : FWType → Nat → List F64 → List H → Nat → List F64 → Except Panic (List F64))
    {S : Examples X ℝ} (hS : GoodSample S) {s : CERLPBoostF H} {h : ℝ} (hp : GoodParams s h) {wl : WeakLearner F64 H} (hwl : GoodLearner S wl) :
    ∃ qs : List (List F64), (∀ q ∈ qs, NearDistribution S.length q) ∧ (qs.length : ℝ) ≤ 8 * Real.log S.length / h ^ 2 + 1001 / 1000 ∧
      ((∃ (f : WeightedMajority F64 H) (V : List (ℝ × H)), (∀ fuel, 25 * 10 ^ 6 < fuel → (booster L other S).run wl fuel s = some (.ok (f, qs))) ∧
          (∃ ws : List ℝ, f.weights = ws.map fin ∧ (∀ w ∈ ws, 0 ≤ w) ∧ |ws.sum - 1| ≤ 3 / 10 ^ 6) ∧
          (∀ e ∈ S, ∃ F : ℝ, F64.weightedConf f e.1 = fin F ∧ |F - voteAt V e.1| ≤ 5 / 10 ^ 6) ∧
          ((qs.length : ℝ) < 8 * Real.log S.length / h ^ 2 - 1 / 1000 → ∃ d, NearDistribution S.length d ∧
            ∀ e ∈ S, exactEdge S d (wl qs.length d) - 2 * h - 5 / 10 ^ 5 ≤ e.2 * voteAt V e.1)) ∨
        ((∀ fuel, 25 * 10 ^ 6 < fuel → (booster L other S).run wl fuel s = some (.error .assertion)) ∧
          ∃ d, NearDistribution S.length d ∧ (∀ w ∈ d, |w.val - 1 / S.length| ≤ 3 / 10 ^ 5) ∧ exactEdge S d (wl 1 d) ≤ h + 1 / 10 ^ 8)) := by
  obtain ⟨η, M, p1, p2, p3, p4, p5, p6, p7, p8⟩ := setup_near L hS hp
  set s₀ : CERLPBoostF H := { s with dist := List.replicate S.length (F64.div (fin 1) (rnd (S.length : ℝ))), eta := fin η, maxIter := M, terminated := M, weights := [], hypotheses := [] } with hs₀
  have i : Inv S s η M 0 [] s₀ := ⟨rfl, rfl, rfl, rfl, rfl, rfl, rfl, le_rfl, by simp, by simp, fun _ => rfl, fun h => absurd rfl h⟩
  obtain ⟨V, s', qs, e1, e2, e3, e4, e5, e6, e7, e8, e9, e10⟩ := loop_all L hexp other hS hp hwl p2 p3 p4 p5 p6 M 0 [] s₀ i (by omega)
  have hpre : (booster L other S).preprocess s wl = .ok s₀ := p1
  have hloop : ∀ fuel, 25 * 10 ^ 6 < fuel → (booster L other S).loop wl fuel s₀ 1 = some (.ok (s', qs)) := fun fuel hf =>
    Booster.loop_mono _ wl (by omega : M + 1 ≤ fuel) e1
  have hpost : (booster L other S).postprocess s' = fromSlices (V.map fun v => fin v.1) (V.map Prod.snd) := by
    change fromSlices s'.weights s'.hypotheses = _
    rw [e4, e5]
  refine ⟨qs, e2, ?_, ?_⟩
  · have : (qs.length : ℝ) ≤ M := by exact_mod_cast e3
    linarith
  · rcases e10 with hsum | ⟨-, hV, d, d1, d2, d3⟩
    · left
      obtain ⟨f, f1, -, f3, f4⟩ := vote_near (X := X) V e7 hsum (by omega)
      refine ⟨f, V, ?_, f3, fun e he => f4 e.1 fun v hv => e8 v hv e he, ?_⟩
      · intro fuel hf
        unfold Booster.run
        simp only [hpre, hloop fuel hf, hpost, f1]
      · intro hlt
        have h3 : (qs.length : ℝ) < M := by linarith
        have h4 : 0 + qs.length < M := by rw [zero_add]; exact_mod_cast h3
        have := e9 h4
        rwa [zero_add] at this
    · right
      refine ⟨?_, d, d1, d2, d3⟩
      intro fuel hf
      unfold Booster.run
      have : fromSlices (V.map fun v => fin v.1) (V.map Prod.snd) = .error .assertion := by
        rw [hV]
        unfold fromSlices F64.normalize
        simp [Except.map]
      simp only [hpre, hloop fuel hf, hpost, this]

/-- C125, the outcome of a run: it ends; every weight vector handed to the learner is almost a distribution; at most about `8 ln n / h²` questions are asked; and either it
returns a vote with non-negative weights of sum (almost) one, or it panics because the edge of the first answer, for weights within `3e-5` of the uniform ones, is no larger than
half of the tolerance. -/
theorem cerlp_f64_outcome (L : Libm) (hexp : ∀ x ≤ 0, L.expA x ≤ 1) (other : FWType → Nat → List F64 → List H → Nat → List F64 → Except Panic (List F64))
    {S : Examples X ℝ} (hS : GoodSample S) {s : CERLPBoostF H} {h : ℝ} (hp : GoodParams s h) {wl : WeakLearner F64 H} (hwl : GoodLearner S wl) (fuel : ℕ) (hf : 25 * 10 ^ 6 < fuel) :
    (∃ f qs, (booster L other S).run wl fuel s = some (.ok (f, qs)) ∧ (∀ q ∈ qs, NearDistribution S.length q) ∧ (qs.length : ℝ) ≤ 8 * Real.log S.length / h ^ 2 + 1001 / 1000 ∧
        ∃ ws : List ℝ, f.weights = ws.map fin ∧ (∀ w ∈ ws, 0 ≤ w) ∧ |ws.sum - 1| ≤ 3 / 10 ^ 6) ∨
      ((booster L other S).run wl fuel s = some (.error .assertion) ∧
        ∃ d, NearDistribution S.length d ∧ (∀ w ∈ d, |w.val - 1 / S.length| ≤ 3 / 10 ^ 5) ∧ exactEdge S d (wl 1 d) ≤ h + 1 / 10 ^ 8) := by
  obtain ⟨qs, q1, q2, ⟨f, V, r1, r2, -, -⟩ | ⟨r1, r2⟩⟩ := cerlp_core L hexp other hS hp hwl
  · exact .inl ⟨f, qs, r1 fuel hf, q1, q2, r2⟩
  · exact .inr ⟨r1 fuel hf, r2⟩

/-- C125: a learner whose answers have edges above half of the tolerance makes the run return. -/
theorem cerlp_f64_returns (L : Libm) (hexp : ∀ x ≤ 0, L.expA x ≤ 1) (other : FWType → Nat → List F64 → List H → Nat → List F64 → Except Panic (List F64))
    {S : Examples X ℝ} (hS : GoodSample S) {s : CERLPBoostF H} {h : ℝ} (hp : GoodParams s h) {wl : WeakLearner F64 H} (hwl : GoodLearner S wl)
    (hedge : ∀ d, NearDistribution S.length d → (∀ w ∈ d, |w.val - 1 / S.length| ≤ 3 / 10 ^ 5) → h + 1 / 10 ^ 8 < exactEdge S d (wl 1 d)) (fuel : ℕ) (hf : 25 * 10 ^ 6 < fuel) :
    ∃ f qs, (booster L other S).run wl fuel s = some (.ok (f, qs)) := by
  rcases cerlp_f64_outcome L hexp other hS hp hwl fuel hf with ⟨f, qs, h1, -⟩ | ⟨-, d, d1, d2, d3⟩
  · exact ⟨f, qs, h1⟩
  · exact absurd (hedge d d1 d2) (not_lt.mpr d3)

/-- C125: a learner whose first answer has an edge below half of the tolerance makes the run panic. -/
theorem cerlp_f64_panics (L : Libm) (hexp : ∀ x ≤ 0, L.expA x ≤ 1) (other : FWType → Nat → List F64 → List H → Nat → List F64 → Except Panic (List F64))
    {S : Examples X ℝ} (hS : GoodSample S) {s : CERLPBoostF H} {h : ℝ} (hp : GoodParams s h) {wl : WeakLearner F64 H} (hwl : GoodLearner S wl)
    (hedge : ∀ d, NearDistribution S.length d → (∀ w ∈ d, |w.val - 1 / S.length| ≤ 3 / 10 ^ 5) → exactEdge S d (wl 1 d) < h - 1 / 10 ^ 8) (fuel : ℕ) (hf : 0 < fuel) :
    (booster L other S).run wl fuel s = some (.error .assertion) := by
  obtain ⟨η, M, p1, p2, p3, p4, p5, p6, p7, p8⟩ := setup_near L hS hp
  set s₀ : CERLPBoostF H := { s with dist := List.replicate S.length (F64.div (fin 1) (rnd (S.length : ℝ))), eta := fin η, maxIter := M, terminated := M, weights := [], hypotheses := [] } with hs₀
  have i : Inv S s η M 0 [] s₀ := ⟨rfl, rfl, rfl, rfl, rfl, rfl, rfl, le_rfl, by simp, by simp, fun _ => rfl, fun h => absurd rfl h⟩
  have hpre : (booster L other S).preprocess s wl = .ok s₀ := p1
  obtain ⟨d, d1, d2, ⟨b1, -, -⟩ | ⟨V₁, s₁, -, -, b3⟩⟩ := round_cases L hexp other hS hp hwl p2 p3 p4 p5 i (by omega)
  · obtain ⟨k, rfl⟩ : ∃ k, fuel = k + 1 := ⟨fuel - 1, by omega⟩
    have hb : (booster L other S).boost s₀ wl 1 = _ := b1
    have hl : (booster L other S).loop wl (k + 1) s₀ 1 = some (.ok ({ s₀ with dist := d, terminated := 0 + 1 }, [d])) := by
      simp only [Booster.loop, hb]
    have hpost : (booster L other S).postprocess { s₀ with dist := d, terminated := 0 + 1 } = .error .assertion := by
      change fromSlices [] [] = _
      unfold fromSlices F64.normalize
      simp [Except.map]
    unfold Booster.run
    simp only [hpre, hl, hpost]
  · have := b3 rfl
    exact absurd (hedge d d1 (d2 rfl)) (not_lt.mpr this)

/-- C125, the quality of the answer: if the learner finds an edge of at least `ρ` for all weights that are almost a distribution, and the run stops before the limit of the iterations,
then every training example has a computed margin of at least `ρ - tolerance - 10⁻⁴` under the returned vote. -/
theorem cerlp_f64_margin (L : Libm) (hexp : ∀ x ≤ 0, L.expA x ≤ 1) (other : FWType → Nat → List F64 → List H → Nat → List F64 → Except Panic (List F64))
    {S : Examples X ℝ} (hS : GoodSample S) {s : CERLPBoostF H} {h : ℝ} (hp : GoodParams s h) {wl : WeakLearner F64 H} (hwl : GoodLearner S wl) {ρ : ℝ}
    (hedge : ∀ it d, NearDistribution S.length d → ρ ≤ exactEdge S d (wl it d)) {fuel : ℕ} {f : WeightedMajority F64 H} {qs : List (List F64)}
    (hrun : (booster L other S).run wl fuel s = some (.ok (f, qs))) (hstop : (qs.length : ℝ) < 8 * Real.log S.length / h ^ 2 - 1 / 1000) :
    ∀ e ∈ S, ∃ F : ℝ, F64.weightedConf f e.1 = fin F ∧ ρ - 2 * h - 1 / 10 ^ 4 ≤ e.2 * F := by
  have hrun' := Booster.run_mono _ wl (le_max_left fuel (25 * 10 ^ 6 + 1)) hrun
  have hbig : 25 * 10 ^ 6 < max fuel (25 * 10 ^ 6 + 1) := lt_of_lt_of_le (Nat.lt_succ_self _) (le_max_right _ _)
  obtain ⟨qs', q1, q2, ⟨f', V, r1, -, r3, r4⟩ | ⟨r1, -⟩⟩ := cerlp_core L hexp other hS hp hwl
  · rw [r1 _ hbig] at hrun'
    simp only [Option.some.injEq, Except.ok.injEq, Prod.mk.injEq] at hrun'
    obtain ⟨rfl, rfl⟩ := hrun'
    obtain ⟨d, d1, d2⟩ := r4 hstop
    intro e he
    obtain ⟨F, F1, F2⟩ := r3 e he
    refine ⟨F, F1, ?_⟩
    have h1 := hedge qs'.length d d1
    have h2 := d2 e he
    have h3 : |e.2 * F - e.2 * voteAt V e.1| ≤ 5 / 10 ^ 6 := by rw [← mul_sub, pm_abs (hS.labels e he)]; exact F2
    have h4 := abs_le.mp h3
    linarith [h4.1]
  · rw [r1 _ hbig] at hrun'
    simp at hrun'

/-- C125: with an edge above the tolerance (and `10⁻⁴`) such a run returns a vote without a mistake on the training examples. -/
theorem cerlp_f64_no_mistake (L : Libm) (hexp : ∀ x ≤ 0, L.expA x ≤ 1) (other : FWType → Nat → List F64 → List H → Nat → List F64 → Except Panic (List F64))
    {S : Examples X ℝ} (hS : GoodSample S) {s : CERLPBoostF H} {h : ℝ} (hp : GoodParams s h) {wl : WeakLearner F64 H} (hwl : GoodLearner S wl) {ρ : ℝ} (hρ : 2 * h + 1 / 10 ^ 4 < ρ)
    (hedge : ∀ it d, NearDistribution S.length d → ρ ≤ exactEdge S d (wl it d)) {fuel : ℕ} {f : WeightedMajority F64 H} {qs : List (List F64)}
    (hrun : (booster L other S).run wl fuel s = some (.ok (f, qs))) (hstop : (qs.length : ℝ) < 8 * Real.log S.length / h ^ 2 - 1 / 1000) : floatMistakes S f = 0 := by
  classical
  unfold floatMistakes
  rw [List.countP_eq_zero]
  intro e he
  obtain ⟨F, F1, F2⟩ := cerlp_f64_margin L hexp other hS hp hwl hedge hrun hstop e he
  have hpos : 0 < e.2 * F := by linarith
  simp only [decide_eq_true_eq, ne_eq, not_not]
  unfold F64.predict
  rw [F1]
  rcases hS.labels e he with h1 | h1
  · rw [h1, one_mul] at hpos
    rw [if_pos (show Le (fin 0) (fin F) from hpos.le), h1]; norm_num
  · rw [h1] at hpos
    rw [if_neg (show ¬ Le (fin 0) (fin F) from fun h => by have h' : (0 : ℝ) ≤ F := h; linarith), h1]; norm_num

/-! ## Examples -/

/-- A rule of thumb: `true` answers with the label, `false` with its opposite. -/
instance exCerlpRule : Classifier Bool Bool F64 := ⟨fun h x => fin (if x = h then 1 else -1)⟩

/-- Two examples. -/
def exCerlpPair : Examples Bool ℝ := [(true, 1), (false, -1)]

theorem exCerlpPair_good : GoodSample exCerlpPair := by
  refine ⟨by simp [exCerlpPair], by simp [exCerlpPair], ?_, ?_⟩
  · have h1 : ⌈(-1 : ℝ)⌉ = -1 := by rw [show (-1 : ℝ) = ((-1 : ℤ) : ℝ) by norm_num, Int.ceil_intCast]
    have h2 : ¬ (1 : ℝ) ≤ 0 := by norm_num
    simp [checkBinary, isValidBinary, exCerlpPair, trunc, asI32, h1, h2]
  · intro e he
    simp only [exCerlpPair, List.mem_cons, List.not_mem_nil, or_false] at he
    rcases he with rfl | rfl <;> simp

theorem exCerlpPair_learner : GoodLearner exCerlpPair (fun _ _ => true) := by
  refine ⟨fun _ _ _ e _ => ⟨if e.1 = true then 1 else -1, rfl, by split <;> simp⟩, ?_⟩
  intro f g h e _
  rw [eq_of_beq h]

theorem exCerlpPair_edge (d : List F64) (hd : NearDistribution exCerlpPair.length d) : 999 / 1000 ≤ exactEdge exCerlpPair d true := by
  obtain ⟨xs, rfl, h2, -, h4, -⟩ := hd
  rw [exactEdge_map]
  match xs, h2 with
  | [a, b], _ =>
    have := abs_le.mp h4
    simp [exCerlpPair, conf, F64.val] at this ⊢
    linarith [this.1]

omit [Classifier H X F64] [BEq H] in
theorem cerlp_init_good (L : Libm) (S : Examples X ℝ) : GoodParams (CERLPBoostF.init L S : CERLPBoostF H) (F64.round (5 / 1000)) ∧ F64.round (5 / 1000) ≤ 6 / 1000 := by
  have h1 := round_err (5 / 1000)
  have hu := u_small
  have hη := eta_le_u
  have h2 : u * |(5 : ℝ) / 1000| ≤ 1 / 9000000000000000 * 1 := by
    rw [abs_of_pos (by norm_num)]
    have := u_pos
    nlinarith
  have h3 := abs_le.mp h1
  refine ⟨⟨rnd_small (by rw [abs_of_pos (by norm_num)]; norm_num), ?_, ?_, rfl, .inr rfl⟩, ?_⟩ <;> linarith

theorem exCerlpPair_first (L : Libm) (other) {s : CERLPBoostF Bool} (h1 : s.weights = []) (h2 : s.hypotheses = []) (h3 : s.fwType = .shortStep) {out}
    (h : boost L other exCerlpPair s (fun _ _ => true) 1 = .ok out) (hc : out.flow = .cont) : out.state.weights = [fin 1] ∧ out.state.hypotheses = [true] := by
  unfold boost at h
  split at h
  · rw [Except.ok.injEq] at h; subst h; simp at hc
  · split at h
    · cases h
    · dsimp only at h
      split at h
      · rw [Except.ok.injEq] at h; subst h; simp at hc
      · simp only [h1, h2, h3, List.findIdx_nil, List.length_nil, if_true, List.nil_append, nextIterate, List.length_singleton, List.getElem?_cons_zero] at h
        rw [Except.ok.injEq] at h; subst h; simp

theorem exCerlpPair_second (L : Libm) (other) {s : CERLPBoostF Bool} {t : ℝ} (h1 : s.weights = [fin 1]) (h2 : s.hypotheses = [true]) (h3 : s.halfTolerance = fin t) (h4 : 0 ≤ t) {n : ℕ} {out} {d}
    (hd : NearDistribution exCerlpPair.length d) (h : boost L other exCerlpPair s (fun _ _ => true) n = .ok out) (hq : out.queries = [d]) : out.flow ≠ .cont := by
  intro hc
  unfold boost at h
  split at h
  · rw [Except.ok.injEq] at h; subst h; simp at hc
  · split at h
    · cases h
    · rename_i dist _
      dsimp only at h
      split at h
      · rw [Except.ok.injEq] at h; subst h; simp at hc
      · rename_i hle
        split at h
        · cases h
        · rw [Except.ok.injEq] at h
          subst h
          simp only [List.cons.injEq, and_true] at hq
          subst hq
          apply hle
          obtain ⟨xs, rfl, x2, x3, x4, -⟩ := hd
          have x4' := abs_le.mp x4
          have r1 : rnd (1 : ℝ) = fin 1 := by rw [rnd_small (by norm_num), round_of_rep rep_one]
          have r2 : rnd (-1 : ℝ) = fin (-1) := by rw [rnd_small (by norm_num), round_of_rep (rep_neg rep_one)]
          have e1 : F64.margins exCerlpPair true = exCerlpPair.map fun _ => fin 1 := by
            simp [F64.margins, exCerlpPair, conf, F64.mul, r1]
          have e2 : F64.weightedMargins exCerlpPair s.weights s.hypotheses = exCerlpPair.map fun _ => fin 1 := by
            simp [F64.weightedMargins, h1, h2, exCerlpPair, conf, F64.mul, F64.add, r1, r2]
          obtain ⟨r, r3, -, -⟩ := edgeOf_near (S := exCerlpPair) (f := fun _ => 1) (fun _ _ => by norm_num) x2 (fun x hx => (x3 x hx).1) (by linarith) (by simp [exCerlpPair])
          rw [e1, e2, r3, h3]
          change Le (rnd (r + -r)) (fin t)
          rw [add_neg_cancel, rnd_small (by norm_num), round_of_rep rep_zero]
          exact h4

/-- The default parameters and a perfect rule: the run asks two questions, stops before the limit, and returns a vote that answers both examples correctly. -/
example (other) : ∃ f qs, (booster exLibm other exCerlpPair).run (fun _ _ => true) (10 ^ 8) (CERLPBoostF.init exLibm exCerlpPair) = some (.ok (f, qs)) ∧ qs.length = 2 ∧ floatMistakes exCerlpPair f = 0 := by
  have hexp : ∀ x ≤ 0, exLibm.expA x ≤ 1 := fun x hx => Real.exp_le_one_iff.mpr hx
  obtain ⟨hp, ht⟩ := cerlp_init_good (H := Bool) exLibm exCerlpPair
  have key : ∃ f qs, (booster exLibm other exCerlpPair).run (fun _ _ => true) (10 ^ 8) (CERLPBoostF.init exLibm exCerlpPair) = some (.ok (f, qs)) ∧ qs.length = 2 := by
    obtain ⟨η, M, p1, p2, p3, p4, p5, p6, p7, p8⟩ := setup_near exLibm exCerlpPair_good hp
    have hM : 2 ≤ M := by
      have h1 := Real.log_two_gt_d9
      have h2 : 1000 ≤ 8 * Real.log (exCerlpPair.length : ℝ) / F64.round (5 / 1000) ^ 2 := by
        have h3 := hp.lo
        rw [le_div_iff₀ (by positivity)]
        have : ((exCerlpPair.length : ℕ) : ℝ) = 2 := by norm_num [exCerlpPair]
        rw [this]
        nlinarith
      have h3 : (2 : ℝ) ≤ M := by linarith
      exact_mod_cast h3
    set s₀ : CERLPBoostF Bool := { (CERLPBoostF.init exLibm exCerlpPair : CERLPBoostF Bool) with dist := List.replicate exCerlpPair.length (F64.div (fin 1) (rnd (exCerlpPair.length : ℝ))), eta := fin η, maxIter := M, terminated := M, weights := [], hypotheses := [] } with hs₀
    have i : Inv exCerlpPair (CERLPBoostF.init exLibm exCerlpPair) η M 0 [] s₀ := ⟨rfl, rfl, rfl, rfl, rfl, rfl, rfl, le_rfl, by simp, by simp, fun _ => rfl, fun h => absurd rfl h⟩
    have hpre : (booster exLibm other exCerlpPair).preprocess (CERLPBoostF.init exLibm exCerlpPair) (fun _ _ => true) = .ok s₀ := p1
    obtain ⟨d, d1, -, ⟨-, -, b3⟩ | ⟨V₁, s₁, b1, b2, -⟩⟩ := round_cases exLibm hexp other exCerlpPair_good hp exCerlpPair_learner p2 p3 p4 p5 i (by omega)
    · have := b3 rfl
      have := exCerlpPair_edge d d1
      linarith
    · obtain ⟨w1, w2⟩ := exCerlpPair_first exLibm other rfl rfl rfl b1 rfl
      obtain ⟨d', d1', -, ⟨c1, -, -⟩ | ⟨V₂, s₂, c1, -, -⟩⟩ := round_cases exLibm hexp other exCerlpPair_good hp exCerlpPair_learner p2 p3 p4 p5 b2 (by omega)
      · obtain ⟨f, f1, -⟩ := single_vote (H := Bool) true
        refine ⟨f, [d, d'], ?_, rfl⟩
        have hb1 : (booster exLibm other exCerlpPair).boost s₀ (fun _ _ => true) 1 = _ := b1
        have hb2 : (booster exLibm other exCerlpPair).boost s₁ (fun _ _ => true) 2 = _ := c1
        have hl : (booster exLibm other exCerlpPair).loop (fun _ _ => true) 2 s₀ 1 = some (.ok ({ s₁ with dist := d', terminated := 0 + 1 + 1 }, [d, d'])) := by
          simp only [Booster.loop, hb1, hb2]
          rfl
        have hl' := Booster.loop_mono _ _ (by norm_num : 2 ≤ 10 ^ 8) hl
        unfold Booster.run
        have hpost : (booster exLibm other exCerlpPair).postprocess { s₁ with dist := d', terminated := 0 + 1 + 1 } = .ok f := by
          change fromSlices s₁.weights s₁.hypotheses = _
          rw [w1, w2, f1]
        simp only [hpre, hl', hpost]
      · exact absurd rfl (exCerlpPair_second exLibm other w1 w2 (b2.tol.trans hp.tol) (by linarith [hp.lo]) d1' c1 rfl)
  obtain ⟨f, qs, h1, h2⟩ := key
  refine ⟨f, qs, h1, h2, cerlp_f64_no_mistake exLibm hexp other exCerlpPair_good hp exCerlpPair_learner (ρ := 999 / 1000) (by linarith) (fun _ d hd => exCerlpPair_edge d hd) h1 ?_⟩
  have h3 := hp.lo
  have h4 := Real.log_two_gt_d9
  have h5 : 1000 ≤ 8 * Real.log (exCerlpPair.length : ℝ) / F64.round (5 / 1000) ^ 2 := by
    rw [le_div_iff₀ (by positivity)]
    have : ((exCerlpPair.length : ℕ) : ℝ) = 2 := by norm_num [exCerlpPair]
    rw [this]
    nlinarith
  rw [h2]
  push_cast
  linarith

/-- The other outcome: a rule that is always wrong makes the run panic. -/
example (other) : (booster exLibm other exCerlpPair).run (fun _ _ => false) (10 ^ 8) (CERLPBoostF.init exLibm exCerlpPair) = some (.error .assertion) := by
  obtain ⟨hp, ht⟩ := cerlp_init_good (H := Bool) exLibm exCerlpPair
  refine cerlp_f64_panics exLibm (fun x hx => Real.exp_le_one_iff.mpr hx) other exCerlpPair_good hp ⟨fun _ _ _ e _ => ⟨if e.1 = false then 1 else -1, rfl, by split <;> simp⟩, exCerlpPair_learner.same⟩ ?_ _ (by norm_num)
  rintro d ⟨xs, rfl, h2, -, h4, -⟩ -
  rw [exactEdge_map]
  match xs, h2 with
  | [a, b], _ =>
    have := abs_le.mp h4
    have := hp.lo
    simp [exCerlpPair, conf, F64.val] at *
    linarith

end Miniboosts.Props
