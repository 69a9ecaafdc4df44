import Verif.Lemmas.FloatMLPRun
import Verif.Props.FloatCERLPCap

/-! # C130: MLPBoost in `f64`, with any LP solver -/

namespace Miniboosts.Props

open Miniboosts F64 CERLPBoostF MLPBoostF

variable {H X : Type*} [Classifier H X F64]

/-- A distribution that is uniform on the examples with a property. -/
private theorem sum_ite_mlp {α : Type*} (p : α → Bool) (c : ℝ) (S : List α) : (S.map fun e => if p e then c else 0).sum = c * S.countP p := by
  induction S with
  | nil => simp
  | cons e S ih =>
    rw [List.map_cons, List.sum_cons, ih, List.countP_cons]
    split <;> push_cast <;> ring


/-- A positive soft margin leaves room for fewer than `ν` mistakes. -/
theorem few_of_soft_margin {S : Examples X ℝ} (hS : ∀ e ∈ S, e.2 = 1 ∨ e.2 = -1) {f : WeightedMajority F64 H} {ν m : ℝ} (hν1 : 1 ≤ ν) (hm : 0 < m) (h1 : ∀ e ∈ S, (F64.weightedConf f e.1).IsFin)
    (h2 : ∀ q : List ℝ, q.length = S.length → Spec.IsCapped ν q → m ≤ (List.zipWith (fun x e => x * (e.2 * (F64.weightedConf f e.1).val)) q S).sum) : (floatMistakes S f : ℝ) < ν := by
  classical
  by_contra hge
  push Not at hge
  unfold floatMistakes at hge
  set p : X × ℝ → Bool := fun e => decide ((F64.predict f e.1 : ℝ) ≠ e.2) with hpd
  set c : ℝ := (S.countP p : ℝ) with hc
  have hc0 : 0 < c := by linarith
  have hwrong : ∀ e ∈ S, p e = true → e.2 * (F64.weightedConf f e.1).val ≤ 0 := by
    intro e he hpe
    have hfin := h1 e he
    have hpe' : (F64.predict f e.1 : ℝ) ≠ e.2 := by simpa [hpd] using hpe
    unfold F64.predict at hpe'
    cases hF : F64.weightedConf f e.1 with
    | nan => rw [hF] at hfin; exact absurd hfin id
    | inf b => rw [hF] at hfin; exact absurd hfin id
    | fin F =>
      rw [hF] at hpe'
      change e.2 * F ≤ 0
      by_cases hle : Le (fin 0) (fin F)
      · rw [if_pos hle] at hpe'
        have hF0 : (0 : ℝ) ≤ F := hle
        rcases hS e he with h | h
        · rw [h] at hpe'; exact absurd (by norm_num) hpe'
        · rw [h]; linarith
      · rw [if_neg hle] at hpe'
        have hF0 : ¬ (0 : ℝ) ≤ F := hle
        rcases hS e he with h | h
        · rw [h]; linarith
        · rw [h] at hpe'; exact absurd (by norm_num) hpe'
  have h3 := h2 (S.map fun e => if p e then 1 / c else 0) (by simp) ⟨by
    intro x hx
    obtain ⟨e, -, rfl⟩ := List.mem_map.mp hx
    split
    · exact ⟨by positivity, one_div_le_one_div_of_le (by linarith) hge⟩
    · exact ⟨le_rfl, by positivity⟩, by rw [sum_ite_mlp, ← hc]; field_simp⟩
  rw [List.zipWith_map_left, List.zipWith_self] at h3
  have h4 : (S.map fun e => (if p e then 1 / c else 0) * (e.2 * (F64.weightedConf f e.1).val)).sum ≤ 0 := by
    have hnp : ∀ l : List ℝ, (∀ x ∈ l, x ≤ 0) → l.sum ≤ 0 := by
      intro l
      induction l with
      | nil => simp
      | cons y l ih =>
        intro h
        have := ih fun x hx => h x (List.mem_cons_of_mem _ hx)
        have := h y (by simp)
        rw [List.sum_cons]
        linarith
    refine hnp _ ?_
    intro x hx
    obtain ⟨e, he, rfl⟩ := List.mem_map.mp hx
    split
    · rename_i hpe
      exact mul_nonpos_of_nonneg_of_nonpos (by positivity) (hwrong e he hpe)
    · simp
  linarith


variable [BEq H]

/-- A run that returns, in one piece. -/
private theorem mlp_core (L : Libm) {other : FWType → Nat → List F64 → List H → Nat → List F64 → Except Panic (List F64)} (hother : KeepsLength other) {lp : Lp H} (hlp : Sized lp)
    {S : Examples X ℝ} (hS : GoodSample S) {s : MLPBoostF H} {h ν : ℝ} (hp : MLPBoostF.GoodParams S s h ν) {wl : WeakLearner F64 H}
    (hwl : ∀ it d, NearCapped ν S.length d → ∀ e ∈ S, ∃ c : ℝ, conf (wl it d) e.1 = fin c ∧ |c| ≤ 1) {fuel : ℕ} {f : WeightedMajority F64 H} {qs : List (List F64)}
    (hrun : (MLPBoostF.booster L other lp S).run wl fuel s = some (.ok (f, qs))) :
    (∀ q ∈ qs, NearCapped ν S.length q) ∧ (qs.length : ℝ) ≤ 8 * Real.log (S.length / ν) / h ^ 2 + 1001 / 1000 ∧
      (∃ ws : List ℝ, f.weights = ws.map fin ∧ (∀ w ∈ ws, 0 ≤ w) ∧ |ws.sum - 1| ≤ 5 / 10 ^ 5) ∧
      ∃ V : List (ℝ × H), (∀ e ∈ S, ∃ F : ℝ, F64.weightedConf f e.1 = fin F ∧ |F - voteAt V e.1| ≤ 5 / 10 ^ 5 ∧ |F| ≤ 101 / 100) ∧
        ((qs.length : ℝ) < 8 * Real.log (S.length / ν) / h ^ 2 - 1 / 1000 → ∀ ρ : ℝ, (∀ it d, NearCapped ν S.length d → ρ ≤ exactEdge S d (wl it d)) →
          ∀ q : List ℝ, q.length = S.length → Spec.IsCapped ν q →
          ρ - 2 * h - 18 / 10 ^ 5 - h / (1000 * Real.log (S.length / ν)) ≤ (List.zipWith (fun x e => x * (e.2 * voteAt V e.1)) q S).sum) := by
  obtain ⟨η, M, p1, p2, p3, p4, p5, p6, p7⟩ := MLPBoostF.setup L hS hp
  obtain ⟨n, qs', s', out, k, r1, -, r3, r4, r5, r6⟩ := Booster.run_spec _ wl s hrun
  obtain ⟨i1, i2, i3, V, i⟩ := reach_mlp L hother hlp hS hp hwl p2 p3 p4 p5 p1 r1
  have hb : MLPBoostF.boost L other lp S s' wl (n + 1) = .ok out := r3
  have hpost : ∀ st : MLPBoostF H, st.weights = s'.weights → st.hypotheses = s'.hypotheses → (MLPBoostF.booster L other lp S).postprocess st = .ok f →
      (∃ ws : List ℝ, f.weights = ws.map fin ∧ (∀ w ∈ ws, 0 ≤ w) ∧ |ws.sum - 1| ≤ 5 / 10 ^ 5) ∧
      ∀ e ∈ S, ∃ F : ℝ, F64.weightedConf f e.1 = fin F ∧ |F - voteAt V e.1| ≤ 5 / 10 ^ 5 ∧ |F| ≤ 101 / 100 := by
    intro st e1 e2 e3
    have e3' : fromSlices st.weights st.hypotheses = .ok f := e3
    rw [e1, e2, i.weights, i.hyps] at e3'
    by_cases h0 : n = 0
    · rw [i.first h0] at e3'
      unfold fromSlices F64.normalize at e3'
      simp [Except.map] at e3'
    · obtain ⟨g, f1, -, f3, f4⟩ := vote_near_loose (X := X) V i.pos (i.sum h0) (by have := i.len; omega)
      rw [f1, Except.ok.injEq] at e3'
      subst e3'
      refine ⟨f3, fun e he => ?_⟩
      obtain ⟨F, F1, F2⟩ := f4 e.1 fun v hv => i.ok v hv e he
      refine ⟨F, F1, F2, ?_⟩
      have b1 := voteAt_abs (S := S) (V := V) (fun v hv => ⟨i.pos v hv, i.ok v hv⟩) e he
      have b2 := abs_le.mp (i.sum h0)
      have b3 : |F| ≤ |F - voteAt V e.1| + |voteAt V e.1| := by simpa using abs_add_le (F - voteAt V e.1) (voteAt V e.1)
      norm_num at b2 F2 ⊢
      linarith
  have hMle : ∀ m : ℕ, m ≤ M → (m : ℝ) ≤ 8 * Real.log (S.length / ν) / h ^ 2 + 1001 / 1000 := by
    intro m hm
    have : (m : ℝ) ≤ M := by exact_mod_cast hm
    linarith
  have hlog : 1 / 100 ≤ Real.log (S.length / ν) := by
    have hν : 0 < ν := by have := hp.one_le; linarith
    have hR : 100 / 99 ≤ (S.length : ℝ) / ν := by rw [le_div_iff₀ hν]; have := hp.le; linarith
    have h1 := Real.one_sub_inv_le_log_of_pos (by linarith : (0 : ℝ) < S.length / ν)
    have h2 : ((S.length : ℝ) / ν)⁻¹ ≤ (100 / 99)⁻¹ := inv_anti₀ (by norm_num) hR
    norm_num at h1 h2 ⊢
    linarith
  have hηb : 83 / 10 ^ 5 / η ≤ h / (1000 * Real.log (S.length / ν)) := by
    have hη0 : 0 < η := by linarith
    rw [div_le_iff₀ hη0] at p4
    rw [div_le_div_iff₀ hη0 (by linarith)]
    have hlo := hp.lo
    nlinarith
  rcases round_mlp L hother hlp hS hp.lo hp.hi hp.one_le hp.le hwl p2 p3 p4 p5 i i1 hb with ⟨h3, -, h5, h6⟩ | ⟨h3, d, d1, d2, ⟨-, -, h5, h6, h7⟩ | ⟨h4, -⟩⟩
  · rw [h6, List.append_nil] at r5
    subst r5
    rw [h5] at r6
    obtain ⟨g1, g2⟩ := hpost s' rfl rfl r6
    refine ⟨i3, hMle _ (by omega), g1, V, g2, ?_⟩
    intro hlt
    have : (qs.length : ℝ) = M := by rw [i2, h3]
    linarith
  · rw [d2] at r5
    subst r5
    obtain ⟨g1, g2⟩ := hpost out.state h5 h6 r6
    have hlen : (qs' ++ [d]).length = n + 1 := by simp [i2]
    refine ⟨?_, hMle _ (by omega), g1, V, g2, ?_⟩
    · intro q hq
      rcases List.mem_append.mp hq with hq | hq
      · exact i3 q hq
      · rw [List.mem_singleton] at hq; subst hq; exact d1
    · intro _ ρ hρ q q1 q2
      have := h7 ρ hρ q q1 q2
      linarith
  · rw [r4] at h4; cases h4

/-- C130: whatever the LP solver answers (NaN included) and whatever the line searches return, in a run of MLPBoost in `f64` that returns every weight vector handed to the learner is
almost a distribution capped at `1/ν`, at most about `8 ln(n/ν) / h²` questions are asked, the weights of the returned vote are non-negative numbers of sum (almost) one, and its confidences
on the training examples are numbers in `[-1.01, 1.01]`. -/
theorem mlp_f64_capped (L : Libm) {other : FWType → Nat → List F64 → List H → Nat → List F64 → Except Panic (List F64)} (hother : KeepsLength other) {lp : Lp H} (hlp : Sized lp)
    {S : Examples X ℝ} (hS : GoodSample S) {s : MLPBoostF H} {h ν : ℝ} (hp : MLPBoostF.GoodParams S s h ν) {wl : WeakLearner F64 H}
    (hwl : ∀ it d, NearCapped ν S.length d → ∀ e ∈ S, ∃ c : ℝ, conf (wl it d) e.1 = fin c ∧ |c| ≤ 1) {fuel : ℕ} {f : WeightedMajority F64 H} {qs : List (List F64)}
    (hrun : (MLPBoostF.booster L other lp S).run wl fuel s = some (.ok (f, qs))) :
    (∀ q ∈ qs, NearCapped ν S.length q) ∧ (qs.length : ℝ) ≤ 8 * Real.log (S.length / ν) / h ^ 2 + 1001 / 1000 ∧
      (∃ ws : List ℝ, f.weights = ws.map fin ∧ (∀ w ∈ ws, 0 ≤ w) ∧ |ws.sum - 1| ≤ 5 / 10 ^ 5) ∧
      ∀ e ∈ S, ∃ F : ℝ, F64.weightedConf f e.1 = fin F ∧ |F| ≤ 101 / 100 := by
  obtain ⟨h1, h2, h3, V, h4, -⟩ := mlp_core L hother hlp hS hp hwl hrun
  refine ⟨h1, h2, h3, fun e he => ?_⟩
  obtain ⟨F, F1, -, F3⟩ := h4 e he
  exact ⟨F, F1, F3⟩

/-- C130, the soft margin: if the learner finds an edge of at least `ρ` for all weights that are almost a distribution capped at `1/ν`, and the run returns before the limit of the
iterations, then the computed confidences `F` of the returned vote have a mean margin of at least `ρ - tolerance - 2.3·10⁻⁴ - h / (1000 ln(n/ν))` under every distribution capped at `1/ν`,
whatever the LP solver answers. -/
theorem mlp_f64_soft_margin (L : Libm) {other : FWType → Nat → List F64 → List H → Nat → List F64 → Except Panic (List F64)} (hother : KeepsLength other) {lp : Lp H} (hlp : Sized lp)
    {S : Examples X ℝ} (hS : GoodSample S) {s : MLPBoostF H} {h ν : ℝ} (hp : MLPBoostF.GoodParams S s h ν) {wl : WeakLearner F64 H}
    (hwl : ∀ it d, NearCapped ν S.length d → ∀ e ∈ S, ∃ c : ℝ, conf (wl it d) e.1 = fin c ∧ |c| ≤ 1) {ρ : ℝ} (hedge : ∀ it d, NearCapped ν S.length d → ρ ≤ exactEdge S d (wl it d))
    {fuel : ℕ} {f : WeightedMajority F64 H} {qs : List (List F64)} (hrun : (MLPBoostF.booster L other lp S).run wl fuel s = some (.ok (f, qs)))
    (hstop : (qs.length : ℝ) < 8 * Real.log (S.length / ν) / h ^ 2 - 1 / 1000) :
    (∀ e ∈ S, (F64.weightedConf f e.1).IsFin) ∧
      ∀ q : List ℝ, q.length = S.length → Spec.IsCapped ν q →
        ρ - 2 * h - 23 / 10 ^ 5 - h / (1000 * Real.log (S.length / ν)) ≤ (List.zipWith (fun x e => x * (e.2 * (F64.weightedConf f e.1).val)) q S).sum := by
  obtain ⟨-, -, -, V, h4, h5⟩ := mlp_core L hother hlp hS hp hwl hrun
  refine ⟨fun e he => by obtain ⟨F, F1, -⟩ := h4 e he; rw [F1]; trivial, ?_⟩
  intro q q1 q2
  have k := abs_le.mp (zipSum_close (fun e => e.2 * (F64.weightedConf f e.1).val) (fun e => e.2 * voteAt V e.1) (5 / 10 ^ 5) S q (fun e he => by
    obtain ⟨F, F1, F2, -⟩ := h4 e he
    rw [F1, ← mul_sub, pm_abs (hS.labels e he)]
    exact F2) (fun x hx => (q2.1 x hx).1) q1)
  rw [q2.2, mul_one] at k
  have h7 := h5 hstop ρ hedge q q1 q2
  linarith [k.1]

/-- C130: with an edge above the tolerance (and the rounding errors) fewer than `ν` training examples are classified wrongly. -/
theorem mlp_f64_few_mistakes (L : Libm) {other : FWType → Nat → List F64 → List H → Nat → List F64 → Except Panic (List F64)} (hother : KeepsLength other) {lp : Lp H} (hlp : Sized lp)
    {S : Examples X ℝ} (hS : GoodSample S) {s : MLPBoostF H} {h ν : ℝ} (hp : MLPBoostF.GoodParams S s h ν) {wl : WeakLearner F64 H}
    (hwl : ∀ it d, NearCapped ν S.length d → ∀ e ∈ S, ∃ c : ℝ, conf (wl it d) e.1 = fin c ∧ |c| ≤ 1) {ρ : ℝ} (hρ : 2 * h + 23 / 10 ^ 5 + h / (1000 * Real.log (S.length / ν)) < ρ)
    (hedge : ∀ it d, NearCapped ν S.length d → ρ ≤ exactEdge S d (wl it d))
    {fuel : ℕ} {f : WeightedMajority F64 H} {qs : List (List F64)} (hrun : (MLPBoostF.booster L other lp S).run wl fuel s = some (.ok (f, qs)))
    (hstop : (qs.length : ℝ) < 8 * Real.log (S.length / ν) / h ^ 2 - 1 / 1000) : (floatMistakes S f : ℝ) < ν := by
  obtain ⟨h1, h2⟩ := mlp_f64_soft_margin L hother hlp hS hp hwl hedge hrun hstop
  exact few_of_soft_margin hS.labels hp.one_le (by linarith) h1 h2

omit [Classifier H X F64] [BEq H] in
/-- C130: `nu` panics exactly on arguments that are not numbers between one and the number of examples. -/
theorem mlp_f64_nu_panics {s : MLPBoostF H} (hn : s.nSample ≤ 10 ^ 5) (x : F64) : (∃ e, MLPBoostF.setNu s x = .error e) ↔ ¬ ∃ ν : ℝ, x = fin ν ∧ 1 ≤ ν ∧ ν ≤ s.nSample := by
  have hr : rnd (s.nSample : ℝ) = fin (s.nSample : ℝ) := rnd_nat_long (by omega)
  unfold MLPBoostF.setNu
  rw [hr]
  have hiff : (Le (fin 1) x ∧ Le x (fin (s.nSample : ℝ))) ↔ ∃ ν : ℝ, x = fin ν ∧ 1 ≤ ν ∧ ν ≤ s.nSample := by
    cases x with
    | nan => simp [Le]
    | inf b => cases b <;> simp [Le]
    | fin x => simp [Le]
  rw [← hiff]
  split <;> simp_all

omit [Classifier H X F64] [BEq H] in
/-- C130: `MLPBoost::init(&sample)` followed by `nu`, `tolerance` and `frank_wolfe`. -/
theorem mlp_f64_configured (L : Libm) {S : Examples X ℝ} (hS : GoodSample S) {ν t : ℝ} (h1 : 1 ≤ ν) (h2 : ν ≤ 99 / 100 * S.length) (h3 : 5 / 1000 ≤ t) (h4 : t ≤ 99 / 100) (fw : FWType) :
    ∃ s₀ s₁ : MLPBoostF H, MLPBoostF.init L S = .ok s₀ ∧ MLPBoostF.setNu s₀ (fin ν) = .ok s₁ ∧
      ∃ h : ℝ, MLPBoostF.GoodParams S (MLPBoostF.setFwType (MLPBoostF.setTolerance s₁ (fin t)) fw) h ν ∧ |h - t / 2| ≤ 1 / 10 ^ 15 ∧
        (MLPBoostF.setFwType (MLPBoostF.setTolerance s₁ (fin t)) fw).fwType = fw := by
  have hu := u_small
  have hu0 := u_pos
  have hη := eta_tiny
  have hn := hS.two
  have hf := hS.few
  have hr : rnd (S.length : ℝ) = fin (S.length : ℝ) := rnd_nat_long (by omega)
  have e := round_err (t / 2)
  rw [abs_of_pos (show 0 < t / 2 by linarith)] at e
  have e' : |F64.round (t / 2) - t / 2| ≤ 1 / 10 ^ 15 := by
    refine e.trans ?_
    have : u * (t / 2) ≤ (1 / 9000000000000000) * (1 / 2) := mul_le_mul hu (by linarith) (by linarith) (by norm_num)
    norm_num at this hη ⊢
    linarith
  have e'' := abs_le.mp e'
  refine ⟨_, _, if_neg (by omega), if_pos ⟨h1, by rw [hr]; change ν ≤ S.length; have : (0 : ℝ) ≤ S.length := Nat.cast_nonneg _; linarith⟩, F64.round (t / 2), ⟨?_, ?_, ?_, rfl, h1, h2⟩, e', rfl⟩
  · change div (fin t) (fin 2) = _
    simp only [div, if_neg (two_ne_zero : (2 : ℝ) ≠ 0)]
    exact rnd_small (by rw [abs_of_pos (by linarith)]; norm_num; linarith)
  · norm_num at e'' ⊢; linarith
  · norm_num at e'' ⊢; linarith

/-- C130: labels other than `1` and `-1` (as integers) make the run panic before any question. -/
theorem mlp_f64_invalid_labels (L : Libm) (other : FWType → Nat → List F64 → List H → Nat → List F64 → Except Panic (List F64)) (lp : Lp H) {S : Examples X ℝ} {e : Panic} (hS : checkBinary S = .error e)
    (s : MLPBoostF H) (wl : WeakLearner F64 H) (fuel : ℕ) : (MLPBoostF.booster L other lp S).run wl fuel s = some (.error e) := by
  have hpre : (MLPBoostF.booster L other lp S).preprocess s wl = .error e := by
    change MLPBoostF.preprocess L S s = _
    unfold MLPBoostF.preprocess
    rw [hS]
  unfold Booster.run
  simp only [hpre]

/-- A solver that answers with a NaN for every hypothesis. -/
def nanLpF : Lp Bool := fun _ _ hs => .ok (hs.map fun _ => nan)

/-- The booster of the example: `nu(1.5)`, everything else by default. -/
noncomputable def exMlpF : MLPBoostF Bool :=
  { halfTolerance := rnd (5 / 1000), nSample := 2, nu := fin (3 / 2), eta := fin 0, fwType := .shortStep, lpWeights := [], weights := [], hypotheses := [], terminated := 0, maxIter := 0, gamma := fin 1 }

theorem exMlpF_params : MLPBoostF.GoodParams exCerlpPair exMlpF (F64.round (5 / 1000)) (3 / 2) := by
  obtain ⟨hp, -⟩ := cerlp_init_good (H := Bool) exLibm exCerlpPair
  exact ⟨hp.tol, hp.lo, hp.hi, rfl, by norm_num, by norm_num [exCerlpPair]⟩

set_option maxHeartbeats 800000 in
/-- The hypotheses are met: with a solver that only answers NaN, and a learner that always answers with the right hypothesis, the run on two examples returns after two questions, and
`mlp_f64_few_mistakes` applies to it. -/
theorem exMlpF_run : ∃ f qs, (MLPBoostF.booster exLibm (fun _ _ _ _ _ ws => .ok ws) nanLpF exCerlpPair).run (fun _ _ => true) (10 ^ 8) exMlpF = some (.ok (f, qs)) ∧ qs.length = 2 ∧
    (floatMistakes exCerlpPair f : ℝ) < 3 / 2 := by
  obtain ⟨-, ht⟩ := cerlp_init_good (H := Bool) exLibm exCerlpPair
  have hp := exMlpF_params
  have hother : KeepsLength (H := Bool) (fun _ _ _ _ _ ws => .ok ws) := by
    intro t n d hs pos ws r h
    cases h
    rfl
  have hlp : Sized nanLpF := by
    intro eta ub hs r h
    cases h
    simp
  have hwl : ∀ (it : ℕ) d, NearCapped (3 / 2) exCerlpPair.length d → ConfOk exCerlpPair ((fun _ _ => true : WeakLearner F64 Bool) it d) :=
    fun _ _ _ e _ => ⟨if e.1 = true then 1 else -1, rfl, by split <;> simp⟩
  have hlog : 1 / 4 ≤ Real.log (exCerlpPair.length / (3 / 2)) := by
    have h5 : ((exCerlpPair.length : ℕ) : ℝ) / (3 / 2) = 4 / 3 := by norm_num [exCerlpPair]
    rw [h5]
    have h6 := Real.one_sub_inv_le_log_of_pos (show (0 : ℝ) < 4 / 3 by norm_num)
    norm_num at h6
    linarith
  have hlim : 1000 ≤ 8 * Real.log (exCerlpPair.length / (3 / 2)) / F64.round (5 / 1000) ^ 2 := by
    have h3 := hp.lo
    rw [le_div_iff₀ (by positivity)]
    nlinarith
  have key : ∃ f qs, (MLPBoostF.booster exLibm (fun _ _ _ _ _ ws => .ok ws) nanLpF exCerlpPair).run (fun _ _ => true) (10 ^ 8) exMlpF = some (.ok (f, qs)) ∧ qs.length = 2 := by
    obtain ⟨η, M, p1, p2, p3, p4, p5, p6, p7⟩ := MLPBoostF.setup exLibm exCerlpPair_good hp
    have hM : 2 ≤ M := by
      have h3 : (2 : ℝ) ≤ M := by linarith
      exact_mod_cast h3
    set B := MLPBoostF.booster exLibm (fun _ _ _ _ _ ws => .ok ws) nanLpF exCerlpPair with hB
    set s₀ : MLPBoostF Bool := { exMlpF with nSample := exCerlpPair.length, eta := fin η, lpWeights := [], maxIter := M, terminated := M, hypotheses := [], weights := [], gamma := fin 1 } with hs₀
    have i : MLPBoostF.Inv exCerlpPair (fun _ _ => true) (F64.round (5 / 1000)) (3 / 2) η M 0 [] s₀ :=
      ⟨rfl, rfl, rfl, rfl, hp.tol, rfl, le_rfl, by simp, by simp, fun _ => rfl, fun h => absurd rfl h, fun h => absurd rfl h, 1, rfl, by norm_num, fun _ => rfl, fun h => absurd rfl h⟩
    have hpre : B.preprocess exMlpF (fun _ _ => true) = .ok s₀ := p1
    have r1 : rnd (1 : ℝ) = fin 1 := by rw [rnd_small (by norm_num), round_of_rep rep_one]
    have r2 : rnd (-1 : ℝ) = fin (-1) := by rw [rnd_small (by norm_num), round_of_rep (rep_neg rep_one)]
    have r0 : rnd (0 : ℝ) = fin 0 := by rw [rnd_small (by norm_num), round_of_rep rep_zero]
    -- the first round
    have w0 : F64.weightedMargins exCerlpPair s₀.weights s₀.hypotheses = [fin 0, fin 0] := by
      simp [F64.weightedMargins, hs₀, exCerlpPair, F64.mul, r0]
    obtain ⟨d₁, e₁⟩ := exCerlpCap_project exLibm (a := 0) (by norm_num)
    have hd₁ : F64.expDistributionFromMargins exLibm s₀.eta s₀.nu (F64.weightedMargins exCerlpPair s₀.weights s₀.hypotheses) = .ok d₁ := by
      rw [w0]
      simp only [F64.expDistributionFromMargins, hs₀, exMlpF, List.map_cons, List.map_nil, F64.neg, F64.mul, mul_zero, r0]
      exact e₁
    have hb₁ : ∃ out, MLPBoostF.boost exLibm (fun _ _ _ _ _ ws => .ok ws) nanLpF exCerlpPair s₀ (fun _ _ => true) 1 = .ok out ∧ out.flow = .cont ∧ out.state.weights = [fin 1] ∧ out.state.hypotheses = [true] := by
      unfold MLPBoostF.boost
      rw [if_neg (by change ¬ M < 1; omega), hd₁]
      exact ⟨_, rfl, rfl, rfl, rfl⟩
    obtain ⟨o₁, b₁, c₁, w1, w2⟩ := hb₁
    rcases round_mlp exLibm hother hlp exCerlpPair_good hp.lo hp.hi hp.one_le hp.le hwl p2 p3 p4 p5 i (by omega) b₁ with ⟨h, -⟩ | ⟨-, d, d1, d2, ⟨h, -⟩ | ⟨-, V₁, i₁⟩⟩
    · omega
    · exact absurd rfl h
    · -- the second round
      have hw : F64.weightedMargins exCerlpPair o₁.state.weights o₁.state.hypotheses = exCerlpPair.map fun _ => fin 1 := by
        simp [F64.weightedMargins, w1, w2, exCerlpPair, conf, F64.mul, F64.add, r1, r2]
      have hηb : |-η * 1| ≤ 9000 := by rw [mul_one, abs_neg, abs_of_pos (by linarith)]; exact p3
      have hηr : |F64.round (-η * 1)| ≤ 10 ^ 4 := by
        have h1 := round_err (-η * 1)
        have hu := u_small
        have hu' := eta_le_u
        have h3 := abs_le.mp h1
        have h4 := abs_le.mp hηb
        have hu0 := u_pos
        have h5 : u * |-η * 1| ≤ (1 / 9000000000000000) * 9000 := mul_le_mul hu hηb (abs_nonneg _) (by norm_num)
        rw [abs_le]; constructor <;> linarith
      obtain ⟨d₂, e₂⟩ := exCerlpCap_project exLibm hηr
      have hd₂ : F64.expDistributionFromMargins exLibm o₁.state.eta o₁.state.nu (F64.weightedMargins exCerlpPair o₁.state.weights o₁.state.hypotheses) = .ok d₂ := by
        rw [hw, i₁.eta, i₁.nu, ← e₂]
        simp only [F64.expDistributionFromMargins, exCerlpPair, List.map_cons, List.map_nil, F64.neg, F64.mul]
        rw [rnd_small (hηb.trans (by norm_num))]
      have hobj : ∃ r, MLPBoostF.objval exLibm exCerlpPair o₁.state.eta o₁.state.nu o₁.state.hypotheses o₁.state.weights = .ok r := by
        unfold MLPBoostF.objval
        rw [hd₂]
        exact ⟨_, rfl⟩
      obtain ⟨r, hr⟩ := hobj
      have hr' := hr
      rw [i₁.eta, i₁.nu, i₁.hyps, i₁.weights] at hr'
      have hs1 := i₁.sum (by omega)
      obtain ⟨v, rfl, v2, -, ⟨xs, a, x2, x4, x0, a2, v3⟩, -⟩ := objval_near exLibm exCerlpPair_good (fun v hv => ⟨i₁.pos v hv, i₁.ok v hv⟩) (by have := (abs_le.mp hs1).2; linarith)
        (by have := i₁.len; omega) p2 p3 (by norm_num) (by norm_num) hr'
      -- the votes are exactly those of the one hypothesis
      have hV₁ : V₁ = [(1, true)] := by
        have e1 := i₁.weights
        have e2 := i₁.hyps
        rw [w1] at e1
        rw [w2] at e2
        match V₁, e1, e2 with
        | [(x, y)], e1, e2 =>
          simp at e1 e2
          rw [← e1, ← e2]
      have hvote : ∀ e ∈ exCerlpPair, |a e - 1| ≤ 1 / 10 ^ 7 := by
        intro e he
        have := a2 e he
        have hv1 : e.2 * voteAt V₁ e.1 = 1 := by
          simp only [exCerlpPair, List.mem_cons, List.not_mem_nil, or_false] at he
          rw [hV₁]
          rcases he with rfl | rfl <;> simp [voteAt, conf, F64.val]
        rwa [hv1] at this
      have x4' := abs_le.mp x4
      have k1 := abs_le.mp (zipSum_close a (fun _ => 1) (1 / 10 ^ 7) exCerlpPair xs hvote x0 x2)
      have k2 : (List.zipWith (fun (x : ℝ) (_ : Bool × ℝ) => x * 1) xs exCerlpPair).sum = xs.sum := by
        match xs, x2 with
        | [x, y], _ => simp [exCerlpPair]
      rw [k2] at k1
      have k3 := entropy_ge (n := 2) (by norm_num) xs x0
      have hlen2 : (xs.length : ℝ) = 2 := by rw [x2]; norm_num [exCerlpPair]
      have hlenS : ((exCerlpPair.length : ℕ) : ℝ) = 2 := by norm_num [exCerlpPair]
      rw [hlen2] at k3
      have hl2 := Real.log_two_lt_d9
      have hl2' := Real.log_two_gt_d9
      have k4 : -(2 / 10 ^ 5) ≤ xlogs xs + Real.log 2 := by
        unfold xlogs
        have : (xs.sum - 1) * (1 - Real.log 2) ≥ -(2 / 10 ^ 5) := by
          norm_num at x4' ⊢
          nlinarith
        nlinarith
      have k5 : -(2 / 10 ^ 3) ≤ (xlogs xs + Real.log 2) / η := by
        rw [le_div_iff₀ (by linarith)]
        norm_num at k4 ⊢
        nlinarith
      rw [hlenS] at v3
      have v3' := abs_le.mp v3
      obtain ⟨g, g1, g2, -, -⟩ := i₁.gamma
      have hg : ∃ G : ℝ, minNum o₁.state.gamma (edgeOf (F64.margins exCerlpPair true) d₂) = fin G ∧ G ≤ 1 + 2 / 10 ^ 5 ∧ |G| ≤ 2 := by
        obtain ⟨ys, y1, y2, y3, p, q1, q2, -⟩ := project_f64_sound exLibm (3 / 2) [F64.round (-η * 1), F64.round (-η * 1)] (by simp) (by simpa using hηr) (by simpa using e₂)
        have hyl : ys.length = exCerlpPair.length := by rw [q2, q1.1]; rfl
        have y3' := abs_le.mp y3
        have hm : F64.margins exCerlpPair true = exCerlpPair.map fun _ => fin 1 := by
          simp [F64.margins, exCerlpPair, conf, F64.mul, r1]
        obtain ⟨r, r3, -, r4⟩ := edgeOf_near (S := exCerlpPair) (f := fun _ => 1) (fun _ _ => by norm_num) hyl (fun x hx => (y2 x hx).1) (by linarith) (by simp [exCerlpPair])
        have k2 : (List.zipWith (fun (x : ℝ) (_ : Bool × ℝ) => x * 1) ys exCerlpPair).sum = ys.sum := by
          match ys, hyl with
          | [x, y], _ => simp [exCerlpPair]
        rw [k2] at r4
        have r4' := abs_le.mp r4
        have g2' := abs_le.mp g2
        refine ⟨min g r, ?_, ?_, ?_⟩
        · rw [g1, hm, y1, r3, MLPBoostF.minNum_fin]
        · refine (min_le_right _ _).trans ?_
          norm_num at *
          linarith
        · rw [abs_le]
          refine ⟨le_min g2'.1 ?_, (min_le_left _ _).trans g2'.2⟩
          norm_num at *
          linarith
      obtain ⟨G, G1, G2, G3⟩ := hg
      have hstop : Le (sub (fin G) (fin v)) o₁.state.halfTolerance := by
        have G3' := abs_le.mp G3
        have v2' := abs_le.mp v2
        have hb5 : |G + -v| ≤ 2 * 10 ^ 6 := by rw [abs_le]; constructor <;> linarith
        have hsub : sub (fin G) (fin v) = fin (F64.round (G + -v)) := rnd_small (hb5.trans (by norm_num))
        have hgr : |F64.round (G + -v) - (G + -v)| ≤ 1 / 10 ^ 9 := by
          refine (round_err _).trans ?_
          have hu := u_small
          have hηu := eta_le_u
          calc u * |G + -v| + F64.eta ≤ (1 / 9000000000000000) * (2 * 10 ^ 6) + 1 / 9000000000000000 := by gcongr; linarith
            _ ≤ _ := by norm_num
        have hgr' := abs_le.mp hgr
        rw [hsub, i₁.tol]
        change F64.round (G + -v) ≤ F64.round (5 / 1000)
        have h49 : (49 : ℝ) / 10000 ≤ F64.round (5 / 1000) := by
          have h1 := (abs_le.mp (round_err (5 / 1000 : ℝ))).1
          rw [abs_of_pos (by norm_num)] at h1
          have hu := u_small
          have hηu := eta_le_u
          linarith
        have : v ≥ 1 - 3 / 10 ^ 3 := by norm_num at *; linarith
        norm_num at *
        linarith
      have hb₂ : MLPBoostF.boost exLibm (fun _ _ _ _ _ ws => .ok ws) nanLpF exCerlpPair o₁.state (fun _ _ => true) 2 =
          .ok { state := { o₁.state with gamma := fin G, terminated := 2 }, flow := .brk 2, queries := [d₂] } := by
        unfold MLPBoostF.boost
        rw [if_neg (by rw [i₁.lim]; omega), hd₂]
        dsimp only
        rw [if_neg (by norm_num), hr]
        dsimp only
        rw [G1, if_pos hstop]
      obtain ⟨f, f1, -⟩ := single_vote (H := Bool) true
      refine ⟨f, o₁.queries ++ [d₂], ?_, by rw [d2]; rfl⟩
      have hb1 : B.boost s₀ (fun _ _ => true) 1 = _ := b₁
      have hb2 : B.boost o₁.state (fun _ _ => true) 2 = _ := hb₂
      have hl : B.loop (fun _ _ => true) 2 s₀ 1 = some (.ok ({ o₁.state with gamma := fin G, terminated := 2 }, o₁.queries ++ [d₂])) := by
        simp only [Booster.loop, hb1, hb2, c₁]
        rfl
      have hl' := Booster.loop_mono _ _ (by norm_num : 2 ≤ 10 ^ 8) hl
      unfold Booster.run
      have hpost : B.postprocess { o₁.state with gamma := fin G, terminated := 2 } = .ok f := by
        change fromSlices o₁.state.weights o₁.state.hypotheses = _
        rw [w1, w2, f1]
      simp only [hpre, hl', hpost]
  obtain ⟨f, qs, h1, h2⟩ := key
  have hsmall : F64.round (5 / 1000) / (1000 * Real.log (exCerlpPair.length / (3 / 2))) ≤ 1 / 1000 := by
    rw [div_le_iff₀ (by linarith)]
    linarith
  refine ⟨f, qs, h1, h2, mlp_f64_few_mistakes exLibm hother hlp exCerlpPair_good hp hwl (ρ := 999 / 1000) (by linarith) (fun _ d hd => exCerlpCap_edge d hd) h1 ?_⟩
  rw [h2]
  push_cast
  linarith

end Miniboosts.Props
