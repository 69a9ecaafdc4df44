import Verif.Lemmas.FloatCERLPCapRound
import Verif.Props.FloatCERLP

/-! # C126: CERLPBoost in `f64` with a cap -/

namespace Miniboosts.Props

open Miniboosts F64 CERLPBoostF

variable {H X : Type*} [Classifier H X F64] [BEq H]

/-- A run that returns, in one piece. -/
private theorem cerlp_cap_core (L : Libm) (other : FWType → Nat → List F64 → List H → Nat → List F64 → Except Panic (List F64))
    {S : Examples X ℝ} (hS : GoodSample S) {s : CERLPBoostF H} {h ν : ℝ} (hp : CappedParams S s h ν) {wl : WeakLearner F64 H}
    (hwl : ∀ it d, NearCapped ν S.length d → ∀ e ∈ S, ∃ c : ℝ, conf (wl it d) e.1 = fin c ∧ |c| ≤ 1) {fuel : ℕ} {f : WeightedMajority F64 H} {qs : List (List F64)}
    (hrun : (booster L other S).run wl fuel s = some (.ok (f, qs))) :
    (∀ q ∈ qs, NearCapped ν S.length q) ∧ (qs.length : ℝ) ≤ 8 * Real.log (S.length / ν) / h ^ 2 + 1001 / 1000 ∧
      (∃ ws : List ℝ, f.weights = ws.map fin ∧ (∀ w ∈ ws, 0 ≤ w) ∧ |ws.sum - 1| ≤ 3 / 10 ^ 6) ∧
      ∃ V : List (ℝ × H), (∀ e ∈ S, ∃ F : ℝ, F64.weightedConf f e.1 = fin F ∧ |F - voteAt V e.1| ≤ 5 / 10 ^ 6 ∧ |F| ≤ 101 / 100) ∧
        ((qs.length : ℝ) < 8 * Real.log (S.length / ν) / h ^ 2 - 1 / 1000 → ∃ d, NearCapped ν S.length d ∧ ∀ q : List ℝ, q.length = S.length → Spec.IsCapped ν q →
          exactEdge S d (wl qs.length d) - 2 * h - 5 / 10 ^ 5 ≤ (List.zipWith (fun x e => x * (e.2 * voteAt V e.1)) q S).sum) := by
  obtain ⟨η, M, p1, p2, p3, p4, p5, p6, p7⟩ := setup_cap L hS hp
  obtain ⟨n, qs', s', out, k, r1, -, r3, r4, r5, r6⟩ := Booster.run_spec _ wl s hrun
  obtain ⟨i1, i2, i3, V, i⟩ := reach_cap L other hS hp hwl p2 p3 p4 p5 p1 r1
  have hb : boost L other S s' wl (n + 1) = .ok out := r3
  have hpost : ∀ st : CERLPBoostF H, st.weights = s'.weights → st.hypotheses = s'.hypotheses → (booster L other S).postprocess st = .ok f →
      (∃ ws : List ℝ, f.weights = ws.map fin ∧ (∀ w ∈ ws, 0 ≤ w) ∧ |ws.sum - 1| ≤ 3 / 10 ^ 6) ∧
      ∀ e ∈ S, ∃ F : ℝ, F64.weightedConf f e.1 = fin F ∧ |F - voteAt V e.1| ≤ 5 / 10 ^ 6 ∧ |F| ≤ 101 / 100 := by
    intro st e1 e2 e3
    have e3' : fromSlices st.weights st.hypotheses = .ok f := e3
    rw [e1, e2, i.weights, i.hyps] at e3'
    by_cases h0 : n = 0
    · rw [i.first h0] at e3'
      unfold fromSlices F64.normalize at e3'
      simp [Except.map] at e3'
    · obtain ⟨g, f1, -, f3, f4⟩ := vote_near (X := X) V (fun v hv => (i.rep v hv).2) ((i.sum_le (by omega)).2 h0) (by have := i.len; omega)
      rw [f1, Except.ok.injEq] at e3'
      subst e3'
      refine ⟨f3, fun e he => ?_⟩
      obtain ⟨F, F1, F2⟩ := f4 e.1 fun v hv => i.ok v hv e he
      refine ⟨F, F1, F2, ?_⟩
      have b1 := voteAt_abs (S := S) (V := V) (fun v hv => ⟨(i.rep v hv).2, i.ok v hv⟩) e he
      have b2 := abs_le.mp ((i.sum_le (by omega)).2 h0)
      have b3 : |F| ≤ |F - voteAt V e.1| + |voteAt V e.1| := by simpa using abs_add_le (F - voteAt V e.1) (voteAt V e.1)
      norm_num at b2 F2 ⊢
      linarith
  have hMle : ∀ m : ℕ, m ≤ M → (m : ℝ) ≤ 8 * Real.log (S.length / ν) / h ^ 2 + 1001 / 1000 := by
    intro m hm
    have : (m : ℝ) ≤ M := by exact_mod_cast hm
    linarith
  rcases round_cap L other hS hp hwl p2 p3 p4 p5 i i1 hb with ⟨h3, -, h5, h6⟩ | ⟨h3, d, d1, d2, ⟨-, h5, h6, h7⟩ | ⟨h4, -⟩⟩
  · rw [h6, List.append_nil] at r5
    subst r5
    rw [h5] at r6
    obtain ⟨g1, g2⟩ := hpost s' rfl rfl r6
    refine ⟨i3, hMle _ (by omega), g1, V, g2, ?_⟩
    intro hlt
    have : (qs.length : ℝ) = M := by rw [i2, h3]
    linarith
  · rw [d2] at r5
    subst r5
    obtain ⟨g1, g2⟩ := hpost out.state h5 h6 r6
    have hlen : (qs' ++ [d]).length = n + 1 := by simp [i2]
    refine ⟨?_, hMle _ (by omega), g1, V, g2, ?_⟩
    · intro q hq
      rcases List.mem_append.mp hq with hq | hq
      · exact i3 q hq
      · rw [List.mem_singleton] at hq; subst hq; exact d1
    · intro _
      rw [hlen]
      exact ⟨d, d1, h7⟩
  · rw [r4] at h4; cases h4

/-- C126: in a run that returns, every weight vector handed to the learner is almost a distribution capped at `1/ν`, at most about `8 ln(n/ν) / h²` questions are asked, and
the weights of the returned vote are non-negative numbers of sum (almost) one. -/
theorem cerlp_f64_capped (L : Libm) (other : FWType → Nat → List F64 → List H → Nat → List F64 → Except Panic (List F64))
    {S : Examples X ℝ} (hS : GoodSample S) {s : CERLPBoostF H} {h ν : ℝ} (hp : CappedParams S s h ν) {wl : WeakLearner F64 H}
    (hwl : ∀ it d, NearCapped ν S.length d → ∀ e ∈ S, ∃ c : ℝ, conf (wl it d) e.1 = fin c ∧ |c| ≤ 1) {fuel : ℕ} {f : WeightedMajority F64 H} {qs : List (List F64)}
    (hrun : (booster L other S).run wl fuel s = some (.ok (f, qs))) :
    (∀ q ∈ qs, NearCapped ν S.length q) ∧ (qs.length : ℝ) ≤ 8 * Real.log (S.length / ν) / h ^ 2 + 1001 / 1000 ∧
      ∃ ws : List ℝ, f.weights = ws.map fin ∧ (∀ w ∈ ws, 0 ≤ w) ∧ |ws.sum - 1| ≤ 3 / 10 ^ 6 := by
  obtain ⟨h1, h2, h3, -⟩ := cerlp_cap_core L other hS hp hwl hrun
  exact ⟨h1, h2, h3⟩

/-- C126: every confidence of the returned vote on the sample is a number, at most `1.01` in absolute value. -/
theorem cerlp_f64_confidence (L : Libm) (other : FWType → Nat → List F64 → List H → Nat → List F64 → Except Panic (List F64))
    {S : Examples X ℝ} (hS : GoodSample S) {s : CERLPBoostF H} {h ν : ℝ} (hp : CappedParams S s h ν) {wl : WeakLearner F64 H}
    (hwl : ∀ it d, NearCapped ν S.length d → ∀ e ∈ S, ∃ c : ℝ, conf (wl it d) e.1 = fin c ∧ |c| ≤ 1) {fuel : ℕ} {f : WeightedMajority F64 H} {qs : List (List F64)}
    (hrun : (booster L other S).run wl fuel s = some (.ok (f, qs))) : ∀ e ∈ S, ∃ F : ℝ, F64.weightedConf f e.1 = fin F ∧ |F| ≤ 101 / 100 := by
  obtain ⟨-, -, -, V, h4, -⟩ := cerlp_cap_core L other hS hp hwl hrun
  intro e he
  obtain ⟨F, F1, -, F3⟩ := h4 e he
  exact ⟨F, F1, F3⟩

/-- C126, the soft margin: if the learner finds an edge of at least `ρ` for all weights that are almost a distribution capped at `1/ν`, and the run returns before the limit of the
iterations, then the computed confidences `F` of the returned vote have a mean margin of at least `ρ - tolerance - 10⁻⁴` under every distribution capped at `1/ν`. -/
theorem cerlp_f64_soft_margin (L : Libm) (other : FWType → Nat → List F64 → List H → Nat → List F64 → Except Panic (List F64))
    {S : Examples X ℝ} (hS : GoodSample S) {s : CERLPBoostF H} {h ν : ℝ} (hp : CappedParams S s h ν) {wl : WeakLearner F64 H}
    (hwl : ∀ it d, NearCapped ν S.length d → ∀ e ∈ S, ∃ c : ℝ, conf (wl it d) e.1 = fin c ∧ |c| ≤ 1) {ρ : ℝ} (hedge : ∀ it d, NearCapped ν S.length d → ρ ≤ exactEdge S d (wl it d))
    {fuel : ℕ} {f : WeightedMajority F64 H} {qs : List (List F64)} (hrun : (booster L other S).run wl fuel s = some (.ok (f, qs)))
    (hstop : (qs.length : ℝ) < 8 * Real.log (S.length / ν) / h ^ 2 - 1 / 1000) :
    (∀ e ∈ S, (F64.weightedConf f e.1).IsFin) ∧
      ∀ q : List ℝ, q.length = S.length → Spec.IsCapped ν q → ρ - 2 * h - 1 / 10 ^ 4 ≤ (List.zipWith (fun x e => x * (e.2 * (F64.weightedConf f e.1).val)) q S).sum := by
  obtain ⟨-, -, -, V, h4, h5⟩ := cerlp_cap_core L other hS hp hwl hrun
  obtain ⟨d, d1, d2⟩ := h5 hstop
  refine ⟨fun e he => by obtain ⟨F, F1, -⟩ := h4 e he; rw [F1]; trivial, ?_⟩
  intro q q1 q2
  have k := abs_le.mp (zipSum_close (fun e => e.2 * (F64.weightedConf f e.1).val) (fun e => e.2 * voteAt V e.1) (5 / 10 ^ 6) S q (fun e he => by
    obtain ⟨F, F1, F2, -⟩ := h4 e he
    rw [F1, ← mul_sub, pm_abs (hS.labels e he)]
    exact F2) (fun x hx => (q2.1 x hx).1) q1)
  rw [q2.2, mul_one] at k
  have h6 := hedge qs.length d d1
  have h7 := d2 q q1 q2
  linarith [k.1]

/-- A distribution that is uniform on the examples with a property. -/
private theorem sum_ite {α : Type*} (p : α → Bool) (c : ℝ) (S : List α) : (S.map fun e => if p e then c else 0).sum = c * S.countP p := by
  induction S with
  | nil => simp
  | cons e S ih =>
    rw [List.map_cons, List.sum_cons, ih, List.countP_cons]
    split <;> push_cast <;> ring

/-- C126: with an edge above the tolerance (and `10⁻⁴`) fewer than `ν` training examples are classified wrongly. -/
theorem cerlp_f64_few_mistakes (L : Libm) (other : FWType → Nat → List F64 → List H → Nat → List F64 → Except Panic (List F64))
    {S : Examples X ℝ} (hS : GoodSample S) {s : CERLPBoostF H} {h ν : ℝ} (hp : CappedParams S s h ν) {wl : WeakLearner F64 H}
    (hwl : ∀ it d, NearCapped ν S.length d → ∀ e ∈ S, ∃ c : ℝ, conf (wl it d) e.1 = fin c ∧ |c| ≤ 1) {ρ : ℝ} (hρ : 2 * h + 1 / 10 ^ 4 < ρ)
    (hedge : ∀ it d, NearCapped ν S.length d → ρ ≤ exactEdge S d (wl it d))
    {fuel : ℕ} {f : WeightedMajority F64 H} {qs : List (List F64)} (hrun : (booster L other S).run wl fuel s = some (.ok (f, qs)))
    (hstop : (qs.length : ℝ) < 8 * Real.log (S.length / ν) / h ^ 2 - 1 / 1000) : (floatMistakes S f : ℝ) < ν := by
  classical
  obtain ⟨h1, h2⟩ := cerlp_f64_soft_margin L other hS hp hwl hedge hrun hstop
  by_contra hge
  push Not at hge
  unfold floatMistakes at hge
  set p : X × ℝ → Bool := fun e => decide ((F64.predict f e.1 : ℝ) ≠ e.2) with hpd
  have hν1 := hp.one_le
  set c : ℝ := (S.countP p : ℝ) with hc
  have hc0 : 0 < c := by linarith
  have hwrong : ∀ e ∈ S, p e = true → e.2 * (F64.weightedConf f e.1).val ≤ 0 := by
    intro e he hpe
    have hfin := h1 e he
    have hpe' : (F64.predict f e.1 : ℝ) ≠ e.2 := by simpa [hpd] using hpe
    unfold F64.predict at hpe'
    cases hF : F64.weightedConf f e.1 with
    | nan => rw [hF] at hfin; exact absurd hfin id
    | inf b => rw [hF] at hfin; exact absurd hfin id
    | fin F =>
      rw [hF] at hpe'
      change e.2 * F ≤ 0
      by_cases hle : Le (fin 0) (fin F)
      · rw [if_pos hle] at hpe'
        have hF0 : (0 : ℝ) ≤ F := hle
        rcases hS.labels e he with h | h
        · rw [h] at hpe'; exact absurd (by norm_num) hpe'
        · rw [h]; linarith
      · rw [if_neg hle] at hpe'
        have hF0 : ¬ (0 : ℝ) ≤ F := hle
        rcases hS.labels e he with h | h
        · rw [h]; linarith
        · rw [h] at hpe'; exact absurd (by norm_num) hpe'
  have h3 := h2 (S.map fun e => if p e then 1 / c else 0) (by simp) ⟨by
    intro x hx
    obtain ⟨e, -, rfl⟩ := List.mem_map.mp hx
    split
    · exact ⟨by positivity, one_div_le_one_div_of_le (by linarith) hge⟩
    · exact ⟨le_rfl, by positivity⟩, by rw [sum_ite, ← hc]; field_simp⟩
  rw [List.zipWith_map_left, List.zipWith_self] at h3
  have h4 : (S.map fun e => (if p e then 1 / c else 0) * (e.2 * (F64.weightedConf f e.1).val)).sum ≤ 0 := by
    have hnp : ∀ l : List ℝ, (∀ x ∈ l, x ≤ 0) → l.sum ≤ 0 := by
      intro l
      induction l with
      | nil => simp
      | cons y l ih =>
        intro h
        have := ih fun x hx => h x (List.mem_cons_of_mem _ hx)
        have := h y (by simp)
        rw [List.sum_cons]
        linarith
    refine hnp _ ?_
    intro x hx
    obtain ⟨e, he, rfl⟩ := List.mem_map.mp hx
    split
    · rename_i hpe
      exact mul_nonpos_of_nonneg_of_nonpos (by positivity) (hwrong e he hpe)
    · simp
  linarith

omit [Classifier H X F64] [BEq H] in
/-- C126: `nu` panics exactly if its argument is not in `[1, n]`. -/
theorem cerlp_f64_nu_panics (L : Libm) {S : Examples X ℝ} (hn : S.length ≤ 10 ^ 5) (s : CERLPBoostF H) (x : F64) :
    (∃ e, setNu L S s x = .error e) ↔ ¬ ∃ ν : ℝ, x = fin ν ∧ 1 ≤ ν ∧ ν ≤ S.length := by
  have hr : rnd (S.length : ℝ) = fin (S.length : ℝ) := rnd_nat_long (by omega)
  unfold setNu
  rw [hr]
  have hiff : (Le (fin 1) x ∧ Le x (fin (S.length : ℝ))) ↔ ∃ ν : ℝ, x = fin ν ∧ 1 ≤ ν ∧ ν ≤ S.length := by
    cases x with
    | nan => simp [Le]
    | inf b => cases b <;> simp [Le]
    | fin ν =>
      constructor
      · rintro ⟨h1, h2⟩; exact ⟨ν, rfl, h1, h2⟩
      · rintro ⟨ν', h, h1, h2⟩
        rw [fin.injEq] at h
        subst h
        exact ⟨h1, h2⟩
  by_cases h : Le (fin 1) x ∧ Le x (fin (S.length : ℝ))
  · rw [if_pos h]; simp [← hiff, h]
  · rw [if_neg h]; simp only [← hiff, h, not_false_eq_true, iff_true]; exact ⟨_, rfl⟩

/-- Half of a tolerance. -/
private theorem half_round {t : ℝ} (h1 : 5 / 1000 ≤ t) (h2 : t ≤ 99 / 100) : 2 / 1000 ≤ F64.round (t / 2) ∧ F64.round (t / 2) ≤ 1 / 2 := by
  have h3 := abs_le.mp (round_err (t / 2))
  have hu := u_small
  have hu0 := u_pos
  have hη := eta_le_u
  have h4 : u * |t / 2| ≤ 1 / 9000000000000000 * 1 := by
    refine mul_le_mul hu ?_ (abs_nonneg _) (by norm_num)
    rw [abs_of_pos (by linarith)]; linarith
  constructor <;> linarith [h3.1, h3.2]

omit [Classifier H X F64] [BEq H] in
/-- C126, the configuration: calls of `nu`, `tolerance` and `fw_type` in any number and order, with arguments in the range of the statements, do not panic, and the last call of
each method counts. -/
theorem cerlp_f64_configured (L : Libm) {S : Examples X ℝ} (hS : GoodSample S) (calls : List Setting) (hc : ∀ c ∈ calls, c.Good S.length) :
    ∃ s : CERLPBoostF H, configure L S calls = .ok s ∧ CappedParams S s s.halfTolerance.val (lastNu calls) ∧ s.fwType = lastSteps calls ∧
      |s.halfTolerance.val - lastTolerance calls / 2| ≤ 1 / 10 ^ 15 := by
  have hr : rnd (S.length : ℝ) = fin (S.length : ℝ) := rnd_nat_long (by have := hS.few; omega)
  have hu := u_small
  have hu0 := u_pos
  have hη := eta_le_u
  have hround : ∀ t : ℝ, 5 / 1000 ≤ t → t ≤ 99 / 100 → |F64.round (t / 2) - t / 2| ≤ 1 / 10 ^ 15 := by
    intro t h1 h2
    refine (round_err _).trans ?_
    have : u * |t / 2| ≤ 1 / 9000000000000000 * (99 / 200) := by
      refine mul_le_mul hu ?_ (abs_nonneg _) (by norm_num)
      rw [abs_of_pos (by linarith)]; linarith
    have h3 : (1 : ℝ) / 9000000000000000 * (99 / 200) + 1 / 9000000000000000 ≤ 1 / 10 ^ 15 := by norm_num
    linarith
  have key : ∀ (calls : List Setting) (s : CERLPBoostF H) (ν t : ℝ), (∀ c ∈ calls, c.Good S.length) → CappedParams S s s.halfTolerance.val ν → |s.halfTolerance.val - t / 2| ≤ 1 / 10 ^ 15 →
      ∃ s', calls.foldlM (Setting.apply L S) s = .ok s' ∧
        CappedParams S s' s'.halfTolerance.val (calls.foldl (fun ν c => match c with | .nu ν' => ν' | _ => ν) ν) ∧
        s'.fwType = calls.foldl (fun t c => match c with | .steps t' => t' | _ => t) s.fwType ∧
        |s'.halfTolerance.val - (calls.foldl (fun t c => match c with | .tolerance t' => t' | _ => t) t) / 2| ≤ 1 / 10 ^ 15 := by
    intro calls
    induction calls with
    | nil => intro s ν t _ h1 h2; exact ⟨s, rfl, h1, rfl, h2⟩
    | cons c calls ih =>
      intro s ν t hc h1 h2
      have hc' := fun c' hc' => hc c' (List.mem_cons_of_mem _ hc')
      have hg := hc c (by simp)
      cases c with
      | nu ν' =>
        obtain ⟨g1, g2⟩ : 1 ≤ ν' ∧ ν' ≤ 99 / 100 * (S.length : ℝ) := hg
        have g3 : (0 : ℝ) ≤ S.length := Nat.cast_nonneg _
        have hap : Setting.apply L S s (.nu ν') = .ok (regularizationParam L { s with nu := fin ν' }) := by
          simp only [Setting.apply, setNu]
          refine if_pos ⟨g1, ?_⟩
          rw [hr]
          change ν' ≤ (S.length : ℝ)
          linarith
        obtain ⟨s', e1, e2, e3, e4⟩ := ih (regularizationParam L { s with nu := fin ν' }) ν' t hc' ⟨h1.tol, h1.lo, h1.hi, rfl, g1, g2, h1.steps⟩ h2
        refine ⟨s', ?_, e2, e3, e4⟩
        rw [List.foldlM_cons, hap]
        exact e1
      | tolerance t' =>
        obtain ⟨g1, g2⟩ : 5 / 1000 ≤ t' ∧ t' ≤ 99 / 100 := hg
        have hd : div (fin t') (fin 2) = fin (F64.round (t' / 2)) := by
          simp only [div, if_neg (two_ne_zero (α := ℝ))]
          refine rnd_small ?_
          rw [abs_of_pos (by linarith)]; linarith
        obtain ⟨k1, k2⟩ := half_round g1 g2
        obtain ⟨s', e1, e2, e3, e4⟩ := ih (setTolerance s (fin t')) ν t' hc' (by
          unfold setTolerance
          rw [hd]
          exact ⟨rfl, k1, k2, h1.nu, h1.one_le, h1.le, h1.steps⟩) (by
          unfold setTolerance
          rw [hd]
          exact hround t' g1 g2)
        exact ⟨s', e1, e2, e3, e4⟩
      | steps t' =>
        obtain ⟨s', e1, e2, e3, e4⟩ := ih (setFwType s t') ν t hc' ⟨h1.tol, h1.lo, h1.hi, h1.nu, h1.one_le, h1.le, hg⟩ h2
        exact ⟨s', e1, e2, e3, e4⟩
  obtain ⟨hp, -⟩ := cerlp_init_good (H := H) L S
  have h2 : (2 : ℝ) ≤ S.length := by exact_mod_cast hS.two
  have htol : (CERLPBoostF.init L S : CERLPBoostF H).halfTolerance.val = F64.round (5 / 1000) := by rw [hp.tol]; rfl
  refine key calls (CERLPBoostF.init L S) 1 (1 / 100) hc ?_ ?_
  · rw [htol]
    exact ⟨hp.tol, hp.lo, hp.hi, rfl, le_rfl, by linarith, hp.steps⟩
  · rw [htol]
    have := hround (1 / 100) (by norm_num) (by norm_num)
    norm_num at this ⊢
    exact this

/-- C126: labels that are not accepted make every run panic. -/
theorem cerlp_f64_invalid_labels (L : Libm) (other : FWType → Nat → List F64 → List H → Nat → List F64 → Except Panic (List F64)) {S : Examples X ℝ} {e : Panic} (hS : checkBinary S = .error e)
    (s : CERLPBoostF H) (wl : WeakLearner F64 H) (fuel : ℕ) : (booster L other S).run wl fuel s = some (.error e) := by
  have hpre : (booster L other S).preprocess s wl = .error e := by
    change preprocess L S s = _
    unfold preprocess
    rw [hS]
  unfold Booster.run
  simp only [hpre]

example (L : Libm) : ∃ s : CERLPBoostF Bool, configure L exCerlpPair [.tolerance (1 / 10), .nu (3 / 2), .steps .classic, .tolerance (2 / 10)] = .ok s ∧
    CappedParams exCerlpPair s s.halfTolerance.val (3 / 2) ∧ s.fwType = .classic ∧ |s.halfTolerance.val - 2 / 10 / 2| ≤ 1 / 10 ^ 15 :=
  cerlp_f64_configured L exCerlpPair_good _ (by
    intro c hc
    simp only [List.mem_cons, List.not_mem_nil, or_false] at hc
    rcases hc with rfl | rfl | rfl | rfl <;> norm_num [Setting.Good, exCerlpPair])

/-! ## Example: `ν = 3/2` -/

theorem exCerlpCap_project (L : Libm) {a : ℝ} (ha : |a| ≤ 10 ^ 4) : ∃ r, F64.projectCapped L (fin (3 / 2)) [fin a, fin a] = .ok r := by
  have hv : Real.exp (-a) * (1 / 2) * Real.exp a = 1 / 2 := by
    rw [mul_right_comm, ← Real.exp_add]; simp
  have h := project_f64_returns_partial L (3 / 2) [a, a] (by norm_num) (by norm_num) (by simp) (by simpa using ha) (Real.exp (-a) * (1 / 2)) (by positivity)
    (by simp only [List.map_cons, List.map_nil, hv]; norm_num) (by
      intro b hb
      have : b = a := by simpa using hb
      subst this
      rw [hv]; norm_num [abs_le, le_abs]) (by
      simp only [List.map_cons, List.map_nil, hv]; norm_num)
  simpa using h

/-- The default parameters with `ν = 3/2`. -/
noncomputable def exCerlpCap : CERLPBoostF Bool := { (CERLPBoostF.init exLibm exCerlpPair : CERLPBoostF Bool) with nu := fin (3 / 2) }

theorem exCerlpCap_params : CappedParams exCerlpPair exCerlpCap (F64.round (5 / 1000)) (3 / 2) := by
  obtain ⟨hp, -⟩ := cerlp_init_good (H := Bool) exLibm exCerlpPair
  exact ⟨hp.tol, hp.lo, hp.hi, rfl, by norm_num, by norm_num [exCerlpPair], .inr rfl⟩

theorem exCerlpCap_edge (d : List F64) (hd : NearCapped (3 / 2) exCerlpPair.length d) : 999 / 1000 ≤ exactEdge exCerlpPair d true := by
  obtain ⟨xs, rfl, h2, -, h4, -⟩ := hd
  rw [exactEdge_map]
  match xs, h2 with
  | [a, b], _ =>
    have := abs_le.mp h4
    simp [exCerlpPair, conf, F64.val] at this ⊢
    linarith [this.1]

/-- The run asks two questions, stops before the limit, and at most one of the two examples is classified wrongly. -/
theorem exCerlpCap_run (other) : ∃ f qs, (booster exLibm other exCerlpPair).run (fun _ _ => true) (10 ^ 8) exCerlpCap = some (.ok (f, qs)) ∧ qs.length = 2 ∧ (floatMistakes exCerlpPair f : ℝ) < 3 / 2 := by
  obtain ⟨-, ht⟩ := cerlp_init_good (H := Bool) exLibm exCerlpPair
  have hp := exCerlpCap_params
  have hwl : ∀ (it : ℕ) d, NearCapped (3 / 2) exCerlpPair.length d → ConfOk exCerlpPair ((fun _ _ => true : WeakLearner F64 Bool) it d) :=
    fun _ _ _ e _ => ⟨if e.1 = true then 1 else -1, rfl, by split <;> simp⟩
  have hlim : 1000 ≤ 8 * Real.log (exCerlpPair.length / (3 / 2)) / F64.round (5 / 1000) ^ 2 := by
    have h3 := hp.lo
    rw [le_div_iff₀ (by positivity)]
    have h5 : ((exCerlpPair.length : ℕ) : ℝ) / (3 / 2) = 4 / 3 := by norm_num [exCerlpPair]
    rw [h5]
    have h6 := Real.one_sub_inv_le_log_of_pos (show (0 : ℝ) < 4 / 3 by norm_num)
    norm_num at h6
    nlinarith
  have key : ∃ f qs, (booster exLibm other exCerlpPair).run (fun _ _ => true) (10 ^ 8) exCerlpCap = some (.ok (f, qs)) ∧ qs.length = 2 := by
    obtain ⟨η, M, p1, p2, p3, p4, p5, p6, p7⟩ := setup_cap exLibm exCerlpPair_good hp
    have hM : 2 ≤ M := by
      have h3 : (2 : ℝ) ≤ M := by linarith
      exact_mod_cast h3
    set s₀ : CERLPBoostF Bool := { exCerlpCap with dist := List.replicate exCerlpPair.length (F64.div (fin 1) (rnd (exCerlpPair.length : ℝ))), eta := fin η, maxIter := M, terminated := M, weights := [], hypotheses := [] } with hs₀
    have i : Inv exCerlpPair exCerlpCap η M 0 [] s₀ := ⟨rfl, rfl, rfl, rfl, rfl, rfl, rfl, le_rfl, by simp, by simp, fun _ => rfl, fun h => absurd rfl h⟩
    have hpre : (booster exLibm other exCerlpPair).preprocess exCerlpCap (fun _ _ => true) = .ok s₀ := p1
    have r1 : rnd (1 : ℝ) = fin 1 := by rw [rnd_small (by norm_num), round_of_rep rep_one]
    have r2 : rnd (-1 : ℝ) = fin (-1) := by rw [rnd_small (by norm_num), round_of_rep (rep_neg rep_one)]
    have r0 : rnd (0 : ℝ) = fin 0 := by rw [rnd_small (by norm_num), round_of_rep rep_zero]
    -- the first round
    have w0 : F64.weightedMargins exCerlpPair s₀.weights s₀.hypotheses = [fin 0, fin 0] := by
      simp [F64.weightedMargins, hs₀, exCerlpPair, F64.mul, r0]
    obtain ⟨d₁, e₁⟩ := exCerlpCap_project exLibm (a := 0) (by norm_num)
    have hd₁ : F64.expDistributionFromMargins exLibm s₀.eta s₀.nu (F64.weightedMargins exCerlpPair s₀.weights s₀.hypotheses) = .ok d₁ := by
      rw [w0]
      simp only [F64.expDistributionFromMargins, hs₀, exCerlpCap, List.map_cons, List.map_nil, F64.neg, F64.mul, mul_zero, r0]
      exact e₁
    have hb₁ : ∃ out, boost exLibm other exCerlpPair s₀ (fun _ _ => true) 1 = .ok out := by
      unfold boost
      rw [if_neg (by change ¬ M < 1; omega), hd₁]
      dsimp only
      split
      · exact ⟨_, rfl⟩
      · simp [hs₀, exCerlpCap, CERLPBoostF.init, nextIterate]
    obtain ⟨o₁, b₁⟩ := hb₁
    rcases round_cap exLibm other exCerlpPair_good hp hwl p2 p3 p4 p5 i (by omega) b₁ with ⟨h, -⟩ | ⟨-, d, d1, d2, ⟨-, -, -, h7⟩ | ⟨c₁, V₁, i₁⟩⟩
    · omega
    · have h8 := h7 [1 / 2, 1 / 2] rfl ⟨by intro x hx; have : x = 1 / 2 := by simpa using hx
                                           subst this; norm_num, by norm_num⟩
      have h9 := exCerlpCap_edge d d1
      simp [voteAt, exCerlpPair] at h8
      have : F64.round (5 / 1000) ≤ 6 / 1000 := ht
      simp [exCerlpPair] at h9
      linarith
    · obtain ⟨w1, w2⟩ := exCerlpPair_first exLibm other rfl rfl rfl b₁ c₁
      -- the second round
      have hw : F64.weightedMargins exCerlpPair o₁.state.weights o₁.state.hypotheses = exCerlpPair.map fun _ => fin 1 := by
        simp [F64.weightedMargins, w1, w2, exCerlpPair, conf, F64.mul, F64.add, r1, r2]
      have hm : F64.margins exCerlpPair true = exCerlpPair.map fun _ => fin 1 := by
        simp [F64.margins, exCerlpPair, conf, F64.mul, r1]
      have hηb : |-η * 1| ≤ 9000 := by rw [mul_one, abs_neg, abs_of_pos (by linarith)]; exact p3
      have hηr : |F64.round (-η * 1)| ≤ 10 ^ 4 := by
        have h1 := round_err (-η * 1)
        have hu := u_small
        have hu' := eta_le_u
        have h2 : u * |-η * 1| ≤ 1 * 9000 := mul_le_mul (by linarith) hηb (abs_nonneg _) (by norm_num)
        have h3 := abs_le.mp h1
        have h4 := abs_le.mp hηb
        have hu0 := u_pos
        have h5 : u * |-η * 1| ≤ (1 / 9000000000000000) * 9000 := mul_le_mul hu hηb (abs_nonneg _) (by norm_num)
        rw [abs_le]; constructor <;> linarith
      obtain ⟨d₂, e₂⟩ := exCerlpCap_project exLibm hηr
      have hd₂ : F64.expDistributionFromMargins exLibm o₁.state.eta o₁.state.nu (F64.weightedMargins exCerlpPair o₁.state.weights o₁.state.hypotheses) = .ok d₂ := by
        rw [hw, i₁.eta, i₁.nu, hp.nu, ← e₂]
        simp only [F64.expDistributionFromMargins, exCerlpPair, List.map_cons, List.map_nil, F64.neg, F64.mul]
        rw [rnd_small (hηb.trans (by norm_num))]
      obtain ⟨xs, x1, x2, x3, p, q1, q2, -⟩ := project_f64_sound exLibm (3 / 2) [F64.round (-η * 1), F64.round (-η * 1)] (by simp) (by simpa using hηr) (by simpa using e₂)
      have hxl : xs.length = exCerlpPair.length := by rw [q2, q1.1]; rfl
      have x3' := abs_le.mp x3
      obtain ⟨r, r3, -, -⟩ := edgeOf_near (S := exCerlpPair) (f := fun _ => 1) (fun _ _ => by norm_num) hxl (fun x hx => (x2 x hx).1) (by linarith) (by simp [exCerlpPair])
      have hb₂ : boost exLibm other exCerlpPair o₁.state (fun _ _ => true) 2 = .ok { state := { o₁.state with dist := d₂, terminated := 2 }, flow := .brk 2, queries := [d₂] } := by
        unfold boost
        rw [if_neg (by rw [i₁.lim]; omega), hd₂]
        dsimp only
        refine if_pos ?_
        rw [hw, hm, x1, r3, i₁.tol, hp.tol]
        change Le (rnd (r + -r)) _
        rw [add_neg_cancel, r0]
        have := hp.lo
        change (0 : ℝ) ≤ F64.round (5 / 1000)
        linarith
      obtain ⟨f, f1, -⟩ := single_vote (H := Bool) true
      refine ⟨f, o₁.queries ++ [d₂], ?_, by rw [d2]; rfl⟩
      have hb1 : (booster exLibm other exCerlpPair).boost s₀ (fun _ _ => true) 1 = _ := b₁
      have hb2 : (booster exLibm other exCerlpPair).boost o₁.state (fun _ _ => true) 2 = _ := hb₂
      have hl : (booster exLibm other exCerlpPair).loop (fun _ _ => true) 2 s₀ 1 = some (.ok ({ o₁.state with dist := d₂, terminated := 2 }, o₁.queries ++ [d₂])) := by
        simp only [Booster.loop, hb1, hb2, c₁]
        rfl
      have hl' := Booster.loop_mono _ _ (by norm_num : 2 ≤ 10 ^ 8) hl
      unfold Booster.run
      have hpost : (booster exLibm other exCerlpPair).postprocess { o₁.state with dist := d₂, terminated := 2 } = .ok f := by
        change fromSlices o₁.state.weights o₁.state.hypotheses = _
        rw [w1, w2, f1]
      simp only [hpre, hl', hpost]
  obtain ⟨f, qs, h1, h2⟩ := key
  refine ⟨f, qs, h1, h2, cerlp_f64_few_mistakes exLibm other exCerlpPair_good hp hwl (ρ := 999 / 1000) (by linarith) (fun _ d hd => exCerlpCap_edge d hd) h1 ?_⟩
  rw [h2]
  push_cast
  linarith

end Miniboosts.Props
