import Verif.Lemmas.FloatSmoothVote
import Verif.Props.Rounding
import Verif.Props.SmoothBoost

/-! # SmoothBoost in `f64` keeps its guarantees (C118) -/

namespace Miniboosts.Props

open Miniboosts Spec F64 SmoothBoostF

variable {H X : Type*} [Classifier H X F64]

/-- The parameters of a run of SmoothBoost in `f64`: `κ` and `γ` are the numbers that the caller configured. -/
structure SmoothConfig (S : Examples X ℝ) (s₀ : SmoothBoostF H) (κ g : ℝ) : Prop where
  valid : checkBinary S = .ok ()
  labels : PmLabels S
  size : S.length ≤ 10 ^ 5
  kappa : s₀.kappa = fin κ
  gamma : s₀.gamma = fin g
  double : Double g
  kappa_lo : 1 / 10 ^ 30 ≤ κ
  kappa_hi : κ < 1
  gamma_lo : 0 ≤ g
  gamma_hi : g < 1 / 2

theorem smoothF_inv (P : Powm) {S : Examples X ℝ} {s₀ : SmoothBoostF H} {κ g : ℝ} (hc : SmoothConfig S s₀ κ g) {wl : WeakLearner F64 H}
    (hwl : AnswersSmooth S κ wl) {n : Nat} {qs : List (List F64)} {s : SmoothBoostF H}
    (h : (SmoothBoostF.booster P S).Reachable wl s₀ n qs s) : Inv S s₀ κ g n qs s :=
  inv_of_reachable P hc.labels hc.size hc.kappa hc.gamma hc.kappa_lo hc.kappa_hi hc.gamma_lo hc.gamma_hi hc.double hwl h

/-- What a call of `boost` does. -/
theorem smoothF_cases (P : Powm) {S : Examples X ℝ} {s₀ : SmoothBoostF H} {κ g : ℝ} (hc : SmoothConfig S s₀ κ g) {wl : WeakLearner F64 H}
    (hwl : AnswersSmooth S κ wl) {n : Nat} {qs : List (List F64)} {s : SmoothBoostF H}
    (h : (SmoothBoostF.booster P S).Reachable wl s₀ n qs s) :
    (n = maxLoop s₀ ∧ (SmoothBoostF.booster P S).boost s wl (n + 1) = .ok ⟨s, .brk s.maxIter, []⟩) ∨
    (0 < n ∧ n < maxLoop s₀ ∧ (∃ M N : X × ℝ → ℝ, (∀ e ∈ S, Cell g (thetaR g) n s.hypotheses M N e) ∧ (S.map M).sum ≤ (1 + 1 / 10 ^ 8) * (κ * S.length)) ∧
      (SmoothBoostF.booster P S).boost s wl (n + 1) = .ok ⟨{ s with current := n + 1, terminated := n }, .brk (n + 1), []⟩) ∨
    (n < maxLoop s₀ ∧ ∃ out d, (SmoothBoostF.booster P S).boost s wl (n + 1) = .ok out ∧ out.flow = .cont ∧ out.queries = [d] ∧
      SmoothWeights κ S.length d ∧ out.state.hypotheses = s.hypotheses ++ [wl (n + 1) d]) := by
  have hi := smoothF_inv P hc hwl h
  obtain ⟨M, N, hM, hN, hcell⟩ := hi.cells
  have hmax := hi.max
  have hle := hi.le
  rcases boost_cases P hc.size hc.kappa_lo hc.kappa_hi hc.gamma_lo hc.gamma_hi (wl := wl) hi hM hN hcell with
    ⟨h1, h2⟩ | ⟨h1, h2, h3⟩ | ⟨h1, σ, h2, h3, h4, h5, h6, h7⟩
  · exact .inl ⟨by omega, h2⟩
  · right; left
    have hu := u_small
    have het := eta_tiny
    have hm1 : (1 : ℝ) ≤ S.length := by exact_mod_cast List.length_pos_iff.mpr hi.ne
    have hm5 : (S.length : ℝ) ≤ 10 ^ 5 := by exact_mod_cast hc.size
    have hκ0 : 0 < κ := lt_of_lt_of_le (by norm_num) hc.kappa_lo
    have hκm5 : (S.length : ℝ) * κ ≤ 10 ^ 5 := by nlinarith [hc.kappa_hi]
    have hmul : mul (rnd (S.length : ℝ)) (fin κ) = fin (F64.round (S.length * κ)) := by
      rw [SmoothBoostF.rnd_nat (hc.size.trans (by norm_num))]
      exact rnd_small (by rw [abs_of_pos (by positivity)]; exact hκm5.trans (by norm_num))
    have hle1 : (S.map M).sum ≤ S.length * (1 + 1 / 10 ^ 10) := sum_le_const S M _ fun e he => (hcell e he).le_one hc.gamma_lo hc.gamma_hi
    obtain ⟨z, hz, -, hnear⟩ := foldl_near0 (S.map M)
      (by simp only [List.mem_map]; rintro _ ⟨e, he, rfl⟩; exact ⟨(hcell e he).nonneg, (hcell e he).repM⟩)
      (hle1.trans ((mul_le_mul hm5 (le_refl _) (by norm_num) (by norm_num)).trans (by norm_num))) (by rw [List.length_map]; exact hc.size.trans (by norm_num))
    rw [List.map_map] at hz
    have hz' : (S.map fun e => fin (M e)).foldl add (fin 0) = fin z := hz
    have hB0 : 0 ≤ (S.map M).sum := List.sum_nonneg (by simp only [List.mem_map]; rintro _ ⟨e, he, rfl⟩; exact (hcell e he).nonneg)
    have hb := hnear.bound (by rw [List.length_map]; exact hc.size.trans (by norm_num)) hB0
    rw [hz', hmul] at h2
    have h2' : z < F64.round (S.length * κ) := h2
    have hn : 0 < n := by
      rcases Nat.eq_zero_or_pos n with h0 | h0
      · exfalso
        have hM1 : (S.map fun e => fin (M e)) = List.replicate S.length (fin 1) := by
          rw [← List.map_const']
          exact List.map_congr_left fun e he => by rw [((hcell e he).first h0).1]
        rw [hM1] at hz'
        have h8 := foldl_ones S.length 0 (by have := hc.size; omega)
        rw [Nat.cast_zero, hz', zero_add] at h8
        injection h8 with h8
        have h9 : F64.round (S.length * κ) ≤ S.length :=
          round_le_rep (rep_nat (hc.size.trans (by norm_num))) (by nlinarith [hc.kappa_hi])
        linarith
      · exact h0
    refine ⟨hn, by omega, ⟨M, N, hcell, ?_⟩, h3⟩
    have hrk := (abs_le.mp (round_err (S.length * κ))).2
    rw [abs_of_nonneg (show (0 : ℝ) ≤ S.length * κ by positivity)] at hrk
    have huk : u * (S.length * κ) ≤ 1 / 9000000000000000 * (S.length * κ) := mul_le_mul_of_nonneg_right hu (by positivity)
    have hκm : (1 : ℝ) / 10 ^ 30 ≤ S.length * κ := by nlinarith [hc.kappa_lo]
    have hek : eta ≤ 1 / 10 ^ 30 * (S.length * κ) := by
      refine het.trans ?_
      calc (1 : ℝ) / 10 ^ 60 = 1 / 10 ^ 30 * (1 / 10 ^ 30) := by norm_num
        _ ≤ _ := by gcongr
    norm_num at hb huk hek hκm ⊢
    linarith only [hb.1, huk, hek, hκm, hrk, h2']
  · right; right
    exact ⟨by omega, _, _, h7, rfl, rfl, h5, rfl⟩

/-- The hypotheses are the learner's answers. -/
theorem smoothF_answers (P : Powm) {S : Examples X ℝ} {s₀ : SmoothBoostF H} {κ g : ℝ} (hc : SmoothConfig S s₀ κ g) {wl : WeakLearner F64 H}
    (hwl : AnswersSmooth S κ wl) {n : Nat} {qs : List (List F64)} {s : SmoothBoostF H}
    (h : (SmoothBoostF.booster P S).Reachable wl s₀ n qs s) : s.hypotheses = qs.mapIdx fun i q => wl (i + 1) q := by
  induction h with
  | start hp =>
    have hi := smoothF_inv P hc hwl (.start hp)
    exact List.length_eq_zero_iff.mp hi.hlen
  | @step n qs s₁ out hr hb hf ih =>
    have hi := smoothF_inv P hc hwl hr
    rcases smoothF_cases P hc hwl hr with ⟨-, h⟩ | ⟨-, -, -, h⟩ | ⟨-, out', d, h, -, h2, -, h3⟩
    · rw [h, Except.ok.injEq] at hb; subst hb; cases hf
    · rw [h, Except.ok.injEq] at hb; subst hb; cases hf
    · rw [h, Except.ok.injEq] at hb
      subst hb
      rw [h2, h3, ih, List.mapIdx_append, List.mapIdx_cons, List.mapIdx_nil, hi.qlen, Nat.zero_add]

/-- The run as a whole. -/
theorem smoothF_run (P : Powm) {S : Examples X ℝ} {s₀ : SmoothBoostF H} {κ g : ℝ} (hc : SmoothConfig S s₀ κ g) {wl : WeakLearner F64 H}
    (hwl : AnswersSmooth S κ wl) :
    ∃ f qs n s, (SmoothBoostF.booster P S).run wl (maxLoop s₀ + 1) s₀ = some (.ok (f, qs)) ∧ (SmoothBoostF.booster P S).Reachable wl s₀ n qs s ∧ 0 < n ∧
      (∃ v, f = ⟨List.replicate (min S.length n) (fin v), s.hypotheses.take S.length⟩ ∧
        |v - 1 / (min S.length n : ℕ)| ≤ 1 / 10 ^ 8 * (1 / (min S.length n : ℕ))) ∧
      (n < maxLoop s₀ → ∃ M N : X × ℝ → ℝ, (∀ e ∈ S, Cell g (thetaR g) n s.hypotheses M N e) ∧ (S.map M).sum ≤ (1 + 1 / 10 ^ 8) * (κ * S.length)) := by
  classical
  have hκ0 : 0 < κ := lt_of_lt_of_le (by norm_num) hc.kappa_lo
  obtain ⟨l1, l2, -⟩ := limit_fin (H := H) hc.kappa hc.gamma hκ0.le hc.kappa_hi hc.gamma_lo hc.gamma_hi
  obtain ⟨t1, t2, t3, -⟩ := thetaOf_fin hc.gamma_lo hc.gamma_hi hc.double
  have hpre : ∃ s', (SmoothBoostF.booster P S).preprocess s₀ wl = .ok s' := by
    simp only [SmoothBoostF.booster, SmoothBoostF.preprocess, hc.valid]
    have hck : checkPreconditions { s₀ with nSample := S.length, theta := thetaOf s₀.gamma } = .ok () := by
      unfold checkPreconditions
      simp only [hc.kappa, hc.gamma, t1]
      refine (if_neg ?_).trans ((if_neg ?_).trans rfl)
      · rintro (h | h)
        · exact h ⟨hκ0.le, hc.kappa_hi⟩
        · exact absurd hκ0 (not_lt.mpr h)
      · intro h; exact h ⟨t3, hc.gamma_hi⟩
    rw [hck]
    exact ⟨_, rfl⟩
  obtain ⟨s', hs'⟩ := hpre
  obtain ⟨r, hrun⟩ := Booster.run_terminates (SmoothBoostF.booster P S) wl s₀ (maxLoop s₀) (by
    intro qs s₁ out hr hb hf
    rcases smoothF_cases P hc hwl hr with ⟨-, h⟩ | ⟨-, h, -⟩ | ⟨h, -⟩
    · rw [h, Except.ok.injEq] at hb; subst hb; cases hf
    · omega
    · omega)
  unfold Booster.run at hrun ⊢
  simp only [hs'] at hrun ⊢
  cases hl : (SmoothBoostF.booster P S).loop wl (maxLoop s₀ + 1) s' 1 with
  | none => simp [hl] at hrun
  | some r' =>
    rcases Booster.loop_spec _ wl s₀ (Booster.Reachable.start hs') hl with
      ⟨n, qs', s, h1, h2, e, h3, h4⟩ | ⟨n, qs', s, out, k, h1, h2, h3, h4, qs, h5, h6⟩
    · exfalso
      rcases smoothF_cases P hc hwl h1 with ⟨-, h⟩ | ⟨-, -, -, h⟩ | ⟨-, out', d, h, -⟩ <;> rw [h] at h3 <;> cases h3
    subst h6
    have hi := smoothF_inv P hc hwl h1
    have hm1 : 1 ≤ S.length := List.length_pos_iff.mpr hi.ne
    have hns := hi.nSample
    have hhl := hi.hlen
    rcases smoothF_cases P hc hwl h1 with ⟨hn, h⟩ | ⟨hn0, hn, hM, h⟩ | ⟨-, out', d, h, hcont, -⟩
    · rw [h, Except.ok.injEq] at h3
      subst h3
      have hne : s.hypotheses ≠ [] := by rw [← List.length_pos_iff]; omega
      obtain ⟨v, v1, -, v2⟩ := postprocess_fin s (by rw [hi.term]; exact l1) (by rw [hi.term]; exact l2) (by omega) (by rw [hns]; exact hc.size) hne
      rw [hns, hhl] at v1 v2
      have hpost : (SmoothBoostF.booster P S).postprocess s = .ok ⟨List.replicate (min S.length n) (fin v), s.hypotheses.take S.length⟩ := v1
      simp only [hpost]
      simp only [List.nil_append, List.append_nil] at h5
      subst h5
      exact ⟨_, _, n, s, rfl, h1, by omega, ⟨v, rfl, v2⟩, fun h => by omega⟩
    · rw [h, Except.ok.injEq] at h3
      subst h3
      have hne : s.hypotheses ≠ [] := by rw [← List.length_pos_iff]; omega
      obtain ⟨v, v1, -, v2⟩ := postprocess_fin { s with current := n + 1, terminated := n } hn0 (show n ≤ 2 ^ 64 - 1 by omega) (by simp only [hns]; omega)
        (by simp only [hns]; exact hc.size) hne
      simp only [hns, hhl] at v1 v2
      have hpost : (SmoothBoostF.booster P S).postprocess { s with current := n + 1, terminated := n } =
          .ok ⟨List.replicate (min S.length n) (fin v), s.hypotheses.take S.length⟩ := by
        simp only [← hns] at v1 ⊢; exact v1
      simp only [hpost]
      simp only [List.nil_append, List.append_nil] at h5
      subst h5
      exact ⟨_, _, n, s, rfl, h1, hn0, ⟨v, rfl, v2⟩, fun _ => hM⟩
    · rw [h, Except.ok.injEq] at h3
      subst h3
      rw [hcont] at h4
      cases h4

/-- C118: with any weak learner whose hypotheses answer with numbers in `[-1, 1]`, `run` of SmoothBoost in `f64` returns after at least one and at most `limit`
rounds; every weight vector it handed out was smooth, and the result is the equal vote over the first `m` of the learner's hypotheses (all of them after at
most `m` rounds). -/
theorem smoothboost_f64_returns (P : Powm) (S : Examples X ℝ) (s₀ : SmoothBoostF H) (κ g : ℝ) (hc : SmoothConfig S s₀ κ g) (wl : WeakLearner F64 H)
    (hwl : AnswersSmooth S κ wl) :
    ∃ f qs, (SmoothBoostF.booster P S).run wl (maxLoop s₀ + 1) s₀ = some (.ok (f, qs)) ∧ 1 ≤ qs.length ∧ qs.length ≤ maxLoop s₀ ∧
      (∀ q ∈ qs, SmoothWeights κ S.length q) ∧ f.hypotheses = (qs.mapIdx fun i q => wl (i + 1) q).take S.length ∧
      ∃ v : ℝ, f.weights = List.replicate (min S.length qs.length) (fin v) ∧ |v * (min S.length qs.length : ℕ) - 1| ≤ 1 / 10 ^ 8 := by
  obtain ⟨f, qs, n, s, h1, h2, h3, ⟨v, h4, h5⟩, -⟩ := smoothF_run P hc hwl
  have hi := smoothF_inv P hc hwl h2
  have hm1 : 1 ≤ S.length := List.length_pos_iff.mpr hi.ne
  have hle := hi.le
  rw [hi.max] at hle
  refine ⟨f, qs, h1, by rw [hi.qlen]; exact h3, by rw [hi.qlen]; exact hle, hi.q, ?_, v, ?_, ?_⟩
  · rw [h4, ← smoothF_answers P hc hwl h2]
  · rw [h4, hi.qlen]
  · rw [hi.qlen]
    have hk : 0 < min S.length n := by omega
    generalize min S.length n = k at *
    have hk0 : (0 : ℝ) < k := by exact_mod_cast hk
    have e : v * k - 1 = (v - 1 / k) * k := by field_simp
    rw [e, abs_mul, abs_of_pos hk0]
    refine (mul_le_mul_of_nonneg_right h5 hk0.le).trans (le_of_eq ?_)
    field_simp

/-- C118: Servedio's bounds in `f64`.  If for all smooth weights the learner's hypothesis has an edge of at least `2γ`, fewer than `2/(κγ²√(1-γ))` rounds are
made, and -- if no hypothesis was dropped -- at most `(1 + 10⁻⁷) κ m/√(1-γ)` of the `m` training examples are misclassified by the result.  (The code
starts its counters at one instead of zero, which costs the factor `1/√(1-γ)`.) -/
theorem smoothboost_f64_rounds (P : Powm) (S : Examples X ℝ) (s₀ : SmoothBoostF H) (κ g : ℝ) (hc : SmoothConfig S s₀ κ g) (wl : WeakLearner F64 H)
    (hwl : AnswersSmooth S κ wl) (hE : ∀ it d, SmoothWeights κ S.length d → 2 * g ≤ exactEdge S d (wl it d))
    (hD : 3 / 10 ^ 6 ≤ κ * g ^ 2 * √(1 - g)) :
    ∃ f qs, (SmoothBoostF.booster P S).run wl (maxLoop s₀ + 1) s₀ = some (.ok (f, qs)) ∧ (qs.length : ℝ) < 2 / (κ * g ^ 2 * √(1 - g)) ∧
      (qs.length ≤ S.length → (floatMistakes S f : ℝ) ≤ (1 + 1 / 10 ^ 7) * (κ * S.length / √(1 - g))) := by
  classical
  have hu := u_small
  have hu0 := u_pos
  have het := eta_tiny
  have hκ0 : 0 < κ := lt_of_lt_of_le (by norm_num) hc.kappa_lo
  have hL := limit_le (H := H) hc.kappa hc.gamma hκ0.le hc.kappa_hi hc.gamma_lo hc.gamma_hi hD
  have hD' : 1 / 10 ^ 6 ≤ denom κ g := le_trans (by norm_num) hD
  obtain ⟨-, pg, p1, p2, p3, p4, -⟩ := params_of_denom hκ0.le hc.kappa_hi hc.gamma_lo hc.gamma_hi hc.double hD'
  obtain ⟨f, qs, n, s, h1, h2, h3, ⟨v, h4, h5⟩, h6⟩ := smoothF_run P hc hwl
  have hi := smoothF_inv P hc hwl h2
  have hm1 : 1 ≤ S.length := List.length_pos_iff.mpr hi.ne
  obtain ⟨r1, r2⟩ := rounds_lt P hc.labels hc.size hc.kappa hc.gamma hc.kappa_lo hc.kappa_hi hc.gamma_lo hc.gamma_hi hc.double hwl hE hL h2
  have hden : 0 < κ * g ^ 2 * √(1 - g) := lt_of_lt_of_le (by norm_num) hD
  refine ⟨f, qs, h1, by rw [lt_div_iff₀ hden, hi.qlen]; exact r2, fun hle => ?_⟩
  rw [hi.qlen] at hle
  rw [min_eq_right hle] at h4 h5
  rw [List.take_of_length_le (by rw [hi.hlen]; exact hle)] at h4
  obtain ⟨M, N, hcell, hsum⟩ := h6 r1
  have hn1 : (0 : ℝ) < n := by exact_mod_cast h3
  have hhl := hi.hlen
  have hgh := hc.gamma_hi
  -- a mistake leaves a large weight
  have hs4 : √(1 / 4 : ℝ) = 1 / 2 := by rw [show (1 / 4 : ℝ) = (1 / 2) ^ 2 by norm_num, Real.sqrt_sq (by norm_num)]
  have hsb : 1 / 2 ≤ √(1 - (1 - base g)) := by rw [← hs4]; exact Real.sqrt_le_sqrt (by linarith)
  have hsq := Real.sq_sqrt (show 0 ≤ 1 - (1 - base g) by linarith)
  have hsg : √(1 - g) ≤ √(1 - (1 - base g)) + 2 * u := by
    rw [Real.sqrt_le_left (by linarith)]
    have := abs_le.mp p3
    nlinarith [this.1, this.2]
  have hs0 : 1 / 2 ≤ √(1 - g) := by rw [← hs4]; exact Real.sqrt_le_sqrt (by linarith)
  have hbig : ∀ e ∈ S, decide ((F64.predict f e.1 : ℝ) ≠ e.2) = true → (1 - 1 / 10 ^ 8) * √(1 - g) ≤ M e := by
    intro e he hmis
    have hmis' : (F64.predict f e.1 : ℝ) ≠ e.2 := by simpa using hmis
    have hcell' := hcell e he
    obtain ⟨F, hF, hFe⟩ := vote_uniform (hs := s.hypotheses) (v := v) (x := e.1) (by omega) (by rw [hhl]; exact hle.trans hc.size)
      (by rw [hhl]; exact h5) (fun h hh => hi.answers h hh e he)
    have hconf : F64.weightedConf f e.1 = fin F := by rw [h4, ← hF, hhl]
    have hyF : e.2 * F ≤ 0 := by
      unfold F64.predict at hmis'
      rw [hconf] at hmis'
      by_cases h0 : 0 ≤ F
      · rw [if_pos (show Le (fin 0) (fin F) from h0)] at hmis'
        rcases hc.labels e he with h | h
        · rw [h] at hmis'; simp at hmis'
        · rw [h]; linarith
      · rw [if_neg (show ¬ Le (fin 0) (fin F) from h0)] at hmis'
        rcases hc.labels e he with h | h
        · rw [h]; linarith
        · rw [h] at hmis'; simp at hmis'
    rw [hhl] at hFe
    set C := (s.hypotheses.map fun h => (conf h e.1).val).sum with hC
    have hyC : e.2 * C ≤ n * (3 / 10 ^ 8) := by
      have h7 : |e.2 * F - e.2 * (C / n)| ≤ 3 / 10 ^ 8 := by
        have hy : |e.2| = 1 := by rcases hc.labels e he with h | h <;> rw [h] <;> simp
        rw [← mul_sub, abs_mul, hy, one_mul]; exact hFe
      have h8 : e.2 * (C / n) ≤ 3 / 10 ^ 8 := by have := (abs_le.mp h7).1; linarith only [this, hyF]
      have h9 : e.2 * C = e.2 * (C / n) * n := by field_simp
      rw [h9]
      nlinarith
    have hth : 1 / 10 ^ 4 ≤ thetaR g := by
      have h7 := (abs_le.mp p4).1
      have h8 : 1 / 10 ^ 3 * (3 / 10) ≤ (1 - base g) / (2 + (1 - base g)) := by
        rw [le_div_iff₀ (by linarith)]
        norm_num at p1 ⊢
        linarith
      norm_num at h8 hu ⊢
      linarith
    have hsc : scoreF (thetaR g) s.hypotheses e ≤ 1 - n * (9 / 10 ^ 5) := by
      unfold scoreF
      rw [hhl, ← hC]
      have h7 : (n : ℝ) * (1 / 10 ^ 4) ≤ n * thetaR g := mul_le_mul_of_nonneg_left hth hn1.le
      norm_num at h7 hyC ⊢
      linarith
    have hN1 : N e ≤ 1 := by
      have h7 := (abs_le.mp (hcell'.score (hle.trans (hc.size.trans (by norm_num))))).2
      norm_num at h7 hsc ⊢
      linarith
    have hmu := SmoothBoost.mu_ge (γ := 1 - base g) (by linarith) (by linarith) hN1
    have h7 := (abs_le.mp (hcell'.later h3)).1
    have h8 : (1 - 12 * u) * √(1 - (1 - base g)) ≤ (1 - 12 * u) * SmoothBoost.mu (1 - base g) (N e) :=
      mul_le_mul_of_nonneg_left hmu (by linarith)
    have hs1 : √(1 - (1 - base g)) ≤ 1 := Real.sqrt_le_one.mpr (by linarith)
    have h9 : u * √(1 - (1 - base g)) ≤ u := by nlinarith
    norm_num at h7 h8 h9 hs0 hsg het hu ⊢
    linarith
  have hcnt := countP_mul_le S (fun e => decide ((F64.predict f e.1 : ℝ) ≠ e.2)) M ((1 - 1 / 10 ^ 8) * √(1 - g))
    (fun e he => (hcell e he).nonneg) hbig
  have hfm : (floatMistakes S f : ℝ) * ((1 - 1 / 10 ^ 8) * √(1 - g)) ≤ (1 + 1 / 10 ^ 8) * (κ * S.length) := hcnt.trans hsum
  have hs00 : 0 < √(1 - g) := by linarith
  rw [← mul_div_assoc, le_div_iff₀ hs00]
  have hκS : 0 ≤ κ * S.length := by positivity
  have e : (floatMistakes S f : ℝ) * ((1 - 1 / 10 ^ 8) * √(1 - g)) = (1 - 1 / 10 ^ 8) * ((floatMistakes S f : ℝ) * √(1 - g)) := by ring
  rw [e] at hfm
  generalize (floatMistakes S f : ℝ) * √(1 - g) = a at *
  norm_num at hfm ⊢
  linarith only [hfm, hκS]

/-- C118: with at least `2/(κγ²√(1-γ))` training examples no hypothesis is dropped. -/
theorem smoothboost_f64_large_sample (P : Powm) (S : Examples X ℝ) (s₀ : SmoothBoostF H) (κ g : ℝ) (hc : SmoothConfig S s₀ κ g) (wl : WeakLearner F64 H)
    (hwl : AnswersSmooth S κ wl) (hE : ∀ it d, SmoothWeights κ S.length d → 2 * g ≤ exactEdge S d (wl it d))
    (hD : 3 / 10 ^ 6 ≤ κ * g ^ 2 * √(1 - g)) (hm : 2 / (κ * g ^ 2 * √(1 - g)) ≤ S.length) :
    ∃ f qs, (SmoothBoostF.booster P S).run wl (maxLoop s₀ + 1) s₀ = some (.ok (f, qs)) ∧ (qs.length : ℝ) < 2 / (κ * g ^ 2 * √(1 - g)) ∧
      (floatMistakes S f : ℝ) ≤ (1 + 1 / 10 ^ 7) * (κ * S.length / √(1 - g)) := by
  obtain ⟨f, qs, h1, h2, h3⟩ := smoothboost_f64_rounds P S s₀ κ g hc wl hwl hE hD
  exact ⟨f, qs, h1, h2, h3 (by exact_mod_cast (h2.trans_le hm).le)⟩

section nonvacuity

/-- SmoothBoost with `κ = 1/2`, `γ = 1/8`, built with the API. -/
noncomputable def exSmoothF : SmoothBoostF (Fn Nat F64) := { (SmoothBoostF.init exTen).setTolerance (fin (1 / 2)) with gamma := fin (1 / 8) }

example : ((SmoothBoostF.init exTen : SmoothBoostF (Fn Nat F64)).setTolerance (fin (1 / 2))).setGamma (fin (1 / 8)) = .ok exSmoothF := by
  unfold SmoothBoostF.setGamma
  refine (if_pos ⟨?_, ?_⟩).trans rfl
  · show (0 : ℝ) ≤ 1 / 8; norm_num
  · show (1 / 8 : ℝ) < 1 / 2; norm_num

theorem exSmoothF_config : SmoothConfig exTen exSmoothF (1 / 2) (1 / 8) where
  valid := exTen_valid
  labels := exTen_labels
  size := by simp [exTen]
  kappa := rfl
  gamma := rfl
  double := ⟨1, -3, by norm_num, by norm_num, by norm_num⟩
  kappa_lo := by norm_num
  kappa_hi := by norm_num
  gamma_lo := by norm_num
  gamma_hi := by norm_num

theorem exUnsure_smooth : AnswersSmooth exTen (1 / 2) (fun _ _ => exUnsure) := by
  intro it d _ e _
  by_cases h : e.1 < 5
  · exact ⟨1 / 2, by simp [exUnsure, conf, h], by norm_num [abs_of_pos]⟩
  · exact ⟨-(1 / 2), by simp [exUnsure, conf, h], by norm_num [abs_neg, abs_of_pos]⟩

/-- The hypotheses of C118 are met by the half-confident learner, with any library. -/
example (P : Powm) : ∃ f qs, (SmoothBoostF.booster P exTen).run (fun _ _ => exUnsure) (maxLoop exSmoothF + 1) exSmoothF = some (.ok (f, qs)) ∧
    (qs.length : ℝ) < 2 / (1 / 2 * (1 / 8) ^ 2 * √(1 - 1 / 8)) := by
  have hs : 1 / 2 ≤ √(1 - 1 / 8 : ℝ) := by
    apply Real.le_sqrt_of_sq_le; norm_num
  obtain ⟨f, qs, h1, h2, -⟩ := smoothboost_f64_rounds P exTen exSmoothF (1 / 2) (1 / 8) exSmoothF_config (fun _ _ => exUnsure) exUnsure_smooth
    (by
      rintro it d ⟨xs, rfl, hl, -, hx, -⟩
      have := abs_le.mp hx
      rw [exUnsure_edge hl]
      norm_num at this ⊢
      linarith [this.1])
    (by norm_num at hs ⊢; linarith)
  exact ⟨f, qs, h1, h2⟩

/-- There are such libraries, for example the exact one. -/
noncomputable example : Powm where
  powA x y := x ^ y
  err x y hx := by rw [sub_self, abs_zero]; positivity

end nonvacuity

end Miniboosts.Props
