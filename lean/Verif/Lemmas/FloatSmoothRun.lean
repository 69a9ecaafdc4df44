import Verif.Lemmas.FloatSmooth

/-! The invariant of SmoothBoost in `f64`. -/

namespace Miniboosts

open F64

variable {H X : Type*} [Classifier H X F64]

namespace SmoothBoostF

open SmoothBoost (mu mu_eq mu_pos mu_le_one)

/-- `θ` as it is computed. -/
noncomputable def thetaR (g : ℝ) : ℝ := F64.round (g / F64.round (2 + g))

theorem thetaOf_fin {g : ℝ} (h0 : 0 ≤ g) (h1 : g < 1 / 2) (hd : Rep g) :
    thetaOf (fin g) = fin (thetaR g) ∧ 0 ≤ thetaR g ∧ thetaR g ≤ g ∧ |thetaR g - g / (2 + g)| ≤ 4 * u := by
  have hu := u_small
  have hu0 := u_pos
  have he := eta_le_u
  have h2 : Rep (2 : ℝ) := ⟨2, 0, by norm_num, by norm_num, by norm_num⟩
  have hr := round_err (2 + g)
  rw [abs_of_pos (show (0 : ℝ) < 2 + g by linarith)] at hr
  have hr2 : 2 ≤ F64.round (2 + g) := rep_le_round h2 (by linarith)
  have e1 : add (fin 2) (fin g) = fin (F64.round (2 + g)) := rnd_small (by rw [abs_of_pos (by linarith)]; norm_num; linarith)
  set d := F64.round (2 + g) with hd'
  have hq0 : 0 ≤ g / d := div_nonneg h0 (by linarith)
  have hq1 : g / d ≤ g / 2 := div_le_div_of_nonneg_left h0 (by norm_num) hr2
  have e2 : thetaOf (fin g) = fin (thetaR g) := by
    unfold thetaOf thetaR
    rw [e1, ← hd']
    simp only [div, if_neg (show d ≠ 0 by linarith)]
    exact rnd_small (by rw [abs_of_nonneg hq0]; norm_num; linarith)
  refine ⟨e2, round_nonneg hq0, round_le_rep hd (by linarith), ?_⟩
  have h3 := round_err (g / d)
  rw [abs_of_nonneg hq0] at h3
  have h4 : |g / d - g / (2 + g)| ≤ u := by
    rw [div_sub_div _ _ (by linarith) (by linarith), abs_div, abs_of_pos (show 0 < d * (2 + g) by nlinarith), div_le_iff₀ (by nlinarith)]
    have h5 : g * (2 + g) - d * g = g * (2 + g - d) := by ring
    rw [h5, abs_mul, abs_of_nonneg h0, abs_sub_comm]
    have h6 : u * (2 + g) + eta ≤ 4 * u := by nlinarith
    have h7 : g * |d - (2 + g)| ≤ 1 / 2 * (4 * u) := mul_le_mul h1.le (hr.trans h6) (abs_nonneg _) (by norm_num)
    have h8 : 4 ≤ d * (2 + g) := by nlinarith
    nlinarith
  have h9 := abs_add_le (thetaR g - g / d) (g / d - g / (2 + g))
  rw [sub_add_sub_cancel] at h9
  have : |thetaR g - g / d| ≤ u * (g / d) + eta := h3
  nlinarith

/-- The counter of an example without rounding. -/
noncomputable def scoreF (θ : ℝ) (hs : List H) (e : X × ℝ) : ℝ := 1 + (e.2 * (hs.map fun h => (conf h e.1).val).sum - hs.length * θ)

theorem scoreF_append (θ : ℝ) (hs : List H) (h : H) (e : X × ℝ) :
    scoreF θ (hs ++ [h]) e = scoreF θ hs e + e.2 * (conf h e.1).val - θ := by
  simp only [scoreF, List.map_append, List.map_cons, List.map_nil, List.sum_append, List.sum_cons,
    List.sum_nil, List.length_append, List.length_cons, List.length_nil]
  push_cast; ring

/-- Answers in `[-1, 1]` on the sample. -/
def Answers (S : Examples X ℝ) (h : H) : Prop := ∀ e ∈ S, ∃ c : ℝ, conf h e.1 = fin c ∧ |c| ≤ 1

theorem Answers.val {S : Examples X ℝ} {h : H} (ha : Answers S h) {e : X × ℝ} (he : e ∈ S) : |(conf h e.1).val| ≤ 1 := by
  obtain ⟨c, h1, h2⟩ := ha e he
  rw [h1]; exact h2

theorem scoreF_abs {S : Examples X ℝ} (hpm : Spec.PmLabels S) {θ : ℝ} (h0 : 0 ≤ θ) (h1 : θ ≤ 1) {hs : List H} (ha : ∀ h ∈ hs, Answers S h)
    {e : X × ℝ} (he : e ∈ S) : |scoreF θ hs e| ≤ 1 + 2 * hs.length := by
  have hy : |e.2| = 1 := by rcases hpm e he with h | h <;> rw [h] <;> simp
  have hsum : |(hs.map fun h => (conf h e.1).val).sum| ≤ hs.length := by
    clear h0 h1
    induction hs with
    | nil => simp
    | cons h hs ih =>
      rw [List.map_cons, List.sum_cons, List.length_cons]
      push_cast
      have := (ha h (by simp)).val he
      have h2 := ih fun g hg => ha g (List.mem_cons_of_mem _ hg)
      exact (abs_add_le _ _).trans (by linarith)
  have h2 : |e.2 * (hs.map fun h => (conf h e.1).val).sum| ≤ hs.length := by rw [abs_mul, hy, one_mul]; exact hsum
  have h3 : 0 ≤ (hs.length : ℝ) * θ := by positivity
  have h4 : (hs.length : ℝ) * θ ≤ hs.length := by nlinarith [Nat.cast_nonneg (α := ℝ) hs.length]
  have := abs_le.mp h2
  unfold scoreF
  rw [abs_le]
  constructor <;> linarith [this.1, this.2]

/-- What holds of the counters and the weights after `n` rounds. -/
structure Cell (g θ : ℝ) (n : Nat) (hs : List H) (M N : X × ℝ → ℝ) (e : X × ℝ) : Prop where
  repN : Rep (N e)
  boundN : |N e| ≤ 2 ^ 60
  repM : Rep (M e)
  nonneg : 0 ≤ M e
  first : n = 0 → M e = 1 ∧ N e = 1
  later : 0 < n → |M e - mu (1 - base g) (N e)| ≤ 12 * u * mu (1 - base g) (N e) + 2 * eta
  score : n ≤ 10 ^ 6 → |N e - scoreF θ hs e| ≤ n * (1 / 10 ^ 9)

/-- The invariant. -/
structure Inv (S : Examples X ℝ) (s₀ : SmoothBoostF H) (κ g : ℝ) (n : Nat) (qs : List (List F64)) (s : SmoothBoostF H) : Prop where
  ne : S ≠ []
  kappa : s.kappa = fin κ
  gamma : s.gamma = fin g
  theta : s.theta = fin (thetaR g)
  nSample : s.nSample = S.length
  max : s.maxIter = maxLoop s₀
  term : s.terminated = maxLoop s₀
  hlen : s.hypotheses.length = n
  qlen : qs.length = n
  le : n ≤ s.maxIter
  answers : ∀ h ∈ s.hypotheses, Answers S h
  q : ∀ q ∈ qs, SmoothWeights κ S.length q
  cells : ∃ M N : X × ℝ → ℝ, (s.m = S.map fun e => fin (M e)) ∧ (s.n = S.map fun e => fin (N e)) ∧
    ∀ e ∈ S, Cell g (thetaR g) n s.hypotheses M N e

theorem Cell.le_one {g θ : ℝ} (h0 : 0 ≤ g) (h1 : g < 1 / 2) {n : Nat} {hs : List H} {M N : X × ℝ → ℝ} {e : X × ℝ} (h : Cell g θ n hs M N e) :
    M e ≤ 1 + 1 / 10 ^ 10 := by
  have hu := u_small
  have hu0 := u_pos
  have het := eta_le_u
  obtain ⟨b1, b2, -⟩ := base_bounds h0 h1
  rcases Nat.eq_zero_or_pos n with hn | hn
  · rw [(h.first hn).1]; norm_num
  · have h2 := (abs_le.mp (h.later hn)).2
    have h3 := mu_le_one (γ := 1 - base g) (by linarith) (by linarith) (N e)
    have h4 := mu_pos (γ := 1 - base g) (by linarith) (N e)
    norm_num at hu ⊢
    nlinarith

/-- What a call of `boost` does. -/
theorem boost_cases (P : Powm) {S : Examples X ℝ} (hn : S.length ≤ 10 ^ 5) {s₀ s : SmoothBoostF H} {κ g : ℝ} (hκ : 1 / 10 ^ 30 ≤ κ) (hκ1 : κ < 1)
    (hg0 : 0 ≤ g) (hg1 : g < 1 / 2) {wl : WeakLearner F64 H} {n : Nat} {qs : List (List F64)} (hi : Inv S s₀ κ g n qs s)
    {M N : X × ℝ → ℝ} (hM : s.m = S.map fun e => fin (M e)) (hN : s.n = S.map fun e => fin (N e))
    (hc : ∀ e ∈ S, Cell g (thetaR g) n s.hypotheses M N e) :
    (s.maxIter < n + 1 ∧ boost P S s wl (n + 1) = .ok ⟨s, .brk s.maxIter, []⟩) ∨
    (n + 1 ≤ s.maxIter ∧ Lt ((S.map fun e => fin (M e)).foldl add (fin 0)) (mul (rnd (S.length : ℝ)) (fin κ)) ∧
      boost P S s wl (n + 1) = .ok ⟨{ s with current := n + 1, terminated := n }, .brk (n + 1), []⟩) ∨
    (n + 1 ≤ s.maxIter ∧ ∃ σ : ℝ, 0 < σ ∧ |σ - (S.map M).sum| ≤ 1 / 10 ^ 9 * (S.map M).sum ∧ (1 - 1 / 10 ^ 8) * (κ * S.length) ≤ (S.map M).sum ∧
      SmoothWeights κ S.length (S.map fun e => fin (F64.round (M e / σ))) ∧
      (S.map fun e => |σ * F64.round (M e / σ) - M e|).sum ≤ 1 / 10 ^ 9 * (S.map M).sum ∧
      boost P S s wl (n + 1) = .ok ⟨{ s with
        current := n + 1
        hypotheses := s.hypotheses ++ [wl (n + 1) (S.map fun e => fin (F64.round (M e / σ)))]
        n := S.map fun e => sub (add (fin (N e)) (mul (fin e.2) (conf (wl (n + 1) (S.map fun e => fin (F64.round (M e / σ)))) e.1))) (fin (thetaR g))
        m := S.map fun e => weightOf P (fin g)
          (sub (add (fin (N e)) (mul (fin e.2) (conf (wl (n + 1) (S.map fun e => fin (F64.round (M e / σ)))) e.1))) (fin (thetaR g))) }, .cont,
        [S.map fun e => fin (F64.round (M e / σ))]⟩) := by
  classical
  by_cases h1 : s.maxIter < n + 1
  · exact Or.inl ⟨h1, if_pos h1⟩
  right
  by_cases h2 : Lt ((S.map fun e => fin (M e)).foldl add (fin 0)) (mul (rnd (S.length : ℝ)) (fin κ))
  · refine Or.inl ⟨by omega, h2, ?_⟩
    refine (if_neg h1).trans ?_
    simp only [hM, hi.nSample, hi.kappa]
    refine (if_pos h2).trans ?_
    simp
  right
  obtain ⟨σ, q1, q2, q3, q4, q5, q6, q7⟩ := query_ok S hi.ne hn M hκ hκ1
    (fun e he => ⟨(hc e he).repM, (hc e he).nonneg, (hc e he).le_one hg0 hg1⟩) h2
  refine ⟨by omega, σ, q2, q3, q4, q6, q7, ?_⟩
  refine (if_neg h1).trans ?_
  simp only [hM, hN, hi.nSample, hi.kappa]
  refine (if_neg h2).trans ?_
  have hd : ((S.map fun e => fin (M e)).map fun mj => div mj ((S.map fun e => fin (M e)).foldl add (fin 0))) =
      S.map fun e => fin (F64.round (M e / σ)) := by
    rw [q1, List.map_map]
    exact List.map_congr_left fun e he => q5 e he
  simp only [hd, F64.margins, updateZip_map_map, hi.gamma, hi.theta]

/-- The state before the first round. -/
theorem start_inv {S : Examples X ℝ} {s₀ s : SmoothBoostF H} {κ g : ℝ} (hk : s₀.kappa = fin κ) (hg : s₀.gamma = fin g) (hg0 : 0 ≤ g)
    (hg1 : g < 1 / 2) (hd : Rep g) (h : preprocess S s₀ = .ok s) : Inv S s₀ κ g 0 [] s := by
  classical
  unfold preprocess at h
  cases hc : checkBinary S with
  | error e => simp [hc] at h
  | ok u =>
    have hne := checkBinary_ne_nil (S := S) (by cases u; exact hc)
    simp only [hc] at h
    cases hp : checkPreconditions { s₀ with nSample := S.length, theta := thetaOf s₀.gamma } with
    | error e => simp [hp] at h
    | ok v =>
      simp only [hp, Except.ok.injEq] at h
      subst h
      refine ⟨hne, hk, hg, ?_, rfl, rfl, rfl, rfl, rfl, Nat.zero_le _, by simp, by simp, fun _ => 1, fun _ => 1, ?_, ?_, ?_⟩
      · show thetaOf s₀.gamma = _
        rw [hg]; exact (thetaOf_fin hg0 hg1 hd).1
      · simp [List.map_const']
      · simp [List.map_const']
      · intro e _
        refine ⟨rep_one, by norm_num, rep_one, zero_le_one, fun _ => ⟨rfl, rfl⟩, fun h => by omega, fun _ => ?_⟩
        simp [scoreF]

theorem step_cell (P : Powm) {S : Examples X ℝ} (hpm : Spec.PmLabels S) {g : ℝ} (hg0 : 0 ≤ g) (hg1 : g < 1 / 2) (hd : Rep g) {n : Nat}
    {hs : List H} (hlen : hs.length = n) (ha : ∀ h ∈ hs, Answers S h) {h : H} (hh : Answers S h) {M N : X × ℝ → ℝ} {e : X × ℝ} (he : e ∈ S)
    (hc : Cell g (thetaR g) n hs M N e) :
    ∃ M' N' : ℝ, sub (add (fin (N e)) (mul (fin e.2) (conf h e.1))) (fin (thetaR g)) = fin N' ∧ weightOf P (fin g) (fin N') = fin M' ∧
      Rep N' ∧ |N'| ≤ 2 ^ 60 ∧ Rep M' ∧ 0 ≤ M' ∧
      |M' - mu (1 - base g) N'| ≤ 12 * u * mu (1 - base g) N' + 2 * eta ∧
      (n + 1 ≤ 10 ^ 6 → |N' - (N e + e.2 * (conf h e.1).val - thetaR g)| ≤ 1 / 10 ^ 9 ∧
        |N' - scoreF (thetaR g) (hs ++ [h]) e| ≤ (n + 1 : ℕ) * (1 / 10 ^ 9)) := by
  have hu := u_small
  have hu0 := u_pos
  obtain ⟨-, t0, t1, -⟩ := thetaOf_fin hg0 hg1 hd
  obtain ⟨c, hcf, hc1⟩ := hh e he
  obtain ⟨m1, m2, m3⟩ := marg_le (h := h) (hpm e he) hcf hc1
  obtain ⟨N', k1, k2, k3, k4⟩ := counter_fin hc.boundN m2 t0 (by linarith)
  obtain ⟨M', w1, w2, w3, w4⟩ := weightOf_fin P hg0 hg1 k2 k3
  refine ⟨M', N', by rw [m1, k1], w1, k2, k3, w2, w3, w4, fun hn => ?_⟩
  have hn' : (n : ℝ) + 1 ≤ 10 ^ 6 := by exact_mod_cast hn
  have hsc := hc.score (by omega)
  have hab := scoreF_abs hpm t0 (by linarith) ha he
  rw [hlen] at hab
  have hNa : |N e| ≤ 2 * 10 ^ 6 + 1 := by
    have := abs_add_le (N e - scoreF (thetaR g) hs e) (scoreF (thetaR g) hs e)
    rw [sub_add_cancel] at this
    norm_num at hn' hsc ⊢
    linarith
  have hval : (conf h e.1).val = c := by rw [hcf]; rfl
  have h5 : 3 * u * (|N e| + 3) ≤ 3 * (1 / 9000000000000000) * (2 * 10 ^ 6 + 1 + 3) := by gcongr
  have h6 : |N' - (N e + e.2 * (conf h e.1).val - thetaR g)| ≤ 1 / 10 ^ 9 := by
    rw [hval]
    have a1 := abs_le.mp k4
    have a2 := abs_le.mp m3
    norm_num at h5 hu
    rw [abs_le]
    norm_num
    constructor <;> linarith [a1.1, a1.2, a2.1, a2.2]
  refine ⟨h6, ?_⟩
  rw [scoreF_append]
  have a1 := abs_le.mp h6
  have a2 := abs_le.mp hsc
  push_cast
  rw [abs_le]
  constructor <;> linarith [a1.1, a1.2, a2.1, a2.2]

/-- The result of a round, as real numbers. -/
theorem step_fun (P : Powm) {S : Examples X ℝ} (hpm : Spec.PmLabels S) {g : ℝ} (hg0 : 0 ≤ g) (hg1 : g < 1 / 2) (hd : Rep g) {n : Nat}
    {hs : List H} (hlen : hs.length = n) (ha : ∀ h ∈ hs, Answers S h) {h : H} (hh : Answers S h) {M N : X × ℝ → ℝ}
    (hc : ∀ e ∈ S, Cell g (thetaR g) n hs M N e) :
    ∃ M' N' : X × ℝ → ℝ, (S.map fun e => sub (add (fin (N e)) (mul (fin e.2) (conf h e.1))) (fin (thetaR g))) = (S.map fun e => fin (N' e)) ∧
      (S.map fun e => weightOf P (fin g) (sub (add (fin (N e)) (mul (fin e.2) (conf h e.1))) (fin (thetaR g)))) = (S.map fun e => fin (M' e)) ∧
      (∀ e ∈ S, Cell g (thetaR g) (n + 1) (hs ++ [h]) M' N' e) ∧
      (n + 1 ≤ 10 ^ 6 → ∀ e ∈ S, |N' e - (N e + e.2 * (conf h e.1).val - thetaR g)| ≤ 1 / 10 ^ 9) := by
  refine ⟨fun e => (weightOf P (fin g) (sub (add (fin (N e)) (mul (fin e.2) (conf h e.1))) (fin (thetaR g)))).val,
    fun e => (sub (add (fin (N e)) (mul (fin e.2) (conf h e.1))) (fin (thetaR g))).val, ?_, ?_, ?_, ?_⟩
  · refine List.map_congr_left fun e he => ?_
    obtain ⟨M', N', e1, e2, -⟩ := step_cell P hpm hg0 hg1 hd hlen ha hh he (hc e he)
    simp only [e1, F64.val]
  · refine List.map_congr_left fun e he => ?_
    obtain ⟨M', N', e1, e2, -⟩ := step_cell P hpm hg0 hg1 hd hlen ha hh he (hc e he)
    simp only [e1, e2, F64.val]
  · intro e he
    obtain ⟨M', N', e1, e2, r1, r2, r3, r4, r5, r6⟩ := step_cell P hpm hg0 hg1 hd hlen ha hh he (hc e he)
    have eN : (sub (add (fin (N e)) (mul (fin e.2) (conf h e.1))) (fin (thetaR g))).val = N' := by rw [e1]; rfl
    have eM : (weightOf P (fin g) (sub (add (fin (N e)) (mul (fin e.2) (conf h e.1))) (fin (thetaR g)))).val = M' := by rw [e1, e2]; rfl
    refine ⟨?_, ?_, ?_, ?_, fun h0 => by omega, fun _ => ?_, fun hn => ?_⟩
    · simp only [eN]; exact r1
    · simp only [eN]; exact r2
    · simp only [eM]; exact r3
    · simp only [eM]; exact r4
    · simp only [eM, eN]; exact r5
    · simp only [eN]; exact (r6 hn).2
  · intro hn e he
    obtain ⟨M', N', e1, e2, r1, r2, r3, r4, r5, r6⟩ := step_cell P hpm hg0 hg1 hd hlen ha hh he (hc e he)
    have eN : (sub (add (fin (N e)) (mul (fin e.2) (conf h e.1))) (fin (thetaR g))).val = N' := by rw [e1]; rfl
    simp only [eN]; exact (r6 hn).1

/-- What holds whenever `boost` is called. -/
theorem inv_of_reachable (P : Powm) {S : Examples X ℝ} (hpm : Spec.PmLabels S) (hn : S.length ≤ 10 ^ 5) {s₀ : SmoothBoostF H} {κ g : ℝ}
    (hk : s₀.kappa = fin κ) (hg : s₀.gamma = fin g) (hκ : 1 / 10 ^ 30 ≤ κ) (hκ1 : κ < 1) (hg0 : 0 ≤ g) (hg1 : g < 1 / 2) (hd : Rep g)
    {wl : WeakLearner F64 H} (hwl : AnswersSmooth S κ wl) {n : Nat} {qs : List (List F64)} {s : SmoothBoostF H}
    (h : (booster P S).Reachable wl s₀ n qs s) : Inv S s₀ κ g n qs s := by
  induction h with
  | start hp => exact start_inv hk hg hg0 hg1 hd hp
  | @step n qs s₁ out hr hb hf ih =>
    obtain ⟨M, N, hM, hN, hc⟩ := ih.cells
    have hb' : boost P S s₁ wl (n + 1) = .ok out := hb
    rcases boost_cases P hn hκ hκ1 hg0 hg1 (wl := wl) ih hM hN hc with ⟨-, h⟩ | ⟨-, -, h⟩ | ⟨h1, σ, h2, h3, h4, h5, h6, h⟩
    · rw [h, Except.ok.injEq] at hb'; subst hb'; simp at hf
    · rw [h, Except.ok.injEq] at hb'; subst hb'; simp at hf
    rw [h, Except.ok.injEq] at hb'
    subst hb'
    have hh : Answers S (wl (n + 1) (S.map fun e => fin (F64.round (M e / σ)))) := hwl _ _ h5
    obtain ⟨M', N', f1, f2, f3, -⟩ := step_fun P hpm hg0 hg1 hd ih.hlen ih.answers hh hc
    refine ⟨ih.ne, ih.kappa, ih.gamma, ih.theta, ih.nSample, ih.max, ih.term, ?_, ?_, h1, ?_, ?_, M', N', f2, f1, f3⟩
    · simp [ih.hlen]
    · simp [ih.qlen]
    · intro h hh'
      rcases List.mem_append.mp hh' with h' | h'
      · exact ih.answers h h'
      · simp only [List.mem_singleton] at h'; subst h'; exact hh
    · intro q hq
      rcases List.mem_append.mp hq with h' | h'
      · exact ih.q q h'
      · simp only [List.mem_singleton] at h'; subst h'; exact h5

end SmoothBoostF

end Miniboosts
