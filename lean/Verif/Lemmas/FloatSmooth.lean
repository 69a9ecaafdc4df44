import Verif.Model.FloatSmooth
import Verif.Spec.FloatSmooth
import Verif.Lemmas.FloatSum
import Verif.Lemmas.FloatMono
import Verif.Lemmas.RoundingVote
import Verif.Lemmas.SmoothBoost

/-! Helper lemmas for SmoothBoost in `f64`. -/

namespace Miniboosts

open F64

namespace SmoothBoostF

open SmoothBoost (mu mu_eq mu_pos mu_le_one)

/-- Halving is exact except for subnormal numbers. -/
theorem half_err {x : ℝ} (hx : Rep x) : |F64.round (x * (1 / 2)) - x / 2| ≤ eta := by
  obtain ⟨k, j, hk, hj, rfl⟩ := hx
  have e : (k : ℝ) * 2 ^ j * (1 / 2) = k * 2 ^ (j - 1) := by
    rw [zpow_sub_one₀ (by norm_num)]; ring
  rw [show (k : ℝ) * 2 ^ j / 2 = (k : ℝ) * 2 ^ j * (1 / 2) by ring, e]
  by_cases h : -1074 ≤ j - 1
  · rw [round_exact hk h, sub_self, abs_zero]; exact eta_pos.le
  have hj' : j = -1074 := by omega
  subst hj'
  by_cases h0 : (k : ℝ) * 2 ^ ((-1074 : ℤ) - 1) = 0
  · rw [h0, round_zero, sub_self, abs_zero]; exact eta_pos.le
  refine (round_err' _).trans ((half_ulp h0).trans (max_le ?_ le_rfl))
  have h2 : (2 : ℝ) ^ ((-1074 : ℤ) - 1) = eta := by unfold eta; norm_num
  rw [h2, abs_mul, abs_of_pos eta_pos, u_eq]
  have h3 : |(k : ℝ)| ≤ 9007199254740992 := by
    have : (|k| : ℤ) ≤ 2 ^ 53 := hk.le
    have h4 : ((|k| : ℤ) : ℝ) ≤ ((2 ^ 53 : ℤ) : ℝ) := by exact_mod_cast this
    rw [Int.cast_abs] at h4
    refine h4.trans ?_
    norm_num
  have := eta_pos
  nlinarith

/-- `1 - γ` as it is computed. -/
noncomputable def base (g : ℝ) : ℝ := F64.round (1 - g)

theorem rep_half : Rep (1 / 2) := ⟨1, -1, by norm_num, by norm_num, by norm_num [zpow_neg]⟩

theorem rep_one : Rep 1 := ⟨1, 0, by norm_num, by norm_num, by norm_num⟩

theorem base_bounds {g : ℝ} (h0 : 0 ≤ g) (h1 : g < 1 / 2) : 1 / 2 ≤ base g ∧ base g ≤ 1 ∧ |base g - (1 - g)| ≤ 2 * u := by
  have hu := u_pos
  have he := eta_le_u
  refine ⟨rep_le_round rep_half (by linarith), round_le_rep rep_one (by linarith), (round_err _).trans ?_⟩
  rw [abs_of_pos (by linarith)]
  nlinarith

/-- The weight of an example, as it is computed from its counter. -/
theorem weightOf_fin (P : Powm) {g N : ℝ} (h0 : 0 ≤ g) (h1 : g < 1 / 2) (hN : Rep N) (hN2 : |N| ≤ 2 ^ 60) :
    ∃ M, weightOf P (fin g) (fin N) = fin M ∧ Rep M ∧ 0 ≤ M ∧ |M - mu (1 - base g) N| ≤ 12 * u * mu (1 - base g) N + 2 * eta := by
  have hu := u_small
  have hu0 := u_pos
  have het := eta_pos
  have het' := eta_tiny
  obtain ⟨b1, b2, -⟩ := base_bounds h0 h1
  set b := base g with hb
  have hb0 : 0 < b := by linarith
  unfold weightOf mu
  by_cases hn : N ≤ 0
  · refine ⟨1, if_pos hn, rep_one, zero_le_one, ?_⟩
    rw [if_pos hn, sub_self, abs_zero]
    nlinarith
  have hn' : 0 < N := not_le.mp hn
  rw [if_neg hn]
  have hsub : sub (fin 1) (fin g) = fin b := by
    show rnd (1 + -g) = _
    rw [← sub_eq_add_neg, rnd_small (by rw [abs_of_pos (by linarith)]; norm_num; linarith)]
    rfl
  rw [abs_of_pos hn'] at hN2
  have hmul : mul (fin N) (fin (1 / 2)) = fin (F64.round (N * (1 / 2))) :=
    rnd_small (by rw [abs_of_pos (by positivity)]; norm_num at hN2 ⊢; linarith)
  set r := F64.round (N * (1 / 2)) with hr
  have hhalf := half_err hN
  rw [← hr] at hhalf
  set q := b ^ (N * (1 / 2)) with hq
  have hq0 : 0 < q := Real.rpow_pos_of_pos hb0 _
  have hq1 : q ≤ 1 := Real.rpow_le_one hb0.le b2 (by positivity)
  have hlog : |Real.log b| ≤ 1 := by
    rw [abs_of_nonpos (Real.log_nonpos hb0.le b2)]
    have h2 : Real.log (1 / 2) ≤ Real.log b := Real.log_le_log (by norm_num) b1
    rw [one_div, Real.log_inv] at h2
    have := Real.log_two_lt_d9
    linarith
  have hpr : |b ^ r - q| ≤ 2 * eta * q := by
    rw [hq, Real.rpow_def_of_pos hb0, Real.rpow_def_of_pos hb0]
    refine exp_close (by linarith) ?_
    rw [← mul_sub, abs_mul]
    have e : r - N * (1 / 2) = r - N / 2 := by ring
    rw [e]
    calc |Real.log b| * |r - N / 2| ≤ 1 * eta := mul_le_mul hlog hhalf (abs_nonneg _) zero_le_one
      _ = eta := one_mul _
  have hpe := P.err b r hb0
  rw [pow50] at hpe
  have a1 := abs_le.mp hpr
  have hbr0 : 0 < b ^ r := Real.rpow_pos_of_pos hb0 _
  have a2 := abs_le.mp hpe
  have hbr : b ^ r ≤ (1 + 2 * eta) * q := by linarith [a1.2]
  have hA0 : 0 ≤ P.powA b r := by nlinarith [a2.1]
  have hAq : |P.powA b r - q| ≤ (9 * u) * q := by
    have t : 8 * u * b ^ r ≤ 8 * u * ((1 + 2 * eta) * q) := mul_le_mul_of_nonneg_left hbr (by positivity)
    have t2 : 2 * eta ≤ u / 4 := by
      have := eta_le_aux
      have h4 : u * u * u * u ≤ u / 8 := by
        have : u * u * u ≤ 1 / 8 := by
          calc u * u * u ≤ 1 / 2 * (1 / 2) * (1 / 2) := by gcongr <;> linarith
            _ ≤ _ := by norm_num
        nlinarith
      linarith
    have t3 : 16 * u * eta ≤ u / 4 := by nlinarith
    have t4 : 2 * eta * q ≤ u / 4 * q := mul_le_mul_of_nonneg_right t2 hq0.le
    have t5 : 16 * u * eta * q ≤ u / 4 * q := mul_le_mul_of_nonneg_right t3 hq0.le
    have t6 : 8 * u * ((1 + 2 * eta) * q) = 8 * u * q + 16 * u * eta * q := by ring
    rw [abs_le]
    constructor <;> nlinarith [a1.1, a1.2, a2.1, a2.2]
  have a3 := abs_le.mp hAq
  have hA2 : P.powA b r ≤ 2 := by nlinarith
  have hpow : powf P (fin b) (fin r) = fin (F64.round (P.powA b r)) := by
    show (if 0 < b then rnd (P.powA b r) else nan) = _
    rw [if_pos hb0, rnd_small (by rw [abs_of_nonneg hA0]; norm_num; linarith)]
  refine ⟨F64.round (P.powA b r), ?_, rep_round _, round_nonneg hA0, ?_⟩
  · refine (if_neg hn).trans ?_
    rw [hsub, hmul, hpow]
  · have hre := round_err (P.powA b r)
    rw [abs_of_nonneg hA0] at hre
    have a4 := abs_le.mp hre
    have e : (1 : ℝ) - (1 - b) = b := by ring
    rw [e, abs_le, ← hq]
    have t : u * P.powA b r ≤ u * ((1 + 9 * u) * q) := mul_le_mul_of_nonneg_left (by linarith [a3.2]) hu0.le
    have t2 : u * ((1 + 9 * u) * q) = u * q + 9 * u * (u * q) := by ring
    have t3 : 9 * u * (u * q) ≤ 1 * (u * q) := mul_le_mul_of_nonneg_right (by linarith) (by positivity)
    constructor <;> nlinarith [a3.1, a3.2, a4.1, a4.2]

theorem rep_nat {n : ℕ} (h : n ≤ 10 ^ 6) : Rep (n : ℝ) :=
  ⟨n, 0, by rw [abs_of_nonneg (by positivity)]; norm_num; have : n < 9007199254740992 := by omega
            exact_mod_cast this, by norm_num, by simp⟩

theorem rnd_nat {n : ℕ} (h : n ≤ 10 ^ 6) : rnd (n : ℝ) = fin n := by
  have h1 : (n : ℝ) ≤ 10 ^ 6 := by exact_mod_cast h
  rw [rnd_small (by rw [abs_of_nonneg (by positivity)]; exact h1.trans (by norm_num)), round_of_rep (rep_nat h)]

/-- A sum of ones is exact. -/
theorem foldl_ones : ∀ (n k : ℕ), k + n ≤ 10 ^ 6 → (List.replicate n (fin 1)).foldl add (fin k) = fin ((k + n : ℕ) : ℝ) := by
  intro n
  induction n with
  | zero => intro k _; rfl
  | succ n ih =>
    intro k hk
    rw [List.replicate_succ, List.foldl_cons]
    have : add (fin k) (fin 1) = fin ((k + 1 : ℕ) : ℝ) := by
      show rnd ((k : ℝ) + 1) = _
      rw [← Nat.cast_succ, rnd_nat (by omega)]
    rw [this, ih (k + 1) (by omega)]
    congr 2
    omega

/-- Numbers stop growing by unit steps at `2⁶⁰`. -/
theorem round_stall {x : ℝ} (h : |x| ≤ 2 ^ 60 + 1) : |F64.round x| ≤ 2 ^ 60 := by
  have hR : Rep (2 ^ 60 : ℝ) := ⟨1, 60, by norm_num, by norm_num, by norm_num⟩
  have hRn : Rep (-(2 ^ 60) : ℝ) := ⟨-1, 60, by norm_num, by norm_num, by norm_num⟩
  have hx := abs_le.mp h
  by_cases h1 : |x| ≤ 2 ^ 60
  · have := abs_le.mp h1
    exact abs_le.mpr ⟨rep_le_round hRn this.1, round_le_rep hR this.2⟩
  push Not at h1
  have h2 := round_of_log (x := x) (e := 8) (by norm_num) (by norm_num at h1 ⊢; linarith) (by norm_num at h ⊢; linarith)
  rw [h2]
  rcases le_total 0 x with h0 | h0
  · rw [abs_of_nonneg h0] at h1
    rw [roundEven_eq_of_lt (k := 2 ^ 52)]
    · norm_num
    · rw [abs_lt]; norm_num at h1 hx ⊢; constructor <;> linarith [hx.2]
  · rw [abs_of_nonpos h0] at h1
    rw [roundEven_eq_of_lt (k := -2 ^ 52)]
    · norm_num
    · rw [abs_lt]; norm_num at h1 hx ⊢; constructor <;> linarith [hx.1]

/-- A counter, as it is updated. -/
theorem counter_fin {N a θ : ℝ} (hN2 : |N| ≤ 2 ^ 60) (ha : |a| ≤ 1) (hθ0 : 0 ≤ θ) (hθ1 : θ ≤ 1) :
    ∃ N', sub (add (fin N) (fin a)) (fin θ) = fin N' ∧ Rep N' ∧ |N'| ≤ 2 ^ 60 ∧ |N' - (N + a - θ)| ≤ 3 * u * (|N| + 3) := by
  have hu := u_small
  have hu0 := u_pos
  have het := eta_le_aux
  have het' : eta ≤ u / 8 := by
    have : u * u * u ≤ 1 / 8 := by
      calc u * u * u ≤ 1 / 2 * (1 / 2) * (1 / 2) := by gcongr <;> linarith
        _ ≤ _ := by norm_num
    nlinarith
  have h1 : |N + a| ≤ |N| + 1 := (abs_add_le _ _).trans (by linarith)
  have h2 : |F64.round (N + a)| ≤ 2 ^ 60 := round_stall (by linarith)
  have e1 : add (fin N) (fin a) = fin (F64.round (N + a)) := rnd_small (by norm_num at hN2 ⊢; linarith)
  set t := F64.round (N + a) with ht
  have h3 : |t - θ| ≤ 2 ^ 60 + 1 := by
    have := abs_sub t θ
    rw [abs_of_nonneg hθ0] at this
    linarith
  have e2 : sub (fin t) (fin θ) = fin (F64.round (t - θ)) := by
    show rnd (t + -θ) = _
    rw [← sub_eq_add_neg, rnd_small (by norm_num at h3 ⊢; linarith)]
  refine ⟨F64.round (t - θ), by rw [e1, e2], rep_round _, round_stall h3, ?_⟩
  have r1 := round_err (N + a)
  have r2 := round_err (t - θ)
  rw [← ht] at r1
  have n0 := abs_nonneg N
  have r1' : |t - (N + a)| ≤ u * (|N| + 1) + eta := r1.trans (by have := mul_le_mul_of_nonneg_left h1 hu0.le; linarith)
  have a1 := abs_le.mp r1'
  have h4 : |t - θ| ≤ 3 / 2 * (|N| + 3) := by
    have q : |t| ≤ |N| + 1 + (u * (|N| + 1) + eta) := by
      have := abs_add_le (t - (N + a)) (N + a)
      rw [sub_add_cancel] at this
      linarith
    have := abs_sub t θ
    rw [abs_of_nonneg hθ0] at this
    nlinarith
  have r2' : |F64.round (t - θ) - (t - θ)| ≤ u * (3 / 2 * (|N| + 3)) + eta :=
    r2.trans (by have := mul_le_mul_of_nonneg_left h4 hu0.le; linarith)
  have a2 := abs_le.mp r2'
  rw [abs_le]
  constructor <;> nlinarith [a1.1, a1.2, a2.1, a2.2]

theorem mem_le_sum {A : Type*} (S : List A) (M : A → ℝ) (h : ∀ e ∈ S, 0 ≤ M e) {e : A} (he : e ∈ S) : M e ≤ (S.map M).sum :=
  List.single_le_sum (by simp only [List.mem_map]; rintro _ ⟨a, ha, rfl⟩; exact h a ha) _ (List.mem_map_of_mem he)

/-- The weights handed to the learner. -/
theorem query_ok {A : Type*} (S : List A) (hne : S ≠ []) (hn : S.length ≤ 10 ^ 5) (M : A → ℝ) {κ : ℝ} (hκ : 1 / 10 ^ 30 ≤ κ) (hκ1 : κ < 1)
    (hM : ∀ e ∈ S, Rep (M e) ∧ 0 ≤ M e ∧ M e ≤ 1 + 1 / 10 ^ 10)
    (hsum : ¬ Lt ((S.map fun e => fin (M e)).foldl add (fin 0)) (mul (rnd (S.length : ℝ)) (fin κ))) :
    ∃ s : ℝ, (S.map fun e => fin (M e)).foldl add (fin 0) = fin s ∧ 0 < s ∧ |s - (S.map M).sum| ≤ 1 / 10 ^ 9 * (S.map M).sum ∧
      (1 - 1 / 10 ^ 8) * (κ * S.length) ≤ (S.map M).sum ∧
      (∀ e ∈ S, div (fin (M e)) (fin s) = fin (F64.round (M e / s))) ∧
      SmoothWeights κ S.length (S.map fun e => fin (F64.round (M e / s))) ∧
      (S.map fun e => |s * F64.round (M e / s) - M e|).sum ≤ 1 / 10 ^ 9 * (S.map M).sum := by
  have hu := u_small
  have hu0 := u_pos
  have het := eta_tiny
  have het0 := eta_pos
  have hm : (1 : ℝ) ≤ S.length := by exact_mod_cast List.length_pos_iff.mpr hne
  have hm5 : (S.length : ℝ) ≤ 10 ^ 5 := by exact_mod_cast hn
  have hle : (S.map M).sum ≤ S.length * (1 + 1 / 10 ^ 10) := sum_le_const S M _ fun e he => (hM e he).2.2
  have hB0 : 0 ≤ (S.map M).sum := List.sum_nonneg (by simp only [List.mem_map]; rintro _ ⟨e, he, rfl⟩; exact (hM e he).2.1)
  obtain ⟨s, hs, hsr, hnear⟩ := foldl_near0 (S.map M) (by simp only [List.mem_map]; rintro _ ⟨e, he, rfl⟩; exact ⟨(hM e he).2.1, (hM e he).1⟩)
    (hle.trans (by norm_num; nlinarith)) (by rw [List.length_map]; omega)
  rw [List.map_map] at hs
  have hs' : (S.map fun e => fin (M e)).foldl add (fin 0) = fin s := hs
  have hb := hnear.bound (by rw [List.length_map]; omega) hB0
  set B := (S.map M).sum with hB
  have hκm : (1 : ℝ) / 10 ^ 30 ≤ S.length * κ := by nlinarith
  have hκm5 : (S.length : ℝ) * κ ≤ 10 ^ 5 := by nlinarith
  have hmul : mul (rnd (S.length : ℝ)) (fin κ) = fin (F64.round (S.length * κ)) := by
    rw [rnd_nat (by omega)]
    exact rnd_small (by rw [abs_of_pos (by positivity)]; exact hκm5.trans (by norm_num))
  rw [hs', hmul] at hsum
  have hsum' : F64.round (S.length * κ) ≤ s := not_lt.mp hsum
  have hrk := round_err (S.length * κ)
  rw [abs_of_nonneg (show (0 : ℝ) ≤ S.length * κ by positivity)] at hrk
  have hrk' := (abs_le.mp hrk).1
  have hek : eta ≤ 1 / 10 ^ 30 * (S.length * κ) := by
    refine het.trans ?_
    calc (1 : ℝ) / 10 ^ 60 = 1 / 10 ^ 30 * (1 / 10 ^ 30) := by norm_num
      _ ≤ _ := by gcongr
  have huk : u * (S.length * κ) ≤ 1 / 9000000000000000 * (S.length * κ) := mul_le_mul_of_nonneg_right hu (by positivity)
  have hslo : (1 - 1 / 10 ^ 14) * (S.length * κ) ≤ s := by
    norm_num at hek huk ⊢
    linarith
  have hs0 : 0 < s := lt_of_lt_of_le (by norm_num; positivity) hslo
  have hsB : |s - B| ≤ 1 / 10 ^ 9 * B := by rw [abs_le]; norm_num at hb ⊢; constructor <;> linarith [hb.1, hb.2]
  have hBs : B ≤ (1 + 2 / 10 ^ 9) * s := by norm_num at hb ⊢; linarith [hb.1]
  have hBlo : (1 - 1 / 10 ^ 8) * (κ * S.length) ≤ B := by
    have h3 : 0 ≤ (S.length : ℝ) * κ := by positivity
    norm_num at hb hslo ⊢
    linarith [hb.2]
  have hq : ∀ e ∈ S, 0 ≤ M e / s ∧ M e / s ≤ 2 := by
    intro e he
    refine ⟨div_nonneg (hM e he).2.1 hs0.le, ?_⟩
    rw [div_le_iff₀ hs0]
    have := mem_le_sum S M (fun e he => (hM e he).2.1) he
    norm_num at hBs
    linarith
  have hdiv : ∀ e ∈ S, div (fin (M e)) (fin s) = fin (F64.round (M e / s)) := by
    intro e he
    obtain ⟨h1, h2⟩ := hq e he
    simp only [div, if_neg hs0.ne']
    exact rnd_small (by rw [abs_of_nonneg h1]; norm_num; linarith)
  have hre : ∀ e ∈ S, |F64.round (M e / s) - M e / s| ≤ u * (M e / s) + eta := by
    intro e he
    have := round_err (M e / s)
    rwa [abs_of_nonneg (hq e he).1] at this
  have hetB : S.length * eta ≤ 1 / 10 ^ 20 := by
    calc S.length * eta ≤ 10 ^ 5 * (1 / 10 ^ 60) := by gcongr
      _ ≤ _ := by norm_num
  have hsd : (S.map fun e => M e / s).sum = B / s := by
    rw [hB, div_eq_mul_inv, ← List.sum_map_mul_right]; rfl
  have hBs1 : |B / s - 1| ≤ 2 / 10 ^ 9 := by
    rw [div_sub_one hs0.ne', abs_div, abs_of_pos hs0, div_le_iff₀ hs0, abs_sub_comm]
    refine hsB.trans ?_
    norm_num at hBs ⊢
    linarith
  have hBs1' := abs_le.mp hBs1
  refine ⟨s, hs', hs0, hsB, hBlo, hdiv, ?_, ?_⟩
  · refine ⟨S.map fun e => F64.round (M e / s), by rw [List.map_map]; rfl, by simp, ?_, ?_, ?_⟩
    · simp only [List.mem_map]
      rintro _ ⟨e, he, rfl⟩
      refine ⟨round_nonneg (hq e he).1, ?_⟩
      have h1 := (abs_le.mp (hre e he)).2
      have h2 : M e / s ≤ (1 + 1 / 10 ^ 10) / ((1 - 1 / 10 ^ 14) * (S.length * κ)) :=
        div_le_div₀ (by norm_num) (hM e he).2.2 (by norm_num; positivity) hslo
      have h3 : (1 + 1 / 10 ^ 10) / ((1 - 1 / 10 ^ 14) * ((S.length : ℝ) * κ)) ≤ (1 + 1 / 10 ^ 9) / (κ * S.length) := by
        rw [div_le_div_iff₀ (by norm_num; positivity) (by positivity)]
        have h3 : 0 ≤ (S.length : ℝ) * κ := by positivity
        norm_num
        nlinarith
      have h4 : 1 / 10 ^ 5 ≤ 1 / (κ * S.length) := by
        apply one_div_le_one_div_of_le (by positivity); linarith
      have h5 : (1 + 1 / 10 ^ 9) / (κ * (S.length : ℝ)) = (1 + 1 / 10 ^ 9) * (1 / (κ * S.length)) := by ring
      have h6 : (1 + 1 / 10 ^ 8) / (κ * (S.length : ℝ)) = (1 + 1 / 10 ^ 8) * (1 / (κ * S.length)) := by ring
      rw [h6]
      rw [h5] at h3
      set w := 1 / (κ * (S.length : ℝ)) with hw
      have h7 : u * (M e / s) ≤ 1 / 9000000000000000 * ((1 + 1 / 10 ^ 9) * w) :=
        mul_le_mul hu (h2.trans h3) (hq e he).1 (by norm_num)
      have h8 : eta ≤ 1 / 10 ^ 20 * w := by
        refine het.trans ?_
        norm_num at h4 ⊢
        linarith
      norm_num at h7 h8 h3 h2 h4 ⊢
      linarith
    · have hc := sum_close S (fun e => F64.round (M e / s)) (fun e => M e / s) _ hre
      rw [sum_affine, hsd] at hc
      have h1 := abs_le.mp hc
      have h2 : u * (B / s) ≤ 1 / 9000000000000000 * 2 := mul_le_mul hu (by norm_num at hBs1' ⊢; linarith) (by positivity) (by norm_num)
      rw [abs_le]
      norm_num at h2 hetB hBs1' ⊢
      constructor <;> linarith [h1.1, h1.2, hBs1'.1, hBs1'.2]
    · simp only [List.mem_map]
      rintro _ ⟨e, -, rfl⟩
      exact rep_round _
  · have h1 : ∀ e ∈ S, |s * F64.round (M e / s) - M e| ≤ u * M e + eta * s := by
      intro e he
      have h2 : s * F64.round (M e / s) - M e = s * (F64.round (M e / s) - M e / s) := by field_simp
      rw [h2, abs_mul, abs_of_pos hs0]
      calc s * |F64.round (M e / s) - M e / s| ≤ s * (u * (M e / s) + eta) := mul_le_mul_of_nonneg_left (hre e he) hs0.le
        _ = u * M e + eta * s := by field_simp
    have h2 : (S.map fun e => |s * F64.round (M e / s) - M e|).sum ≤ (S.map fun e => u * M e + eta * s).sum := List.sum_le_sum h1
    rw [sum_affine, ← hB] at h2
    refine h2.trans ?_
    have h3 : u * B ≤ 1 / 9000000000000000 * B := mul_le_mul_of_nonneg_right hu hB0
    have h4 : S.length * (eta * s) ≤ 1 / 10 ^ 20 * (2 * B) := by
      rw [← mul_assoc]
      refine mul_le_mul hetB ?_ hs0.le (by norm_num)
      norm_num at hb
      linarith [hb.2]
    norm_num at h3 h4 ⊢
    linarith

end SmoothBoostF

end Miniboosts
