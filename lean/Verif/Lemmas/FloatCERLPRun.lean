import Verif.Lemmas.FloatCERLPStep

/-! # CERLPBoost in `f64`: the parameters and the rounds of a run -/

namespace Miniboosts

namespace CERLPBoostF

open F64

variable {H X : Type*}

/-- The quotient of two numbers with small errors. -/
theorem ratio_near {n8 D h l : ℝ} (hn8p : 0 < n8) (hn8 : n8 ≤ 100) (hsq : 4 / 10 ^ 6 ≤ h * h) (hDlo : 3 / 10 ^ 6 ≤ D) (hb1 : |n8 - 8 * l| ≤ 1 / 10 ^ 12)
    (hb2 : |D - h * h| ≤ 2 / 9000000000000000 * (h * h)) : |n8 / D - 8 * l / h ^ 2| ≤ 2 / 10 ^ 6 := by
  have hh : 0 < h * h := by linarith
  have hD0 : 0 < D := by linarith
  have h0 : h ≠ 0 := by rintro rfl; simp at hh
  have e1 : n8 / D - 8 * l / h ^ 2 = (n8 - 8 * l) / (h * h) + n8 * (h * h - D) / (D * (h * h)) := by
    field_simp; ring
  rw [e1]
  have t1 : |(n8 - 8 * l) / (h * h)| ≤ 1 / 10 ^ 6 := by
    rw [abs_div, abs_of_pos hh, div_le_iff₀ hh]
    refine hb1.trans ?_
    linarith
  have t2 : |n8 * (h * h - D) / (D * (h * h))| ≤ 1 / 10 ^ 6 := by
    rw [abs_div, abs_mul, abs_of_pos hn8p, abs_of_pos (mul_pos hD0 hh), div_le_iff₀ (mul_pos hD0 hh), abs_sub_comm]
    calc n8 * |D - h * h| ≤ 100 * (2 / 9000000000000000 * (h * h)) := mul_le_mul hn8 hb2 (abs_nonneg _) (by norm_num)
      _ ≤ 1 / 10 ^ 6 * (3 / 10 ^ 6 * (h * h)) := by linarith
      _ ≤ 1 / 10 ^ 6 * (D * (h * h)) := mul_le_mul_of_nonneg_left (mul_le_mul_of_nonneg_right hDlo hh.le) (by norm_num)
  have := abs_add_le ((n8 - 8 * l) / (h * h)) (n8 * (h * h - D) / (D * (h * h)))
  linarith

set_option maxHeartbeats 800000 in
/-- The regularisation parameter and the limit of the iterations. -/
theorem setup_near (L : Libm) {S : Examples X ℝ} (hS : GoodSample S) {s : CERLPBoostF H} {h : ℝ} (hp : GoodParams s h) :
    ∃ (η : ℝ) (M : ℕ), preprocess L S s = .ok { s with dist := List.replicate S.length (div (fin 1) (rnd (S.length : ℝ))), eta := fin η, maxIter := M, terminated := M, weights := [], hypotheses := [] } ∧
      1 ≤ η ∧ η ≤ 9000 ∧ Real.log S.length / η ≤ h + 1 / 10 ^ 9 ∧ M ≤ 25 * 10 ^ 6 ∧ 1 ≤ M ∧ 8 * Real.log S.length / h ^ 2 - 1 / 1000 ≤ M ∧ (M : ℝ) ≤ 8 * Real.log S.length / h ^ 2 + 1001 / 1000 := by
  have hu := u_small
  have hu0 := u_pos
  have hη := eta_tiny
  have hη0 := eta_pos
  have hlo := hp.lo
  have hhi := hp.hi
  have h0 : 0 < h := by linarith
  have hn : (S.length : ℝ) ≤ 10 ^ 5 := by exact_mod_cast hS.few
  have hn2 : (2 : ℝ) ≤ S.length := by exact_mod_cast hS.two
  set N := (S.length : ℝ) with hN
  have hN0 : 0 < N := by linarith
  have hlog2 : 69 / 100 ≤ Real.log N := by
    have h1 := Real.log_le_log (by norm_num) hn2
    have h2 := Real.log_two_gt_d9
    linarith
  have hlog12 : Real.log N ≤ 12 := by
    rw [Real.log_le_iff_le_exp hN0]
    refine hn.trans ?_
    have h1 : Real.exp 12 = Real.exp 1 ^ 12 := by rw [← Real.exp_nat_mul]; norm_num
    rw [h1]
    have h2 : (27 / 10 : ℝ) ≤ Real.exp 1 := by have := Real.exp_one_gt_d9; linarith
    calc (10 : ℝ) ^ 5 ≤ (27 / 10) ^ 12 := by norm_num
      _ ≤ _ := by gcongr
  have hrn : rnd N = fin N := F64.rnd_nat_long (i := S.length) (by have := hS.few; omega)
  have hrep : Rep N := by
    have h1 := rep_round N
    have h2 : rnd N = fin (F64.round N) := rnd_small (by rw [abs_of_pos hN0]; linarith)
    rw [hrn] at h2
    rw [fin.injEq] at h2
    rwa [← h2] at h1
  have hdiv : div (rnd N) s.nu = fin N := by
    rw [hrn, hp.nu]
    simp only [div, if_neg one_ne_zero]
    rw [div_one, hrn]
  obtain ⟨y, y1, y2⟩ := ln_fin L hN0 (by rw [abs_of_pos (by linarith)]; linarith)
  rw [abs_of_pos (by linarith : 0 < Real.log N)] at y2
  have hy : |y - Real.log N| ≤ 2 / 10 ^ 14 := by
    refine y2.trans ?_
    calc 10 * u * Real.log N + F64.eta ≤ 10 * (1 / 9000000000000000) * 12 + 1 / 10 ^ 60 := by gcongr
      _ ≤ _ := by norm_num
  have hy' := abs_le.mp hy
  have hy0 : 0 < y := by linarith
  -- the regularisation parameter
  have hyh : |y / h - Real.log N / h| ≤ 1 / 10 ^ 11 := by
    rw [← sub_div, abs_div, abs_of_pos h0, div_le_iff₀ h0]
    refine hy.trans ?_
    nlinarith
  have hlh : Real.log N / h ≤ 6000 := by rw [div_le_iff₀ h0]; linarith
  have hlh' : 138 / 100 ≤ Real.log N / h := by rw [le_div_iff₀ h0]; linarith
  have hyh' := abs_le.mp hyh
  have hyhb : |y / h| ≤ 6001 := by rw [abs_of_pos (div_pos hy0 h0)]; linarith
  have hr1 := round_err (y / h)
  have hr1' : |F64.round (y / h) - y / h| ≤ 1 / 10 ^ 11 := by
    refine hr1.trans ?_
    calc u * |y / h| + F64.eta ≤ (1 / 9000000000000000) * 6001 + 1 / 10 ^ 60 := by gcongr
      _ ≤ _ := by norm_num
  have hr1a := abs_le.mp hr1'
  have heta : div (fin y) (fin h) = fin (F64.round (y / h)) := by
    simp only [div, if_neg h0.ne']
    rw [rnd_small (hyhb.trans (by norm_num))]
  set η := F64.round (y / h) with hηd
  have hη1 : 1 ≤ η := by linarith
  -- the limit
  have hN8 : |(8 : ℝ) * y| ≤ 100 := by rw [abs_of_pos (by linarith)]; linarith
  have hm1 : mul (fin 8) (fin y) = fin (F64.round (8 * y)) := rnd_small (hN8.trans (by norm_num))
  have hhh : |h * h| ≤ 1 := by rw [abs_of_pos (by positivity)]; nlinarith
  have hm2 : mul (fin h) (fin h) = fin (F64.round (h * h)) := rnd_small (hhh.trans (by norm_num))
  have hb1 : |F64.round (8 * y) - 8 * Real.log N| ≤ 1 / 10 ^ 12 := by
    have h1 := round_err (8 * y)
    have h2 : u * |8 * y| + F64.eta ≤ (1 / 9000000000000000) * 100 + 1 / 10 ^ 60 := by gcongr
    have h3 := abs_le.mp (h1.trans h2)
    rw [abs_le]
    constructor <;> linarith
  have hsq : 4 / 10 ^ 6 ≤ h * h := by nlinarith
  have hb2 : |F64.round (h * h) - h * h| ≤ 2 * u * (h * h) := by
    refine (round_err _).trans ?_
    rw [abs_of_pos (by positivity)]
    have : F64.eta ≤ u * (h * h) := by
      have h3 : (1 : ℝ) / 10 ^ 17 ≤ u := by rw [u_eq]; norm_num
      calc F64.eta ≤ 1 / 10 ^ 60 := hη
        _ ≤ 1 / 10 ^ 17 * (4 / 10 ^ 6) := by norm_num
        _ ≤ _ := by gcongr
    linarith
  set n8 := F64.round (8 * y) with hn8
  set D := F64.round (h * h) with hD
  have hb1' := abs_le.mp hb1
  have hb2' := abs_le.mp hb2
  have hDlo : 3 / 10 ^ 6 ≤ D := by
    have : 2 * u * (h * h) ≤ 1 / 10 ^ 10 * (h * h) := by
      refine mul_le_mul_of_nonneg_right ?_ (by positivity)
      norm_num; linarith
    nlinarith [hb2'.1]
  have hD0 : 0 < D := by linarith
  have hn8p : 0 < n8 := by linarith
  have hQ : |n8 / D - 8 * Real.log N / h ^ 2| ≤ 2 / 10 ^ 6 := ratio_near hn8p (by linarith) hsq hDlo hb1 (hb2.trans (by
    refine mul_le_mul_of_nonneg_right ?_ (by positivity)
    linarith))
  have hQ' := abs_le.mp hQ
  have hlim : 8 * Real.log N / h ^ 2 ≤ 24 * 10 ^ 6 := by
    rw [div_le_iff₀ (by positivity)]
    nlinarith
  have hQb : |n8 / D| ≤ 25 * 10 ^ 6 := by rw [abs_of_pos (div_pos hn8p hD0)]; linarith
  have hr2 : |F64.round (n8 / D) - n8 / D| ≤ 1 / 10 ^ 6 := by
    refine (round_err _).trans ?_
    calc u * |n8 / D| + F64.eta ≤ (1 / 9000000000000000) * (25 * 10 ^ 6) + 1 / 10 ^ 60 := by gcongr
      _ ≤ _ := by norm_num
  have hr2' := abs_le.mp hr2
  have hm3 : div (fin n8) (fin D) = fin (F64.round (n8 / D)) := by
    simp only [div, if_neg hD0.ne']
    rw [rnd_small (hQb.trans (by norm_num))]
  set x := F64.round (n8 / D) with hx
  have hxb : x ≤ 245 * 10 ^ 5 := by linarith
  have hceil : ⌈x⌉₊ ≤ 25 * 10 ^ 6 := by
    refine Nat.ceil_le.mpr ?_
    push_cast
    linarith
  refine ⟨η, ⌈x⌉₊, ?_, hη1, by linarith, ?_, hceil, ?_, ?_, ?_⟩
  · unfold preprocess
    rw [hS.valid]
    simp only [regularizationParam, maxLoop, List.length_replicate]
    rw [← hN, hdiv, y1, hp.tol, hm1, hm2, hm3, heta]
    have : ceilUsize (fin x) = ⌈x⌉₊ := by
      simp only [ceilUsize]
      exact min_eq_left (by omega)
    rw [this]
  · rw [div_le_iff₀ (by linarith)]
    have h3 : Real.log N = h * (Real.log N / h) := by field_simp
    have h4 : Real.log N / h ≤ η + 2 / 10 ^ 11 := by linarith
    have h5 : h * (Real.log N / h) ≤ h * (η + 2 / 10 ^ 11) := mul_le_mul_of_nonneg_left h4 h0.le
    nlinarith
  · refine Nat.one_le_ceil_iff.mpr ?_
    have : 0 < 8 * Real.log N / h ^ 2 - 1 / 1000 := by
      have : 1 ≤ 8 * Real.log N / h ^ 2 := by
        rw [le_div_iff₀ (by positivity)]
        nlinarith
      linarith
    linarith
  · have := Nat.le_ceil x
    linarith
  · have := Nat.ceil_lt_add_one (a := x) (by
      have : 0 ≤ n8 / D := (div_pos hn8p hD0).le
      exact round_nonneg this)
    linarith

/-- What holds between two rounds: `V` are the weighted hypotheses. -/
structure Inv [Classifier H X F64] (S : Examples X ℝ) (s₀ : CERLPBoostF H) (η : ℝ) (M n : ℕ) (V : List (ℝ × H)) (s : CERLPBoostF H) : Prop where
  weights : s.weights = V.map fun v => fin v.1
  hyps : s.hypotheses = V.map Prod.snd
  eta : s.eta = fin η
  nu : s.nu = s₀.nu
  tol : s.halfTolerance = s₀.halfTolerance
  steps : s.fwType = s₀.fwType
  lim : s.maxIter = M
  len : V.length ≤ n
  rep : ∀ v ∈ V, F64.Rep v.1 ∧ 0 ≤ v.1
  ok : ∀ v ∈ V, ConfOk S v.2
  first : n = 0 → V = []
  sum : n ≠ 0 → |(V.map Prod.fst).sum - 1| ≤ 14 * u * n

theorem Inv.sum_le [Classifier H X F64] {S : Examples X ℝ} {s₀ : CERLPBoostF H} {η : ℝ} {M n : ℕ} {V : List (ℝ × H)} {s : CERLPBoostF H} (i : Inv S s₀ η M n V s)
    (hM : n ≤ 25 * 10 ^ 6 + 1) : (V.map Prod.fst).sum ≤ 1 + 1 / 10 ^ 6 ∧ (n ≠ 0 → |(V.map Prod.fst).sum - 1| ≤ 1 / 10 ^ 6) := by
  have hu := u_small
  have hu0 := u_pos
  have h1 : n ≠ 0 → |(V.map Prod.fst).sum - 1| ≤ 1 / 10 ^ 6 := by
    intro h
    refine (i.sum h).trans ?_
    have hr : (n : ℝ) ≤ 25 * 10 ^ 6 + 1 := by exact_mod_cast hM
    calc 14 * u * n ≤ 14 * (1 / 9000000000000000) * (25 * 10 ^ 6 + 1) := by gcongr
      _ ≤ _ := by norm_num
  refine ⟨?_, h1⟩
  by_cases h : n = 0
  · rw [i.first h]; simp; norm_num
  · have := (abs_le.mp (h1 h)).2; linarith

theorem exactEdge_map [Classifier H X F64] (S : Examples X ℝ) (xs : List ℝ) (h : H) : exactEdge S (xs.map fin) h = (List.zipWith (fun x e => x * (e.2 * (conf h e.1).val)) xs S).sum := by
  unfold exactEdge
  rw [List.zipWith_map_left]
  rfl

theorem zipSum_zero {α : Type*} : ∀ (xs : List ℝ) (S : List α), (List.zipWith (fun (x : ℝ) (_ : α) => x * 0) xs S).sum = 0 := by
  intro xs
  induction xs with
  | nil => simp
  | cons y ys ih =>
    intro S
    cases S with
    | nil => simp
    | cons e S => simp only [List.zipWith_cons_cons, List.sum_cons, ih]; ring

/-- The step of a round. -/
theorem nextIterate_ok [Classifier H X F64] (other : FWType → Nat → List F64 → List H → Nat → List F64 → Except Panic (List F64)) {S : Examples X ℝ} (hS : GoodSample S) {t : FWType}
    (ht : t = .classic ∨ t = .shortStep) {η : ℝ} (h1 : 1 ≤ η) {n : ℕ} (hn : n ≤ 25 * 10 ^ 6) {xs : List ℝ} (x2 : xs.length = S.length) (hx0 : ∀ x ∈ xs, 0 ≤ x) (hxs : xs.sum ≤ 3 / 2)
    (A : List (ℝ × H)) (v : ℝ × H) (B : List (ℝ × H)) (hrep : ∀ w ∈ A ++ v :: B, F64.Rep w.1 ∧ 0 ≤ w.1) (hok : ∀ w ∈ A ++ v :: B, ConfOk S w.2) (hlen : (A ++ v :: B).length ≤ n + 1)
    (hsum : (n = 0 ∧ A = [] ∧ B = [] ∧ v.1 = 0) ∨ (n ≠ 0 ∧ |((A ++ v :: B).map Prod.fst).sum - 1| ≤ 14 * u * n))
    (hgap : 1 / 10 ^ 6 ≤ (List.zipWith (fun x e => x * (e.2 * (conf v.2 e.1).val)) xs S).sum - (List.zipWith (fun x e => x * (e.2 * voteAt (A ++ v :: B) e.1)) xs S).sum) :
    ∃ V' : List (ℝ × H), nextIterate other t (fin η) (n + 1) S (xs.map fin) ((A ++ v :: B).map Prod.snd) A.length ((A ++ v :: B).map fun w => fin w.1) = .ok (V'.map fun w => fin w.1) ∧
      V'.map Prod.snd = (A ++ v :: B).map Prod.snd ∧ (∀ w ∈ V', F64.Rep w.1 ∧ 0 ≤ w.1) ∧ |(V'.map Prod.fst).sum - 1| ≤ 14 * u * (n + 1 : ℕ) := by
  have hu := u_small
  have hu0 := u_pos
  have hnr : (n : ℝ) ≤ 25 * 10 ^ 6 := by exact_mod_cast hn
  have hn0 : (0 : ℝ) ≤ n := Nat.cast_nonneg n
  have hbig : 14 * u * (n : ℝ) ≤ 1 / 10 ^ 6 := by
    calc 14 * u * (n : ℝ) ≤ 14 * (1 / 9000000000000000) * (25 * 10 ^ 6) := by gcongr
      _ ≤ _ := by norm_num
  have hsle : ((A ++ v :: B).map Prod.fst).sum ≤ 1 + 1 / 10 ^ 6 := by
    rcases hsum with ⟨-, rfl, rfl, h⟩ | ⟨-, h⟩
    · simp [h]; norm_num
    · have := (abs_le.mp h).2; linarith
  have hs32 : ((A ++ v :: B).map Prod.fst).sum ≤ 3 / 2 := by linarith
  have hget : ((A ++ v :: B).map Prod.snd)[A.length]? = some v.2 := by simp
  unfold nextIterate
  rw [hget]
  rcases ht with rfl | rfl
  · -- classic
    have hst : div (fin 2) (rnd ((n + 1 + 1 : ℕ) : ℝ)) = fin (F64.round (2 / (n + 1 + 1 : ℕ))) := by
      rw [rnd_nat_long (by omega)]
      have h3 : ((n + 1 + 1 : ℕ) : ℝ) ≠ 0 := by positivity
      simp only [div, if_neg h3]
      rw [rnd_small]
      rw [abs_of_nonneg (by positivity), div_le_iff₀ (by positivity)]
      push_cast
      nlinarith
    have hr0 : 0 ≤ F64.round (2 / ((n + 1 + 1 : ℕ) : ℝ)) := round_nonneg (by positivity)
    have hr1 : F64.round (2 / ((n + 1 + 1 : ℕ) : ℝ)) ≤ 1 := round_le_rep rep_one (by
      rw [div_le_one (by positivity)]; push_cast; linarith)
    obtain ⟨V', e1, e2, e3, e4⟩ := step_weights hr0 hr1 A v B hrep hs32 (by omega)
    refine ⟨V', by simp only [hst]; exact e1, e2, e3, ?_⟩
    rcases hsum with ⟨rfl, rfl, rfl, h⟩ | ⟨-, h⟩
    · have hone : F64.round (2 / ((0 + 1 + 1 : ℕ) : ℝ)) = 1 := by norm_num; exact round_of_rep rep_one
      rw [hone] at e4
      simp only [sub_self, zero_mul, zero_add] at e4
      simpa using e4
    · set r := F64.round (2 / ((n + 1 + 1 : ℕ) : ℝ)) with hr
      set W₁ := ((A ++ v :: B).map Prod.fst).sum with hW₁
      have h5 : |(1 - r) * W₁ + r - 1| ≤ 14 * u * n := by
        rw [show (1 - r) * W₁ + r - 1 = (1 - r) * (W₁ - 1) by ring, abs_mul, abs_of_nonneg (by linarith)]
        calc (1 - r) * |W₁ - 1| ≤ 1 * (14 * u * n) := mul_le_mul (by linarith) h (abs_nonneg _) (by norm_num)
          _ = _ := one_mul _
      have := abs_sub_le (V'.map Prod.fst).sum ((1 - r) * W₁ + r) 1
      push_cast
      linarith
  · -- short step
    by_cases hl1 : ((A ++ v :: B).map Prod.snd).length = 1
    · refine ⟨[(1, v.2)], ?_, ?_, ?_, ?_⟩
      · simp only [hl1, if_true, List.map_cons, List.map_nil]
      · rw [List.length_map] at hl1
        have h3 : A = [] ∧ B = [] := by
          simp at hl1
          constructor <;> apply List.length_eq_zero_iff.mp <;> omega
        simp [h3.1, h3.2]
      · intro w hw; simp at hw; subst hw; exact ⟨rep_one, by norm_num⟩
      · simp; positivity
    · have hV1 : ∀ w ∈ A ++ v :: B, 0 ≤ w.1 ∧ ConfOk S w.2 := fun w hw => ⟨(hrep w hw).2, hok w hw⟩
      obtain ⟨a, a1, a2⟩ := weightedMargins_near hS.labels hV1 hs32 (by omega)
      obtain ⟨b, b1, b2⟩ := margins_near hS.labels (hok v (by simp))
      have hlr : ((A ++ v :: B).length : ℝ) ≤ n + 1 := by exact_mod_cast hlen
      have herr : (2 : ℝ) / 10 ^ 15 * ((A ++ v :: B).length + 4) ≤ 1 / 10 ^ 7 := by
        calc (2 : ℝ) / 10 ^ 15 * ((A ++ v :: B).length + 4) ≤ 2 / 10 ^ 15 * (25 * 10 ^ 6 + 1 + 4) := by gcongr; linarith
          _ ≤ _ := by norm_num
      have ha : ∀ e ∈ S, |a e - e.2 * voteAt (A ++ v :: B) e.1| ≤ 1 / 10 ^ 7 := fun e he => (a2 e he).2.trans herr
      have hab : ∀ e ∈ S, |a e| ≤ 3 / 2 := by
        intro e he
        have h3 := abs_le.mp (ha e he)
        have h4 : |e.2 * voteAt (A ++ v :: B) e.1| ≤ 1 + 1 / 10 ^ 6 := by rw [pm_abs (hS.labels e he)]; exact (voteAt_abs hV1 e he).trans hsle
        have h5 := abs_le.mp h4
        rw [abs_le]; constructor <;> linarith
      have c1 := abs_le.mp (zipSum_close a (fun e => e.2 * voteAt (A ++ v :: B) e.1) (1 / 10 ^ 7) S xs ha hx0 x2)
      have c2 := abs_le.mp (zipSum_close b (fun e => e.2 * (conf v.2 e.1).val) (2 * u) S xs (fun e he => (b2 e he).1) hx0 x2)
      have c3 : 2 * u * xs.sum ≤ 2 * (1 / 9000000000000000) * (3 / 2) := by
        have : 0 ≤ xs.sum := List.sum_nonneg hx0
        gcongr
      obtain ⟨r, r1, hr0, hr1⟩ := shortStep_range hab (fun e he => (b2 e he).2) x2 hx0 hxs hS.few (η := η) (by linarith) (by
        have : (0 : ℝ) < 1 / 10 ^ 6 - 1 / 10 ^ 7 * (3 / 2) - 2 * (1 / 9000000000000000) * (3 / 2) - 1 / 10 ^ 8 := by norm_num
        linarith [c1.1, c1.2, c2.1, c2.2])
      obtain ⟨V', e1, e2, e3, e4⟩ := step_weights hr0 hr1 A v B hrep hs32 (by omega)
      refine ⟨V', ?_, e2, e3, ?_⟩
      · simp only [if_neg hl1]
        rw [a1, b1, r1]
        exact e1
      · rcases hsum with ⟨-, rfl, rfl, -⟩ | ⟨-, h⟩
        · simp at hl1
        · set W₁ := ((A ++ v :: B).map Prod.fst).sum with hW₁
          have h5 : |(1 - r) * W₁ + r - 1| ≤ 14 * u * n := by
            rw [show (1 - r) * W₁ + r - 1 = (1 - r) * (W₁ - 1) by ring, abs_mul, abs_of_nonneg (by linarith)]
            calc (1 - r) * |W₁ - 1| ≤ 1 * (14 * u * n) := mul_le_mul (by linarith) h (abs_nonneg _) (by norm_num)
              _ = _ := one_mul _
          have := abs_sub_le (V'.map Prod.fst).sum ((1 - r) * W₁ + r) 1
          push_cast
          linarith

/-- One round. -/
theorem round_cases [Classifier H X F64] [BEq H] (L : Libm) (hexp : ∀ x ≤ 0, L.expA x ≤ 1) (other : FWType → Nat → List F64 → List H → Nat → List F64 → Except Panic (List F64))
    {S : Examples X ℝ} (hS : GoodSample S) {s₀ : CERLPBoostF H} {h : ℝ} (hp : GoodParams s₀ h) {wl : WeakLearner F64 H} (hwl : GoodLearner S wl) {η : ℝ} (h1 : 1 ≤ η) (h2 : η ≤ 9000)
    (hη : Real.log S.length / η ≤ h + 1 / 10 ^ 9) {M : ℕ} (hM : M ≤ 25 * 10 ^ 6) {n : ℕ} {V : List (ℝ × H)} {s : CERLPBoostF H} (i : Inv S s₀ η M n V s) (hn : n < M) :
    ∃ d, NearDistribution S.length d ∧ (V = [] → ∀ w ∈ d, |w.val - 1 / S.length| ≤ 3 / 10 ^ 5) ∧ ((boost L other S s wl (n + 1) = .ok { state := { s with dist := d, terminated := n + 1 }, flow := .brk (n + 1), queries := [d] } ∧
        (∀ e ∈ S, exactEdge S d (wl (n + 1) d) - 2 * h - 5 / 10 ^ 5 ≤ e.2 * voteAt V e.1) ∧ (V = [] → exactEdge S d (wl (n + 1) d) ≤ h + 1 / 10 ^ 8)) ∨
      ∃ V' s', boost L other S s wl (n + 1) = .ok { state := s', flow := .cont, queries := [d] } ∧ Inv S s₀ η M (n + 1) V' s' ∧ (V = [] → h - 1 / 10 ^ 8 ≤ exactEdge S d (wl (n + 1) d))) := by
  classical
  have hu := u_small
  have hu0 := u_pos
  have hlo := hp.lo
  have hhi := hp.hi
  have hlen : V.length ≤ 25 * 10 ^ 6 := by have := i.len; omega
  obtain ⟨hs1, hs2⟩ := i.sum_le (by omega)
  have hV : ∀ v ∈ V, 0 ≤ v.1 ∧ ConfOk S v.2 := fun v hv => ⟨(i.rep v hv).2, i.ok v hv⟩
  obtain ⟨xs, a, a1, x1, x2, x3, x4, a2, x5, x6⟩ := dist_near L hexp hS.labels hS.two hS.few hV hs1 (by omega) h1 h2
  have hd : NearDistribution S.length (xs.map fin) := ⟨xs, rfl, x2, x3, x4, x6⟩
  have hx0 : ∀ x ∈ xs, 0 ≤ x := fun x hx => (x3 x hx).1
  have x4' := abs_le.mp x4
  have hxs : xs.sum ≤ 3 / 2 := by linarith
  set f := wl (n + 1) (xs.map fin) with hf
  have hfc : ConfOk S f := hwl.conf (n + 1) _ hd
  obtain ⟨b, b1, b2⟩ := margins_near hS.labels hfc
  obtain ⟨en, n1, n2, n3⟩ := edgeOf_near (S := S) (f := b) (fun e he => (b2 e he).2.trans (by norm_num)) x2 hx0 hxs hS.few
  obtain ⟨eo, o1, o2, o3⟩ := edgeOf_near (S := S) (f := a) (fun e he => (a2 e he).2.trans (by norm_num)) x2 hx0 hxs hS.few
  have n3' := abs_le.mp n3
  have o3' := abs_le.mp o3
  set sb := (List.zipWith (fun x e => x * b e) xs S).sum with hsb
  set sa := (List.zipWith (fun x e => x * a e) xs S).sum with hsa
  have hsab : |sa| ≤ 2 := by
    have := zipSum_close a (fun _ => 0) (101 / 100) S xs (fun e he => by rw [sub_zero]; exact (a2 e he).2) hx0 x2
    rw [zipSum_zero, sub_zero] at this
    refine this.trans ?_
    nlinarith
  have hsbb : |sb| ≤ 2 := by
    have := zipSum_close b (fun _ => 0) 1 S xs (fun e he => by rw [sub_zero]; exact (b2 e he).2) hx0 x2
    rw [zipSum_zero, sub_zero] at this
    refine this.trans ?_
    linarith
  have hsab' := abs_le.mp hsab
  have hsbb' := abs_le.mp hsbb
  have hgapb : |en + -eo| ≤ 5 := by rw [abs_le]; constructor <;> linarith
  have hgap : sub (edgeOf (F64.margins S f) (xs.map fin)) (edgeOf (F64.weightedMargins S s.weights s.hypotheses) (xs.map fin)) = fin (F64.round (en + -eo)) := by
    rw [i.weights, i.hyps, a1, b1, n1, o1]
    exact rnd_small (hgapb.trans (by norm_num))
  have hgr : |F64.round (en + -eo) - (en + -eo)| ≤ 1 / 10 ^ 10 := by
    refine (round_err _).trans ?_
    have := eta_le_u
    calc u * |en + -eo| + F64.eta ≤ (1 / 9000000000000000) * 5 + 1 / 9000000000000000 := by gcongr; linarith
      _ ≤ _ := by norm_num
  have hgr' := abs_le.mp hgr
  -- the exact edge
  have hedge : |sb - exactEdge S (xs.map fin) f| ≤ 1 / 10 ^ 10 := by
    rw [exactEdge_map]
    refine (zipSum_close b (fun e => e.2 * (conf f e.1).val) (2 * u) S xs (fun e he => (b2 e he).1) hx0 x2).trans ?_
    calc 2 * u * xs.sum ≤ 2 * (1 / 9000000000000000) * (3 / 2) := by gcongr; exact List.sum_nonneg hx0
      _ ≤ _ := by norm_num
  have hedge' := abs_le.mp hedge
  have hstart : boost L other S s wl (n + 1) = if Le (sub (edgeOf (F64.margins S f) (xs.map fin)) (edgeOf (F64.weightedMargins S s.weights s.hypotheses) (xs.map fin))) s.halfTolerance then
        .ok { state := { s with dist := xs.map fin, terminated := n + 1 }, flow := .brk (n + 1), queries := [xs.map fin] }
      else
        let pos := s.hypotheses.findIdx (fun g => g == f)
        let hs := if pos = s.hypotheses.length then s.hypotheses ++ [f] else s.hypotheses
        let ws := if pos = s.hypotheses.length then s.weights ++ [fin 0] else s.weights
        match nextIterate other s.fwType s.eta (n + 1) S (xs.map fin) hs pos ws with
        | .error e => .error e
        | .ok weights => .ok { state := { s with dist := xs.map fin, hypotheses := hs, weights := weights }, flow := .cont, queries := [xs.map fin] } := by
    unfold boost
    rw [if_neg (by rw [i.lim]; omega)]
    have hq : F64.expDistributionFromMargins L s.eta s.nu (F64.weightedMargins S s.weights s.hypotheses) = .ok (xs.map fin) := by
      rw [i.eta, i.nu, hp.nu, i.weights, i.hyps]; exact x1
    rw [hq]
    rfl
  have ha0 : V = [] → ∀ e ∈ S, a e = 0 := by
    intro hV0 e he
    have : F64.weightedMargins S (V.map fun v => fin v.1) (V.map Prod.snd) = S.map fun _ => fin 0 := by
      unfold F64.weightedMargins
      refine List.map_congr_left fun e' he' => ?_
      rw [hV0]
      simp only [List.map_nil, List.zipWith_nil_left, List.foldl_nil]
      rw [pm_mul (hS.labels e' he') rep_zero (by norm_num), mul_zero]
    rw [a1] at this
    have := List.map_inj_left.mp this e he
    rwa [fin.injEq] at this
  refine ⟨xs.map fin, hd, ?_, ?_⟩
  · intro hV0 w hw
    obtain ⟨x, hx, rfl⟩ := List.mem_map.mp hw
    have hlogs : (S.map fun e => F64.round (-η * a e)) = S.map fun _ => (0 : ℝ) := by
      refine List.map_congr_left fun e he => ?_
      rw [ha0 hV0 e he, mul_zero, round_of_rep rep_zero]
    rw [hlogs] at x5
    have hsm : Spec.softmax (S.map fun _ => (0 : ℝ)) = S.map fun _ => 1 / (S.length : ℝ) := by
      unfold Spec.softmax
      rw [List.map_map, List.map_map]
      simp [Function.comp_def]
    rw [hsm] at x5
    have hdist : ∀ (xs : List ℝ) (S : List (X × ℝ)) (c : ℝ), xs.length = S.length → ∀ x ∈ xs, |x - c| ≤ Spec.dist1 xs (S.map fun _ => c) := by
      intro xs
      induction xs with
      | nil => intro S c _ x hx; simp at hx
      | cons y ys ih =>
        intro S c hl x hx
        cases S with
        | nil => simp at hl
        | cons e S =>
          have e1 : Spec.dist1 (y :: ys) ((e :: S).map fun _ => c) = |y - c| + Spec.dist1 ys (S.map fun _ => c) := by simp [Spec.dist1]
          rw [e1]
          have h0 : 0 ≤ Spec.dist1 ys (S.map fun _ => c) := by
            unfold Spec.dist1
            refine List.sum_nonneg ?_
            intro z hz
            rw [List.mem_iff_getElem] at hz
            obtain ⟨k, hk, rfl⟩ := hz
            rw [List.getElem_zipWith]
            exact abs_nonneg _
          rcases List.mem_cons.mp hx with rfl | hx
          · linarith
          · have := ih S c (by simpa using hl) x hx
            have := abs_nonneg (y - c)
            linarith
    exact (hdist xs S _ x2 x hx).trans x5
  by_cases hle : Le (sub (edgeOf (F64.margins S f) (xs.map fin)) (edgeOf (F64.weightedMargins S s.weights s.hypotheses) (xs.map fin))) s.halfTolerance
  · left
    refine ⟨by rw [hstart, if_pos hle], ?_, ?_⟩
    · rw [hgap, i.tol, hp.tol] at hle
      have hle' : F64.round (en + -eo) ≤ h := hle
      intro e he
      have m := margin_ge_mean hS.two (fun e he => (a2 e he).2) h1 h2 x2 x5 he
      have k := abs_le.mp (a2 e he).1
      have : (1 : ℝ) / 10 ^ 7 + 4 / 10 ^ 5 + 2 / 10 ^ 9 + 2 / 10 ^ 10 + 1 / 10 ^ 9 ≤ 5 / 10 ^ 5 := by norm_num
      linarith [m, k.1, k.2, hgr'.1, n3'.1, o3'.2, hedge'.1, hedge'.2]
    · intro hV0
      rw [hgap, i.tol, hp.tol] at hle
      have hle' : F64.round (en + -eo) ≤ h := hle
      have hsa0 := zipSum_close a (fun _ => 0) 0 S xs (fun e he => by rw [ha0 hV0 e he]; simp) hx0 x2
      rw [zipSum_zero, sub_zero, zero_mul] at hsa0
      have hsa1 := abs_le.mp hsa0
      linarith [hgr'.1, n3'.1, o3'.2, hedge'.1, hedge'.2]
  · right
    rw [hstart, if_neg hle]
    rw [hgap, i.tol, hp.tol] at hle
    have hle' : h < F64.round (en + -eo) := not_le.mp hle
    have hav := abs_le.mp (zipSum_close a (fun e => e.2 * voteAt V e.1) (1 / 10 ^ 7) S xs (fun e he => (a2 e he).1) hx0 x2)
    have hG : 1 / 10 ^ 6 ≤ exactEdge S (xs.map fin) f - (List.zipWith (fun x e => x * (e.2 * voteAt V e.1)) xs S).sum := by
      have h3 : (1 : ℝ) / 10 ^ 7 * xs.sum ≤ 1 / 10 ^ 7 * (3 / 2) := mul_le_mul_of_nonneg_left hxs (by norm_num)
      have h4 : (0 : ℝ) ≤ 2 / 1000 - 1 / 10 ^ 7 * (3 / 2) - 2 / 10 ^ 9 - 2 / 10 ^ 10 - 1 / 10 ^ 6 := by norm_num
      linarith [hgr'.1, hgr'.2, n3'.1, n3'.2, o3'.1, o3'.2, hedge'.1, hedge'.2, hav.1, hav.2]
    rw [exactEdge_map] at hG
    have key : ∃ (A : List (ℝ × H)) (v : ℝ × H) (B : List (ℝ × H)), s.hypotheses.findIdx (fun g => g == f) = A.length ∧
        (if s.hypotheses.findIdx (fun g => g == f) = s.hypotheses.length then s.hypotheses ++ [f] else s.hypotheses) = (A ++ v :: B).map Prod.snd ∧
        (if s.hypotheses.findIdx (fun g => g == f) = s.hypotheses.length then s.weights ++ [fin 0] else s.weights) = ((A ++ v :: B).map fun w => fin w.1) ∧
        (∀ w ∈ A ++ v :: B, F64.Rep w.1 ∧ 0 ≤ w.1) ∧ (∀ w ∈ A ++ v :: B, ConfOk S w.2) ∧ (A ++ v :: B).length ≤ n + 1 ∧
        ((A ++ v :: B).map Prod.fst).sum = (V.map Prod.fst).sum ∧ (V = [] → A = [] ∧ B = [] ∧ v.1 = 0) ∧ (∀ x : X, voteAt (A ++ v :: B) x = voteAt V x) ∧
        ∀ e ∈ S, conf v.2 e.1 = (conf f e.1 : F64) := by
      by_cases hpos : s.hypotheses.findIdx (fun g => g == f) = s.hypotheses.length
      · rw [if_pos hpos, if_pos hpos, i.hyps, i.weights]
        rw [i.hyps, List.length_map] at hpos
        refine ⟨V, (0, f), [], hpos, by simp, by simp, ?_, ?_, by simpa using i.len, by simp, fun h => ⟨h, rfl, rfl⟩, fun x => by simp [voteAt], fun e _ => rfl⟩
        · intro w hw
          rcases List.mem_append.mp hw with h | h
          · exact i.rep w h
          · simp only [List.mem_singleton] at h; subst h; exact ⟨rep_zero, le_rfl⟩
        · intro w hw
          rcases List.mem_append.mp hw with h | h
          · exact i.ok w h
          · simp only [List.mem_singleton] at h; subst h; exact hfc
      · rw [if_neg hpos, if_neg hpos, i.hyps, i.weights]
        rw [i.hyps] at hpos
        have hlt : (V.map Prod.snd).findIdx (fun g => g == f) < (V.map Prod.snd).length := lt_of_le_of_ne List.findIdx_le_length hpos
        set k := (V.map Prod.snd).findIdx (fun g => g == f) with hk
        have hlt' : k < V.length := by rwa [List.length_map] at hlt
        have hsplit : V.take k ++ V[k] :: V.drop (k + 1) = V := by
          rw [← List.drop_eq_getElem_cons hlt', List.take_append_drop]
        have heq : ((V.map Prod.snd)[k] == f) = true := List.findIdx_getElem (w := hlt)
        rw [List.getElem_map] at heq
        refine ⟨V.take k, V[k], V.drop (k + 1), by rw [List.length_take]; omega, by rw [hsplit], by rw [hsplit], by rw [hsplit]; exact i.rep, by rw [hsplit]; exact i.ok,
          by rw [hsplit]; have := i.len; omega, by rw [hsplit], ?_, fun x => by rw [hsplit], fun e he => hwl.same _ _ heq e he⟩
        intro h
        rw [h] at hlt'
        simp at hlt'
    obtain ⟨A, v, B, k1, k2, k3, k4, k5, k6, k7, k8, k9, k10⟩ := key
    have hG' : 1 / 10 ^ 6 ≤ (List.zipWith (fun x e => x * (e.2 * (conf v.2 e.1).val)) xs S).sum - (List.zipWith (fun x e => x * (e.2 * voteAt (A ++ v :: B) e.1)) xs S).sum := by
      have c1 := abs_le.mp (zipSum_close (fun e => e.2 * (conf v.2 e.1).val) (fun e => e.2 * (conf f e.1).val) 0 S xs (fun e he => by rw [k10 e he]; simp) hx0 x2)
      simp only [k9]
      linarith [c1.1, c1.2]
    obtain ⟨V', v1, v2, v3, v4⟩ := nextIterate_ok other hS hp.steps h1 (by omega : n ≤ 25 * 10 ^ 6) x2 hx0 hxs A v B k4 k5 k6 (by
      by_cases h0 : n = 0
      · left; exact ⟨h0, k8 (i.first h0)⟩
      · right; exact ⟨h0, by rw [k7]; exact i.sum h0⟩) hG'
    refine ⟨V', { s with dist := xs.map fin, hypotheses := (A ++ v :: B).map Prod.snd, weights := V'.map fun w => fin w.1 }, ?_, ?_, ?_⟩
    · dsimp only
      rw [k2, k3, k1, i.steps, i.eta, v1]
    · have hl' : V'.length = (A ++ v :: B).length := by
        have := congrArg List.length v2
        simpa using this
      refine ⟨rfl, v2.symm, i.eta, i.nu, i.tol, i.steps, i.lim, by omega, v3, ?_, fun h => by omega, fun _ => v4⟩
      intro w hw
      have h3 : w.2 ∈ (A ++ v :: B).map Prod.snd := by rw [← v2]; exact List.mem_map_of_mem hw
      obtain ⟨w', hw', h4⟩ := List.mem_map.mp h3
      rw [← h4]
      exact k5 w' hw'
    · intro hV0
      have hsa0 := zipSum_close a (fun _ => 0) 0 S xs (fun e he => by rw [ha0 hV0 e he]; simp) hx0 x2
      rw [zipSum_zero, sub_zero, zero_mul] at hsa0
      have hsa1 := abs_le.mp hsa0
      linarith [hgr'.1, hgr'.2, n3'.1, n3'.2, o3'.1, o3'.2, hedge'.1, hedge'.2]

/-- The rounds from number `n + 1` on. -/
theorem loop_all [Classifier H X F64] [BEq H] (L : Libm) (hexp : ∀ x ≤ 0, L.expA x ≤ 1) (other : FWType → Nat → List F64 → List H → Nat → List F64 → Except Panic (List F64))
    {S : Examples X ℝ} (hS : GoodSample S) {s₀ : CERLPBoostF H} {h : ℝ} (hp : GoodParams s₀ h) {wl : WeakLearner F64 H} (hwl : GoodLearner S wl) {η : ℝ} (h1 : 1 ≤ η) (h2 : η ≤ 9000)
    (hη : Real.log S.length / η ≤ h + 1 / 10 ^ 9) {M : ℕ} (hM : M ≤ 25 * 10 ^ 6) (hM1 : 1 ≤ M) : ∀ (k n : ℕ) (V : List (ℝ × H)) (s : CERLPBoostF H), Inv S s₀ η M n V s → n + k = M →
    ∃ (V' : List (ℝ × H)) (s' : CERLPBoostF H) (qs : List (List F64)), (booster L other S).loop wl (k + 1) s (n + 1) = some (.ok (s', qs)) ∧ (∀ q ∈ qs, NearDistribution S.length q) ∧
      qs.length ≤ k ∧ s'.weights = (V'.map fun v => fin v.1) ∧ s'.hypotheses = V'.map Prod.snd ∧ V'.length ≤ 25 * 10 ^ 6 ∧ (∀ v ∈ V', 0 ≤ v.1) ∧ (∀ v ∈ V', ConfOk S v.2) ∧
      (n + qs.length < M → ∃ d, NearDistribution S.length d ∧ ∀ e ∈ S, exactEdge S d (wl (n + qs.length) d) - 2 * h - 5 / 10 ^ 5 ≤ e.2 * voteAt V' e.1) ∧
      (|(V'.map Prod.fst).sum - 1| ≤ 1 / 10 ^ 6 ∨ (n = 0 ∧ V' = [] ∧ ∃ d, NearDistribution S.length d ∧ (∀ w ∈ d, |w.val - 1 / S.length| ≤ 3 / 10 ^ 5) ∧ exactEdge S d (wl 1 d) ≤ h + 1 / 10 ^ 8)) := by
  intro k
  induction k with
  | zero =>
    intro n V s i hk
    have hn : n = M := by omega
    refine ⟨V, s, [], ?_, by simp, by simp, i.weights, i.hyps, by have := i.len; omega, fun v hv => (i.rep v hv).2, i.ok, ?_, .inl ((i.sum_le (by omega)).2 (by omega))⟩
    · have hb : (booster L other S).boost s wl (n + 1) = .ok { state := s, flow := .brk s.maxIter, queries := [] } := by
        change boost L other S s wl (n + 1) = _
        unfold boost
        rw [if_pos (by rw [i.lim]; omega)]
      simp only [Booster.loop, hb]
    · intro h; simp at h; omega
  | succ k ih =>
    intro n V s i hk
    obtain ⟨d, d1, d2, ⟨b1, b2, b3⟩ | ⟨V₁, s₁, b1, b2, -⟩⟩ := round_cases L hexp other hS hp hwl h1 h2 hη hM i (by omega)
    · refine ⟨V, { s with dist := d, terminated := n + 1 }, [d], ?_, by simpa using d1, by simp, i.weights, i.hyps, by have := i.len; omega, fun v hv => (i.rep v hv).2, i.ok, ?_, ?_⟩
      · have hb : (booster L other S).boost s wl (n + 1) = _ := b1
        simp only [Booster.loop, hb]
      · intro _; exact ⟨d, d1, b2⟩
      · by_cases h0 : n = 0
        · right
          have hV := i.first h0
          refine ⟨h0, hV, d, d1, d2 hV, ?_⟩
          have := b3 hV
          rwa [h0] at this
        · left; exact (i.sum_le (by omega)).2 h0
    · obtain ⟨V', s', qs, e1, e2, e3, e4, e5, e6, e7, e8, e9, e10⟩ := ih (n + 1) V₁ s₁ b2 (by omega)
      refine ⟨V', s', d :: qs, ?_, ?_, by simp; omega, e4, e5, e6, e7, e8, ?_, ?_⟩
      · have hb : (booster L other S).boost s wl (n + 1) = _ := b1
        rw [Booster.loop]
        simp only [hb, e1]
        rfl
      · intro q hq
        rcases List.mem_cons.mp hq with rfl | hq
        · exact d1
        · exact e2 q hq
      · intro h
        rw [List.length_cons] at h ⊢
        have := e9 (by omega)
        rwa [show n + (qs.length + 1) = n + 1 + qs.length by omega]
      · rcases e10 with h | ⟨h, -⟩
        · exact .inl h
        · omega

end CERLPBoostF

end Miniboosts
