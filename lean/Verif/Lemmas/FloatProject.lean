import Verif.Model.FloatProject
import Verif.Lemmas.Rounding
import Verif.Lemmas.Projection

/-! # The projection in `f64`: what the loop does, and how large its errors are -/

namespace Miniboosts.F64

theorem maxNum_fin (a b : ℝ) : maxNum (fin a) (fin b) = fin (max a b) := by
  unfold maxNum
  rw [if_neg (by simp), if_neg (by simp)]
  by_cases h : a ≤ b
  · exact (if_pos (show Le (fin a) (fin b) from h)).trans (by rw [max_eq_right h])
  · exact (if_neg (show ¬ Le (fin a) (fin b) from h)).trans (by rw [max_eq_left (le_of_not_ge h)])

theorem minNum_fin (a b : ℝ) : minNum (fin a) (fin b) = fin (min a b) := by
  unfold minNum
  rw [if_neg (by simp), if_neg (by simp)]
  by_cases h : a ≤ b
  · exact (if_pos (show Le (fin a) (fin b) from h)).trans (by rw [min_eq_left h])
  · exact (if_neg (show ¬ Le (fin a) (fin b) from h)).trans (by rw [min_eq_right (le_of_not_ge h)])

/-- The first of the suffix sums. -/
noncomputable def sumHead (L : Libm) (v : Nat → F64) (ks : List Nat) : F64 := (suffixLogSums L (ks.map v)).headD nan

theorem suffix_cons (L : Libm) (v : Nat → F64) (k : Nat) (ks : List Nat) :
    suffixLogSums L ((k :: ks).map v) = sumHead L v (k :: ks) :: suffixLogSums L (ks.map v) := rfl

theorem suffix_length (L : Libm) (xs : List F64) : (suffixLogSums L xs).length = xs.length := by
  induction xs with
  | nil => rfl
  | cons a xs ih => simp [suffixLogSums, ih]

theorem projTail_spec (L : Libm) (ξ : F64) (v : Nat → F64) : ∀ (ks : List Nat) (ss D : List F64), ss.length = ks.length → ks.Nodup →
    (∀ k ∈ ks, D[k]? = some (v k)) → ∃ D', projTail L ξ (List.zip ks ss) D = .ok D' ∧ D'.length = D.length ∧
      (∀ j ∈ ks, D'[j]? = some (exp L (add ξ (v j)))) ∧ ∀ j ∉ ks, D'[j]? = D[j]? := by
  intro ks
  induction ks with
  | nil => intro ss D _ _ _; exact ⟨D, by simp [projTail], rfl, by simp, by simp⟩
  | cons k ks ih =>
    intro ss D hs hn hD
    match ss, hs with
    | s :: ss, hs =>
      rw [List.nodup_cons] at hn
      have hk := hD k (by simp)
      obtain ⟨D', h1, h2, h3, h4⟩ := ih ss (D.set k (exp L (add ξ (v k)))) (by simpa using hs) hn.2 (by
        intro j hj
        rw [List.getElem?_set_ne (by rintro rfl; exact hn.1 hj)]
        exact hD j (by simp [hj]))
      have hkl : k < D.length := by
        by_contra h
        rw [List.getElem?_eq_none (by omega)] at hk
        cases hk
      refine ⟨D', by simp only [List.zip_cons_cons, projTail, hk]; exact h1, by simpa using h2, ?_, ?_⟩
      · intro j hj
        rcases List.mem_cons.1 hj with rfl | hj
        · rw [h4 j hn.1, List.getElem?_set_self hkl]
        · exact h3 j hj
      · intro j hj
        rw [List.mem_cons, not_or] at hj
        rw [h4 j hj.2, List.getElem?_set_ne (Ne.symm hj.1)]

/-- The stopping criterion of the search loop. -/
def Stops (L : Libm) (ub logNu : F64) (i : Nat) (s d : F64) : Prop := Le (add (add (logXi L ub i s) d) logNu) (fin 0)

theorem projLoop_spec (L : Libm) (ub logNu : F64) (v : Nat → F64) : ∀ (ks : List Nat) (i : Nat) (D : List F64), ks.Nodup →
    (∀ k ∈ ks, D[k]? = some (v k)) → ∃ D', projLoop L ub logNu i (List.zip ks (suffixLogSums L (ks.map v))) D = .ok D' ∧ D'.length = D.length ∧
      (∀ j ∉ ks, D'[j]? = D[j]?) ∧ ∃ pre post, ks = pre ++ post ∧ (∀ k ∈ pre, D'[k]? = some ub) ∧
        (∀ p k q, pre = p ++ k :: q → ¬ Stops L ub logNu (i + p.length) (sumHead L v (k :: (q ++ post))) (v k)) ∧
        (post = [] ∨ ∃ k t, post = k :: t ∧ Stops L ub logNu (i + pre.length) (sumHead L v post) (v k) ∧
          ∀ j ∈ post, D'[j]? = some (exp L (add (logXi L ub (i + pre.length) (sumHead L v post)) (v j)))) := by
  intro ks
  induction ks with
  | nil => intro i D _ _; exact ⟨D, by simp [projLoop], rfl, by simp, [], [], rfl, by simp, by simp, .inl rfl⟩
  | cons k ks ih =>
    intro i D hn hD
    rw [List.nodup_cons] at hn
    have hk := hD k (by simp)
    have hkl : k < D.length := by
      by_contra h
      rw [List.getElem?_eq_none (by omega)] at hk
      cases hk
    have hD' : ∀ x, ∀ j ∈ ks, (D.set k x)[j]? = some (v j) := by
      intro x j hj
      rw [List.getElem?_set_ne (by rintro rfl; exact hn.1 hj)]
      exact hD j (by simp [hj])
    rw [suffix_cons]
    simp only [List.zip_cons_cons, projLoop, hk]
    by_cases hs : Stops L ub logNu i (sumHead L v (k :: ks)) (v k)
    · obtain ⟨D', h1, h2, h3, h4⟩ := projTail_spec L (logXi L ub i (sumHead L v (k :: ks))) v ks (suffixLogSums L (ks.map v))
        (D.set k (exp L (add (logXi L ub i (sumHead L v (k :: ks))) (v k)))) (by simp [suffix_length]) hn.2 (hD' _)
      refine ⟨D', (if_pos hs).trans h1, by simpa using h2, ?_, [], k :: ks, rfl, by simp, by simp, .inr ⟨k, ks, rfl, by simpa using hs, ?_⟩⟩
      · intro j hj
        rw [List.mem_cons, not_or] at hj
        rw [h4 j hj.2, List.getElem?_set_ne (Ne.symm hj.1)]
      · intro j hj
        rcases List.mem_cons.1 hj with rfl | hj
        · rw [h4 j hn.1, List.getElem?_set_self hkl]; simp
        · simpa using h3 j hj
    · obtain ⟨D', h1, h2, h3, pre, post, h4, h5, h6, h7⟩ := ih (i + 1) (D.set k ub) hn.2 (hD' _)
      have e : i + (k :: pre).length = i + 1 + pre.length := by simp; omega
      refine ⟨D', (if_neg hs).trans h1, by simpa using h2, ?_, k :: pre, post, by rw [h4]; rfl, ?_, ?_, ?_⟩
      · intro j hj
        rw [List.mem_cons, not_or] at hj
        rw [h3 j hj.2, List.getElem?_set_ne (Ne.symm hj.1)]
      · intro j hj
        rcases List.mem_cons.1 hj with rfl | hj
        · rw [h3 j hn.1, List.getElem?_set_self hkl]
        · exact h5 j hj
      · intro p k' q hp
        cases p with
        | nil =>
          simp only [List.nil_append, List.cons.injEq] at hp
          obtain ⟨rfl, rfl⟩ := hp
          rw [← h4]
          simpa using hs
        | cons a p =>
          simp only [List.cons_append, List.cons.injEq] at hp
          have := h6 p k' q hp.2
          have e' : i + (a :: p).length = i + 1 + p.length := by simp; omega
          rw [e']; exact this
      · rw [e]; exact h7

theorem logAdd_wide (L : Libm) {a b : ℝ} (ha : |a| ≤ 10020) (hb : |b| ≤ 10020) (hab : a ≤ b) :
    ∃ c, add (fin b) (ln L (add (fin 1) (exp L (sub (fin a) (fin b))))) = fin c ∧
      |c - Real.log (Real.exp a + Real.exp b)| ≤ 11 / 10 ^ 12 := by
  have hu := u_small
  have hu0 := u_pos
  have het := eta_le_u
  have h1 := abs_le.mp ha
  have h2 := abs_le.mp hb
  obtain ⟨t, ht, hte⟩ := sub_fin (a := a) (b := b) 20040 (by norm_num) (abs_le.mpr ⟨by linarith, by linarith⟩)
  have h3 := abs_le.mp hte
  obtain ⟨E, hE, hEe, -⟩ := exp_fin L (x := t) (by linarith)
  have h4 : |Real.exp t - Real.exp (a - b)| ≤ 2 * (20041 * u) * Real.exp (a - b) := exp_close (by linarith) (hte.trans (by linarith))
  have h5 : Real.exp (a - b) ≤ 1 := Real.exp_le_one_iff.mpr (by linarith)
  have h50 := Real.exp_pos (a - b)
  have h6 : |Real.exp t - Real.exp (a - b)| ≤ 40082 * u := h4.trans (by nlinarith)
  have h7 := abs_le.mp h6
  have h8 : |E - Real.exp (a - b)| ≤ 40100 * u := by
    have h9 := abs_le.mp hEe
    rw [abs_le]; constructor <;> nlinarith
  have h9 := abs_le.mp h8
  obtain ⟨v, hv, hve⟩ := add_fin (a := 1) (b := E) 3 (by norm_num) (abs_le.mpr ⟨by linarith, by linarith⟩)
  have h10 : |v - (1 + Real.exp (a - b))| ≤ 40104 * u := by
    have h11 := abs_le.mp hve
    rw [abs_le]; constructor <;> linarith
  obtain ⟨hv0, hvl⟩ := log_close (a := v) (b := 1 + Real.exp (a - b)) (c := 40104 * u) (by linarith) (by linarith) (h10.trans (by nlinarith))
  have hl0 : 0 ≤ Real.log (1 + Real.exp (a - b)) := Real.log_nonneg (by linarith)
  have hl1 : Real.log (1 + Real.exp (a - b)) ≤ 7 / 10 := by
    have := Real.log_le_log (show 0 < 1 + Real.exp (a - b) by linarith) (show 1 + Real.exp (a - b) ≤ 2 by linarith)
    have := Real.log_two_lt_d9
    linarith
  have h12 := abs_le.mp hvl
  have hlv : |Real.log v| ≤ 1 := abs_le.mpr ⟨by linarith, by linarith⟩
  obtain ⟨y, hy, hye⟩ := ln_fin L hv0 (hlv.trans (by norm_num))
  have hye' : |y - Real.log v| ≤ 11 * u := hye.trans (by nlinarith [abs_nonneg (Real.log v)])
  have h13 := abs_le.mp hye'
  obtain ⟨c, hc, hce⟩ := add_fin (a := b) (b := y) 10022 (by norm_num) (abs_le.mpr ⟨by linarith, by linarith⟩)
  refine ⟨c, by rw [ht, hE, hv, hy, hc], ?_⟩
  have hlog : Real.log (Real.exp a + Real.exp b) = b + Real.log (1 + Real.exp (a - b)) := by
    have hm : Real.exp a + Real.exp b = Real.exp b * (1 + Real.exp (a - b)) := by
      rw [mul_add, mul_one, ← Real.exp_add]; ring_nf
    rw [hm, Real.log_mul (Real.exp_pos b).ne' (by linarith), Real.log_exp]
  rw [hlog]
  have h14 := abs_le.mp hce
  rw [abs_le]
  constructor <;> linarith

theorem log_lsum_bound (xs : List ℝ) (hne : xs ≠ []) (hx : ∀ x ∈ xs, |x| ≤ 10 ^ 4) (hl : xs.length ≤ 10 ^ 5) :
    |Real.log (xs.map Real.exp).sum| ≤ 10012 := by
  have hl' : (xs.length : ℝ) ≤ 10 ^ 5 := by exact_mod_cast hl
  have hlow : Real.exp (-10 ^ 4) ≤ (xs.map Real.exp).sum := by
    cases xs with
    | nil => exact absurd rfl hne
    | cons x xs =>
      rw [List.map_cons, List.sum_cons]
      have h1 : 0 ≤ (xs.map Real.exp).sum := List.sum_nonneg (by simp only [List.mem_map]; rintro _ ⟨a, -, rfl⟩; exact (Real.exp_pos a).le)
      have h2 := Real.exp_le_exp.mpr (abs_le.mp (hx x (by simp))).1
      linarith
  have hhigh : (xs.map Real.exp).sum ≤ xs.length * Real.exp (10 ^ 4) := by
    clear hne hl hl' hlow
    induction xs with
    | nil => simp
    | cons x xs ih =>
      have h1 := ih (fun y hy => hx y (by simp [hy]))
      have h2 := Real.exp_le_exp.mpr (abs_le.mp (hx x (by simp))).2
      simp only [List.map_cons, List.sum_cons, List.length_cons]
      push_cast
      linarith
  have hpos : 0 < (xs.map Real.exp).sum := (Real.exp_pos _).trans_le hlow
  have h1 := Real.log_le_log (Real.exp_pos _) hlow
  rw [Real.log_exp] at h1
  have h12 : (10 : ℝ) ^ 5 ≤ Real.exp 12 := by
    have h := Real.exp_one_gt_d9
    have e : Real.exp 12 = Real.exp 1 ^ 12 := by rw [← Real.exp_nat_mul]; norm_num
    rw [e]
    calc (10 : ℝ) ^ 5 ≤ 2.7182818283 ^ 12 := by norm_num
      _ ≤ _ := by gcongr
  have h2 : (xs.map Real.exp).sum ≤ Real.exp (12 + 10 ^ 4) := by
    rw [Real.exp_add]
    exact hhigh.trans (mul_le_mul_of_nonneg_right (hl'.trans h12) (Real.exp_pos _).le)
  have h3 := Real.log_le_log hpos h2
  rw [Real.log_exp] at h3
  rw [abs_le]
  constructor <;> linarith

theorem suffix_fin (L : Libm) : ∀ (xs : List ℝ), xs ≠ [] → (∀ x ∈ xs, |x| ≤ 10 ^ 4) → xs.length ≤ 10 ^ 5 →
    ∃ s, (suffixLogSums L (xs.map fin)).headD nan = fin s ∧ |s - Real.log (xs.map Real.exp).sum| ≤ 11 / 10 ^ 12 * xs.length := by
  intro xs
  induction xs with
  | nil => intro h; exact absurd rfl h
  | cons a xs ih =>
    intro _ hx hl
    cases xs with
    | nil => exact ⟨a, rfl, by simp; norm_num⟩
    | cons b xs =>
      obtain ⟨s, h1, h2⟩ := ih (by simp) (fun y hy => hx y (by simp only [List.mem_cons] at hy ⊢; exact .inr hy)) (by simp at hl ⊢; omega)
      have hb := log_lsum_bound (b :: xs) (by simp) (fun y hy => hx y (by simp only [List.mem_cons] at hy ⊢; exact .inr hy)) (by simp at hl ⊢; omega)
      have hpos : 0 < ((b :: xs).map Real.exp).sum := sum_map_pos _ _ (by simp) (fun _ _ => Real.exp_pos _)
      have hlen : ((b :: xs).length : ℝ) ≤ 10 ^ 5 := by
        have : (b :: xs).length ≤ 10 ^ 5 := by simp at hl ⊢; omega
        exact_mod_cast this
      have hs : |s| ≤ 10020 := by
        have := abs_add_le (s - Real.log ((b :: xs).map Real.exp).sum) (Real.log ((b :: xs).map Real.exp).sum)
        rw [sub_add_cancel] at this
        have h3 : 11 / 10 ^ 12 * ((b :: xs).length : ℝ) ≤ 1 := by nlinarith
        linarith
      have ha : |a| ≤ 10020 := (hx a (by simp)).trans (by norm_num)
      have hhead : (suffixLogSums L (((b :: xs).map fin))).head? = some (fin s) := by
        rw [← h1]; rfl
      have hcons : (suffixLogSums L ((a :: b :: xs).map fin)).headD nan =
          add (maxNum (fin s) (fin a)) (ln L (add (fin 1) (exp L (sub (minNum (fin s) (fin a)) (maxNum (fin s) (fin a)))))) := by
        rw [List.map_cons, suffixLogSums]
        simp only [hhead, List.headD_cons]
      have key : ∃ c, (suffixLogSums L ((a :: b :: xs).map fin)).headD nan = fin c ∧ |c - Real.log (Real.exp s + Real.exp a)| ≤ 11 / 10 ^ 12 := by
        rw [hcons, maxNum_fin, minNum_fin]
        rcases le_total s a with h | h
        · rw [max_eq_right h, min_eq_left h]; exact logAdd_wide L hs ha h
        · rw [max_eq_left h, min_eq_right h, add_comm (Real.exp s)]; exact logAdd_wide L ha hs h
      obtain ⟨c, hc, hce⟩ := key
      refine ⟨c, hc, ?_⟩
      have hlip := lse_lip (a := s) (b := Real.log ((b :: xs).map Real.exp).sum) (s := Real.exp a) (Real.exp_pos a).le
      rw [Real.exp_log hpos] at hlip
      have e : ((a :: b :: xs).map Real.exp).sum = ((b :: xs).map Real.exp).sum + Real.exp a := by
        rw [List.map_cons, List.sum_cons]; ring
      rw [e]
      have h5 := abs_le.mp hce
      have h6 := abs_le.mp (hlip.trans h2)
      have e2 : ((a :: b :: xs).length : ℝ) = ((b :: xs).length : ℝ) + 1 := by rw [List.length_cons]; push_cast; ring
      rw [e2, abs_le]
      constructor <;> linarith

theorem rnd_nat {i : Nat} (h : i ≤ 10 ^ 5) : rnd (i : ℝ) = fin i := by
  have h1 : (i : ℝ) ≤ 10 ^ 5 := by exact_mod_cast h
  rw [rnd_small (by rw [abs_of_nonneg (Nat.cast_nonneg i)]; linarith), round_of_rep]
  refine ⟨i, 0, ?_, by norm_num, by simp⟩
  rw [abs_of_nonneg (by positivity)]
  have : (i : ℤ) ≤ 10 ^ 5 := by exact_mod_cast h
  linarith

theorem rep_pos {c : ℝ} (hc : Rep c) (h0 : 0 < c) : 2 * eta ≤ c := by
  have := hc
  have h1 := round_of_rep hc
  obtain ⟨k, j, -, hj, rfl⟩ := hc
  have hp := pow_ulp_pos j
  have hk : (0 : ℝ) < k := by
    by_contra h
    have := mul_nonpos_of_nonpos_of_nonneg (not_lt.mp h) hp.le
    linarith
  have hk1 : (1 : ℝ) ≤ k := by
    have : 0 < k := by exact_mod_cast hk
    exact_mod_cast this
  rw [← two_eta]
  have : (2 : ℝ) ^ (-1074 : ℤ) ≤ 2 ^ j := zpow_le_zpow_right₀ (by norm_num) hj
  nlinarith

theorem cap_fin {nu : ℝ} (h1 : 1 ≤ nu) (h2 : nu ≤ 10 ^ 5) :
    ∃ b, div (fin 1) (fin nu) = fin b ∧ |b - 1 / nu| ≤ 2 * u * (1 / nu) ∧ Rep b := by
  have hnu : 0 < nu := by linarith
  have h3 : 1 / nu ≤ 1 := by rw [div_le_one hnu]; exact h1
  have h4 : 1 / 10 ^ 5 ≤ 1 / nu := one_div_le_one_div_of_le hnu h2
  have h5 : 0 < 1 / nu := by positivity
  refine ⟨round (1 / nu), ?_, ?_, rep_round _⟩
  · simp only [div, if_neg hnu.ne']
    exact rnd_small (by rw [abs_of_pos h5]; linarith)
  · refine (round_err _).trans ?_
    rw [abs_of_pos h5]
    have h6 : eta ≤ u * (1 / 10 ^ 5) := by
      refine eta_tiny.trans ?_
      rw [u_eq]; norm_num
    have := u_pos
    nlinarith

theorem mass_fin {nu b : ℝ} {i : Nat} (h1 : 1 ≤ nu) (hb : |b - 1 / nu| ≤ 2 * u * (1 / nu)) (hi : i ≤ 10 ^ 5) :
    ∃ c, sub (fin 1) (mul (fin b) (rnd i)) = fin c ∧ Rep c ∧ ((i : ℝ) ≤ 2 * nu → |c - (1 - i / nu)| ≤ 12 * u) ∧ (2 * nu < i → c < 0) := by
  have hu := u_small
  have hu0 := u_pos
  have het := eta_le_aux
  have het0 := eta_pos
  have heu : eta ≤ u / 100 := eta_tiny.trans (by rw [u_eq]; norm_num)
  have hnu : 0 < nu := by linarith
  have hi' : (i : ℝ) ≤ 10 ^ 5 := by exact_mod_cast hi
  have hi0 : (0 : ℝ) ≤ i := Nat.cast_nonneg i
  set r := (i : ℝ) / nu with hr
  have hr0 : 0 ≤ r := by positivity
  have hr1 : r ≤ 10 ^ 5 := (div_le_self hi0 h1).trans hi'
  have hbi : |b * i - r| ≤ 2 * u * r := by
    have : b * i - r = (b - 1 / nu) * i := by rw [hr]; ring
    rw [this, abs_mul, abs_of_nonneg hi0, hr]
    calc |b - 1 / nu| * i ≤ 2 * u * (1 / nu) * i := mul_le_mul_of_nonneg_right hb hi0
      _ = _ := by ring
  have hbi' := abs_le.mp hbi
  have hur : u * r ≤ 1 / 10 ^ 10 := by nlinarith
  have hbib : |b * i| ≤ (1 + 2 * u) * r := by rw [abs_le]; constructor <;> linarith
  have hp : mul (fin b) (rnd i) = fin (round (b * i)) := by
    rw [rnd_nat hi]
    exact rnd_small (by linarith)
  have hpe := round_err (b * i)
  have hpe' : |round (b * i) - r| ≤ 4 * u * r + eta := by
    have h3 := abs_le.mp (hpe.trans (show u * |b * i| + eta ≤ u * ((1 + 2 * u) * r) + eta by gcongr))
    have h4 : u * (2 * u * r) ≤ u * r := by nlinarith
    rw [abs_le]
    constructor <;> nlinarith
  set p := round (b * i)
  have hp' := abs_le.mp hpe'
  have hc : sub (fin 1) (fin p) = fin (round (1 + -p)) := rnd_small (by rw [abs_le]; constructor <;> linarith)
  refine ⟨_, by rw [hp, hc], rep_round _, ?_, ?_⟩
  · intro h
    have hr2 : r ≤ 2 := by rw [hr, div_le_iff₀ hnu]; exact h
    have h3 := round_err (1 + -p)
    have h5 : u * r ≤ 2 * u := by nlinarith
    have h4 : |1 + -p| ≤ 21 / 10 := by rw [abs_le]; constructor <;> linarith
    have h6 := abs_le.mp (h3.trans (show u * |1 + -p| + eta ≤ u * (21 / 10) + eta by gcongr))
    rw [abs_le]
    constructor <;> linarith
  · intro h
    have hr2 : 2 < r := by rw [hr, lt_div_iff₀ hnu]; exact h
    have h3 := round_err (1 + -p)
    have h4 : 1 + -p ≤ -9 / 10 := by linarith
    rw [abs_of_neg (show 1 + -p < 0 by linarith)] at h3
    have := (abs_le.mp h3).2
    nlinarith

set_option maxHeartbeats 1000000 in
/-- What the stopping criterion of the loop says about the exact numbers.  `S` is the sum of the exponentials from this index on, `d` the
largest of the logarithms, `1 - i / nu` the mass that is left. -/
theorem stop_cases (L : Libm) {nu : ℝ} {i : Nat} {s S d : ℝ} (h1 : 1 ≤ nu) (h2 : nu ≤ 10 ^ 5) (hi : i ≤ 10 ^ 5) (hS : 0 < S)
    (hs : |s - Real.log S| ≤ 11 / 10 ^ 7) (hSb : |Real.log S| ≤ 10012) (hd : |d| ≤ 10 ^ 4) (hdS : Real.exp d ≤ S) :
    (¬ Stops L (div (fin 1) (fin nu)) (ln L (fin nu)) i (fin s) (fin d) →
      1 - i / nu ≤ 1 / 10 ^ 14 ∨ (0 < 1 - i / nu ∧ (1 - 2 / 10 ^ 6) * S ≤ nu * (1 - i / nu) * Real.exp d)) ∧
    (Stops L (div (fin 1) (fin nu)) (ln L (fin nu)) i (fin s) (fin d) →
      -(1 / 10 ^ 14) ≤ 1 - i / nu ∧ ∃ α, 0 ≤ α ∧ nu * α * Real.exp d ≤ 1 + 1 / 10 ^ 9 ∧ |α * S - (1 - i / nu)| ≤ 3 / 10 ^ 6 * |1 - i / nu| + 1 / 10 ^ 14 ∧
        ∀ x ≤ d, |x| ≤ 10 ^ 4 → ∃ E, exp L (add (logXi L (div (fin 1) (fin nu)) i (fin s)) (fin x)) = fin E ∧ 0 ≤ E ∧
          |E - α * Real.exp x| ≤ 1 / 10 ^ 11 * (α * Real.exp x) + eta) := by
  have hu := u_small
  have hu0 := u_pos
  have het0 := eta_pos
  have heu : eta ≤ u / 100 := eta_tiny.trans (by rw [u_eq]; norm_num)
  have hnu : 0 < nu := by linarith
  obtain ⟨b, hb, hbe, -⟩ := cap_fin h1 h2
  obtain ⟨c, hc, hcr, hce, hcn⟩ := mass_fin h1 hbe hi
  have hxi : logXi L (div (fin 1) (fin nu)) i (fin s) = sub (ln L (fin c)) (fin s) := by rw [logXi, hb, hc]
  have hs' := abs_le.mp hs
  have hSb' := abs_le.mp hSb
  have hd' := abs_le.mp hd
  have hlnu0 : 0 ≤ Real.log nu := Real.log_nonneg h1
  have hlnu1 : Real.log nu ≤ 12 := by
    have h12 : (10 : ℝ) ^ 5 ≤ Real.exp 12 := by
      have h := Real.exp_one_gt_d9
      have e : Real.exp 12 = Real.exp 1 ^ 12 := by rw [← Real.exp_nat_mul]; norm_num
      rw [e]
      calc (10 : ℝ) ^ 5 ≤ 2.7182818283 ^ 12 := by norm_num
        _ ≤ _ := by gcongr
    have := Real.log_le_log hnu (h2.trans h12)
    rwa [Real.log_exp] at this
  obtain ⟨n, hn, hne⟩ := ln_fin L hnu (show |Real.log nu| ≤ 1000 by rw [abs_of_nonneg hlnu0]; linarith)
  rw [abs_of_nonneg hlnu0] at hne
  have hne' : |n - Real.log nu| ≤ 121 * u := hne.trans (by nlinarith)
  have hn' := abs_le.mp hne'
  unfold Stops
  rw [hxi, hn]
  have hle : 0 ≤ c → (i : ℝ) ≤ 2 * nu := by
    intro h; by_contra h'; exact absurd (hcn (not_le.mp h')) (not_lt.mpr h)
  rcases lt_trichotomy c 0 with hc0 | hc0 | hc0
  · -- the logarithm is NaN
    have hnan : ln L (fin c) = nan := by simp only [ln]; rw [if_neg (not_lt.mpr hc0.le), if_neg hc0.ne]
    rw [hnan]
    refine ⟨fun _ => .inl ?_, fun h => absurd h (by simp [sub, add, Le])⟩
    by_cases h : (i : ℝ) ≤ 2 * nu
    · have := abs_le.mp (hce h)
      linarith
    · have : 2 < (i : ℝ) / nu := by rw [lt_div_iff₀ hnu]; exact not_le.mp h
      linarith
  · have hinf : ln L (fin c) = inf true := by simp only [ln]; rw [if_neg (by rw [hc0]; exact lt_irrefl _), if_pos hc0]
    rw [hinf]
    have hx : sub (inf true) (fin s) = inf true := rfl
    rw [hx]
    have hce' := abs_le.mp (hce (hle hc0.ge))
    refine ⟨fun h => absurd (by simp [add, Le]) h, fun _ => ⟨by linarith, 0, le_rfl, by norm_num, ?_, ?_⟩⟩
    · have := abs_nonneg (1 - (i : ℝ) / nu)
      rw [abs_le]; constructor <;> linarith
    · intro x _ _
      exact ⟨0, by simp [add, exp], le_rfl, by simpa using het0.le⟩
  · -- the usual case
    have hci := hle hc0.le
    have hce' := abs_le.mp (hce hci)
    have hi0 : (0 : ℝ) ≤ i / nu := by positivity
    have hlc1 : Real.log c ≤ 1 := by
      have := Real.log_le_sub_one_of_pos hc0
      linarith
    have hlc2 : -(7445 / 10) ≤ Real.log c := log_two_eta.trans (Real.log_le_log (by linarith) (rep_pos hcr hc0))
    have hlc : |Real.log c| ≤ 745 := abs_le.mpr ⟨by linarith, by linarith⟩
    obtain ⟨y, hy, hye⟩ := ln_fin L hc0 (hlc.trans (by norm_num))
    have hye' := abs_le.mp (show |y - Real.log c| ≤ 7451 * u from hye.trans (by nlinarith [abs_nonneg (Real.log c)]))
    obtain ⟨X, hX, hXe⟩ := sub_fin (a := y) (b := s) 10800 (by norm_num) (abs_le.mpr ⟨by linarith, by linarith⟩)
    have hX' := abs_le.mp hXe
    rw [hy, hX]
    obtain ⟨w, hw, hwe⟩ := add_fin (a := X) (b := d) 20900 (by norm_num) (abs_le.mpr ⟨by linarith, by linarith⟩)
    have hw' := abs_le.mp hwe
    obtain ⟨z, hz, hze⟩ := add_fin (a := w) (b := n) 21000 (by norm_num) (abs_le.mpr ⟨by linarith, by linarith⟩)
    have hz' := abs_le.mp hze
    rw [hw, hz]
    have hstop : Le (fin z) (fin 0) ↔ z ≤ 0 := Iff.rfl
    rw [hstop]
    have hed := Real.exp_pos d
    constructor
    · intro h
      right
      have hz0 := not_le.mp h
      have hlow : -(12 / 10 ^ 7) ≤ Real.log (nu * c * Real.exp d / S) := by
        rw [Real.log_div (by positivity) hS.ne', Real.log_mul (by positivity) hed.ne', Real.log_mul hnu.ne' hc0.ne', Real.log_exp]
        linarith
      have h3 : 1 - 12 / 10 ^ 7 ≤ nu * c * Real.exp d / S := by
        have h4 := Real.add_one_le_exp (-(12 / 10 ^ 7 : ℝ))
        have h5 := Real.exp_le_exp.mpr hlow
        rw [Real.exp_log (by positivity)] at h5
        linarith
      rw [le_div_iff₀ hS] at h3
      have h6 : nu * c * Real.exp d ≤ nu * (1 - i / nu) * Real.exp d + 12 * u * nu * S := by
        have : nu * c * Real.exp d ≤ nu * (1 - i / nu + 12 * u) * Real.exp d := by
          apply mul_le_mul_of_nonneg_right _ hed.le
          exact mul_le_mul_of_nonneg_left (by linarith) hnu.le
        have h7 : 12 * u * nu * Real.exp d ≤ 12 * u * nu * S := mul_le_mul_of_nonneg_left hdS (by positivity)
        calc _ ≤ _ := this
          _ = nu * (1 - i / nu) * Real.exp d + 12 * u * nu * Real.exp d := by ring
          _ ≤ _ := by linarith
      have h8 : 12 * u * nu ≤ 1 / 10 ^ 9 := by
        have : 12 * u * nu ≤ 12 * u * 10 ^ 5 := mul_le_mul_of_nonneg_left h2 (by positivity)
        linarith only [this, hu]
      have h8' : 12 * u * nu * S ≤ 1 / 10 ^ 9 * S := mul_le_mul_of_nonneg_right h8 hS.le
      have h9 : (1 - 2 / 10 ^ 6) * S ≤ nu * (1 - i / nu) * Real.exp d := by linarith only [h3, h6, h8', hS]
      refine ⟨?_, h9⟩
      by_contra h10
      have : nu * (1 - i / nu) * Real.exp d ≤ 0 := mul_nonpos_of_nonpos_of_nonneg (mul_nonpos_of_nonneg_of_nonpos hnu.le (not_lt.mp h10)) hed.le
      linarith only [this, h9, hS]
    · intro h
      refine ⟨by linarith, Real.exp X, (Real.exp_pos X).le, ?_, ?_, ?_⟩
      · have e : nu * Real.exp X * Real.exp d = Real.exp (Real.log nu + X + d) := by
          rw [Real.exp_add, Real.exp_add, Real.exp_log hnu]
        have h3 : |Real.log nu + X + d - 0| ≤ 1 ∧ Real.log nu + X + d ≤ 1 / 10 ^ 10 ∨ Real.log nu + X + d ≤ 0 := by
          rcases le_total (Real.log nu + X + d) 0 with h4 | h4
          · exact .inr h4
          · refine .inl ⟨?_, by linarith⟩
            rw [abs_le]; constructor <;> linarith
        rw [e]
        rcases h3 with ⟨h3, h4⟩ | h3
        · have h5 : Real.exp (1 / 10 ^ 10 : ℝ) ≤ 1 + 1 / 10 ^ 9 := by
            have := exp_close (x := (1 / 10 ^ 10 : ℝ)) (y := 0) (c := 1 / 10 ^ 10) (by norm_num) (by norm_num)
            rw [Real.exp_zero] at this
            have := (abs_le.mp this).2
            norm_num at this ⊢
            linarith
          exact (Real.exp_le_exp.mpr h4).trans h5
        · have := Real.exp_le_one_iff.mpr h3
          linarith
      · have e : Real.exp X * S = Real.exp (X + Real.log S) := by rw [Real.exp_add, Real.exp_log hS]
        have h3 : |X + Real.log S - Real.log c| ≤ 12 / 10 ^ 7 := by rw [abs_le]; constructor <;> linarith
        have h4 := exp_close (by norm_num) h3
        rw [Real.exp_log hc0, ← e] at h4
        have h5 := abs_le.mp h4
        have h6 : c ≤ |1 - (i : ℝ) / nu| + 12 * u := by linarith only [hce'.2, le_abs_self (1 - (i : ℝ) / nu)]
        rw [abs_le]
        constructor <;> linarith only [h5.1, h5.2, h6, hce'.1, hce'.2, hu, hc0, abs_nonneg (1 - (i : ℝ) / nu)]
      · intro x hx hx'
        have hxx := abs_le.mp hx'
        obtain ⟨t, ht, hte⟩ := add_fin (a := X) (b := x) 20900 (by norm_num) (abs_le.mpr ⟨by linarith, by linarith⟩)
        have ht' := abs_le.mp hte
        obtain ⟨E, hE, hEe, -⟩ := exp_fin L (x := t) (by linarith)
        have h3 : |Real.exp t - Real.exp (X + x)| ≤ 2 * (20901 * u) * Real.exp (X + x) := exp_close (by linarith) (hte.trans (by linarith))
        rw [Real.exp_add] at h3
        have hα := Real.exp_pos X
        have hα' := Real.exp_pos x
        set P := Real.exp X * Real.exp x with hP
        have hP0 : 0 < P := mul_pos hα hα'
        have h4 := abs_le.mp h3
        have h5 : 2 * (20901 * u) * P ≤ 5 / 10 ^ 12 * P := mul_le_mul_of_nonneg_right (by linarith) hP0.le
        refine ⟨E, by rw [ht, hE], ?_, ?_⟩
        · have h6 : exp L (fin t) = rnd (L.expA t) := rfl
          have h7 : 0 ≤ L.expA t := by
            have h8 := abs_le.mp (L.exp_err t)
            rw [pow50] at h8
            have := Real.exp_pos t
            have h9 : 8 * u * Real.exp t ≤ 1 * Real.exp t := mul_le_mul_of_nonneg_right (by linarith only [hu]) this.le
            linarith only [h8.1, h9]
          rw [h6] at hE
          unfold rnd at hE
          split at hE
          · cases hE
          · cases hE; exact round_nonneg h7
        · have h6 := abs_le.mp hEe
          have h7 : Real.exp t ≤ 2 * P := by linarith
          have h8 : 10 * u * Real.exp t ≤ 20 * u * P := by
            have := mul_le_mul_of_nonneg_left h7 (show 0 ≤ 10 * u by positivity)
            linarith only [this]
          have h9 : 20 * u * P ≤ 3 / 10 ^ 15 * P := mul_le_mul_of_nonneg_right (by linarith) hP0.le
          rw [abs_le]
          constructor <;> linarith

end Miniboosts.F64
