import Verif.Model.FloatObjective
import Verif.Lemmas.FloatCERLPRound

/-! # The soft-margin loop in `f64` stays close to the exact loop -/

namespace Miniboosts.F64

theorem softLoop_add (unit : ℝ) (ms : List ℝ) (left acc : ℝ) : softLoop unit ms left acc = acc + softLoop unit ms left 0 := by
  induction ms generalizing left acc with
  | nil => simp [softLoop]
  | cons m ms ih =>
    simp only [softLoop]
    split
    · rw [ih, ih (left - unit) (0 + unit * m)]; ring
    · ring

theorem softLoop_abs {unit : ℝ} (hu : 0 < unit) (ms : List ℝ) (hm : ∀ m ∈ ms, |m| ≤ 2) (left : ℝ) (h0 : 0 < left) : |softLoop unit ms left 0| ≤ 2 * left := by
  induction ms generalizing left with
  | nil => simp [softLoop]; linarith
  | cons m ms ih =>
    have h1 := hm m (by simp)
    simp only [softLoop]
    split
    · rename_i hc
      have h2 := ih (fun x hx => hm x (List.mem_cons_of_mem _ hx)) (left - unit) (by linarith)
      rw [softLoop_add, zero_add]
      have h3 : |unit * m| ≤ unit * 2 := by rw [abs_mul, abs_of_pos hu]; gcongr
      calc _ ≤ |unit * m| + |softLoop unit ms (left - unit) 0| := abs_add_le _ _
        _ ≤ _ := by linarith
    · rw [zero_add, abs_mul, abs_of_pos h0]
      nlinarith

/-- One accumulation `acc + w * m`. -/
theorem acc_step {A w m : ℝ} (hA : |A| ≤ 5 / 2) (hw : 0 ≤ w) (hw1 : w ≤ 11 / 10) (hm : |m| ≤ 2) :
    ∃ r, add (fin A) (mul (fin w) (fin m)) = fin r ∧ |r - (A + w * m)| ≤ 10 * u := by
  have hu := u_small
  have hu0 := u_pos
  have hη := eta_le_u
  have h1 : |w * m| ≤ 11 / 5 := by
    rw [abs_mul, abs_of_nonneg hw]
    calc w * |m| ≤ 11 / 10 * 2 := mul_le_mul hw1 hm (abs_nonneg _) (by norm_num)
      _ = _ := by norm_num
  have e1 := round_err (w * m)
  have h2 : u * |w * m| ≤ u * (11 / 5) := by gcongr
  have h3 : |F64.round (w * m)| ≤ 23 / 10 := by
    have : |F64.round (w * m)| ≤ |F64.round (w * m) - w * m| + |w * m| := by simpa using abs_add_le (F64.round (w * m) - w * m) (w * m)
    linarith
  have h4 : |A + F64.round (w * m)| ≤ 5 := (abs_add_le _ _).trans (by linarith)
  have e2 := round_err (A + F64.round (w * m))
  have h5 : u * |A + F64.round (w * m)| ≤ u * 5 := by gcongr
  refine ⟨F64.round (A + F64.round (w * m)), ?_, ?_⟩
  · have : mul (fin w) (fin m) = fin (F64.round (w * m)) := by
      change rnd _ = _
      exact rnd_small (h1.trans (by norm_num))
    rw [this]
    change rnd _ = _
    exact rnd_small (h4.trans (by norm_num))
  · rw [abs_le] at e1 e2 ⊢
    constructor <;> linarith [e1.1, e1.2, e2.1, e2.2]

theorem sub_step {a b : ℝ} (ha : |a - b| ≤ 2) : ∃ r, sub (fin a) (fin b) = fin r ∧ |r - (a - b)| ≤ 3 * u ∧ (b ≤ a → 0 ≤ r) := by
  have hη := eta_le_u
  have hu0 := u_pos
  have e1 := round_err (a - b)
  have h2 : u * |a - b| ≤ u * 2 := by gcongr
  refine ⟨F64.round (a - b), ?_, by linarith, fun h => round_nonneg (by linarith)⟩
  change rnd (a + -b) = _
  rw [← sub_eq_add_neg]
  exact rnd_small (ha.trans (by norm_num))

theorem softLoopF_near {unit U : ℝ} (hu0 : 1 / 10 ^ 5 ≤ unit) (hu1 : unit ≤ 1) (hU : |U - unit| ≤ 2 * u) :
    ∀ (ms : List ℝ) (j : ℕ) (Lf A left acc : ℝ), (∀ m ∈ ms, |m| ≤ 2) → ms.length + j ≤ 10 ^ 5 → |Lf - left| ≤ 6 * u * j → 0 < left → left ≤ 1 → 0 ≤ Lf → |A - acc| ≤ 20 * u * j →
      |acc| ≤ 2 * (1 - left) → ∃ r, softLoopF (fin U) (ms.map fin) (fin Lf) (fin A) = fin r ∧ |r - softLoop unit ms left acc| ≤ 80 * u * 10 ^ 5 := by
  have hus := u_small
  have hup := u_pos
  intro ms
  induction ms with
  | nil =>
    intro j Lf A left acc _ hj _ _ _ _ hA _
    refine ⟨A, rfl, hA.trans ?_⟩
    have : (j : ℝ) ≤ 10 ^ 5 := by
      have : j ≤ 10 ^ 5 := by simpa using hj
      exact_mod_cast this
    have h1 : 20 * u * j ≤ 20 * u * 10 ^ 5 := by gcongr
    linarith
  | cons m ms ih =>
    intro j Lf A left acc hm hj hL h0 h1 hL0 hA hacc
    have hjl : ms.length + (j + 1) ≤ 10 ^ 5 := by simp only [List.length_cons] at hj; omega
    have hjn : ((j : ℝ) + 1) ≤ 10 ^ 5 := by
      have : j + 1 ≤ 10 ^ 5 := by omega
      exact_mod_cast this
    have hj0 : (0 : ℝ) ≤ j := Nat.cast_nonneg j
    have hm1 := hm m (by simp)
    have hm' : ∀ x ∈ ms, |x| ≤ 2 := fun x hx => hm x (List.mem_cons_of_mem _ hx)
    obtain ⟨k, hk⟩ : ∃ k, k = u * j := ⟨_, rfl⟩
    have hk0 : 0 ≤ k := by rw [hk]; positivity
    have hkn : k + u ≤ u * 10 ^ 5 := by rw [hk]; nlinarith
    have hkN : u * 10 ^ 5 ≤ 2 / 10 ^ 11 := by
      have : u * 10 ^ 5 ≤ 1 / 9000000000000000 * 10 ^ 5 := by gcongr
      exact this.trans (by norm_num)
    rw [show 6 * u * (j : ℝ) = 6 * k by rw [hk]; ring, abs_le] at hL
    rw [show 20 * u * (j : ℝ) = 20 * k by rw [hk]; ring] at hA
    rw [abs_le] at hU
    norm_num at hkN hu0 hkn
    have hA2 : |A| ≤ 5 / 2 := by
      have : |A| ≤ |A - acc| + |acc| := by simpa using abs_add_le (A - acc) acc
      linarith
    have hA' := abs_le.mp hA
    have hmm := abs_le.mp hm1
    norm_num
    by_cases hc : U < Lf
    · have e : softLoopF (fin U) (fin m :: ms.map fin) (fin Lf) (fin A) = softLoopF (fin U) (ms.map fin) (sub (fin Lf) (fin U)) (add (fin A) (mul (fin U) (fin m))) := by
        rw [softLoopF]
        exact if_pos hc
      obtain ⟨A', a1, a2⟩ := acc_step (A := A) (w := U) (m := m) hA2 (by linarith) (by linarith) hm1
      obtain ⟨L', l1, l2, l3⟩ := sub_step (a := Lf) (b := U) (by rw [abs_le]; constructor <;> linarith)
      have l3 := l3 hc.le
      rw [abs_le] at l2
      have hUm : |U * m - unit * m| ≤ 4 * u := by
        rw [← sub_mul, abs_mul]
        calc |U - unit| * |m| ≤ (2 * u) * 2 := mul_le_mul (abs_le.mpr hU) hm1 (abs_nonneg _) (by positivity)
          _ = _ := by ring
      have hUm' := abs_le.mp hUm
      have a2' := abs_le.mp a2
      have hA3 : |A' - (acc + unit * m)| ≤ 20 * k + 14 * u := by
        rw [abs_le]; constructor <;> linarith
      rw [e, a1, l1]
      by_cases hx : unit < left
      · have ex : softLoop unit (m :: ms) left acc = softLoop unit ms (left - unit) (acc + unit * m) := by
          simp only [softLoop]
          exact if_pos hx
        rw [ex]
        obtain ⟨r, r1, r2⟩ := ih (j + 1) L' A' (left - unit) (acc + unit * m) hm' hjl
          (by push_cast; rw [show 6 * u * ((j : ℝ) + 1) = 6 * k + 6 * u by rw [hk]; ring, abs_le]; constructor <;> linarith)
          (by linarith) (by linarith) l3
          (by push_cast; rw [show 20 * u * ((j : ℝ) + 1) = 20 * k + 20 * u by rw [hk]; ring]; linarith)
          (by
            have : |unit * m| ≤ unit * 2 := by rw [abs_mul, abs_of_pos (by linarith)]; gcongr
            calc _ ≤ |acc| + |unit * m| := abs_add_le _ _
              _ ≤ _ := by linarith)
        norm_num at r2
        exact ⟨r, r1, r2⟩
      · have ex : softLoop unit (m :: ms) left acc = acc + left * m := by
          simp only [softLoop]
          exact if_neg hx
        rw [ex]
        have hx := not_lt.mp hx
        have hd : |unit * m - left * m| ≤ 12 * k + 4 * u := by
          rw [← sub_mul, abs_mul, abs_of_nonneg (by linarith)]
          calc (unit - left) * |m| ≤ (6 * k + 2 * u) * 2 := mul_le_mul (by linarith) hm1 (abs_nonneg _) (by positivity)
            _ = _ := by ring
        have hd' := abs_le.mp hd
        have hA3' := abs_le.mp hA3
        cases ms with
        | nil =>
          refine ⟨A', rfl, ?_⟩
          rw [abs_le]
          constructor <;> linarith
        | cons m2 ms =>
          have hL' : L' ≤ U := by linarith
          have hm2 := hm' m2 (by simp)
          obtain ⟨r, r1, r2⟩ := acc_step (A := A') (w := L') (m := m2)
            (by
              have : |unit * m| ≤ unit * 2 := by rw [abs_mul, abs_of_pos (by linarith)]; gcongr
              have := abs_le.mp this
              have := abs_le.mp hacc
              rw [abs_le]
              constructor <;> linarith) l3 (by linarith) hm2
          refine ⟨r, ?_, ?_⟩
          · rw [List.map_cons, softLoopF]
            exact (if_neg (not_lt.mpr hL')).trans r1
          · have h2 : |L' * m2| ≤ 12 * k + 12 * u := by
              rw [abs_mul, abs_of_nonneg l3]
              calc L' * |m2| ≤ (6 * k + 6 * u) * 2 := mul_le_mul (by linarith) hm2 (abs_nonneg _) (by positivity)
                _ = _ := by ring
            have h2 := abs_le.mp h2
            have r2 := abs_le.mp r2
            rw [abs_le]
            constructor <;> linarith
    · have hc' := not_lt.mp hc
      have e : softLoopF (fin U) (fin m :: ms.map fin) (fin Lf) (fin A) = add (fin A) (mul (fin Lf) (fin m)) := by
        rw [softLoopF]
        exact if_neg hc
      obtain ⟨r, a1, a2⟩ := acc_step (A := A) (w := Lf) (m := m) hA2 hL0 (by linarith) hm1
      rw [e, a1]
      refine ⟨r, rfl, ?_⟩
      have a2 := abs_le.mp a2
      by_cases hx : unit < left
      · have ex : softLoop unit (m :: ms) left acc = softLoop unit ms (left - unit) (acc + unit * m) := by
          simp only [softLoop]
          exact if_pos hx
        rw [ex, softLoop_add]
        have hS := abs_le.mp (softLoop_abs (unit := unit) (by linarith) ms hm' (left - unit) (by linarith))
        have hd : |Lf * m - unit * m| ≤ 12 * k + 4 * u := by
          rw [← sub_mul, abs_mul]
          calc |Lf - unit| * |m| ≤ (6 * k + 2 * u) * 2 := mul_le_mul (by rw [abs_le]; constructor <;> linarith) hm1 (abs_nonneg _) (by positivity)
            _ = _ := by ring
        have hd := abs_le.mp hd
        rw [abs_le]
        constructor <;> linarith
      · have ex : softLoop unit (m :: ms) left acc = acc + left * m := by
          simp only [softLoop]
          exact if_neg hx
        rw [ex]
        have hd : |Lf * m - left * m| ≤ 12 * k := by
          rw [← sub_mul, abs_mul]
          calc |Lf - left| * |m| ≤ (6 * k) * 2 := mul_le_mul (by rw [abs_le]; constructor <;> linarith) hm1 (abs_nonneg _) (by positivity)
            _ = _ := by ring
        have hd := abs_le.mp hd
        rw [abs_le]
        constructor <;> linarith

end Miniboosts.F64
