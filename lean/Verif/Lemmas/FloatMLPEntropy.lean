import Verif.Lemmas.FloatMLP

/-! # MLPBoost in `f64`: the check of the weights, the entropy and the smoothed objective -/

namespace Miniboosts

namespace F64

/-- Weights that pass the check of the booster. -/
theorem check_weights {w : List F64} (hl : w.length ≤ 3 * 10 ^ 7) (h : checkCapped w (fin 1) = .ok ()) :
    ∃ ws : List ℝ, w = ws.map fin ∧ (∀ x ∈ ws, 0 ≤ x ∧ x ≤ 1) ∧ |ws.sum - 1| ≤ 2 / 10 ^ 5 := by
  classical
  have hu := u_small
  have hu0 := u_pos
  have hη := eta_le_u
  have hdiv : div (fin 1) (fin 1) = fin 1 := by
    show (if (1 : ℝ) = 0 then _ else rnd (1 / 1)) = _
    rw [if_neg one_ne_zero, div_one, rnd_small (by norm_num), round_of_rep rep_one]
  unfold checkCapped at h
  split at h
  · split at h
    · rename_i hsum
      split at h
      · rename_i hall
        rw [hdiv] at hall
        have hws : ∃ ws : List ℝ, w = ws.map fin ∧ ∀ x ∈ ws, 0 ≤ x ∧ x ≤ 1 := by
          clear hsum hl h
          revert hall
          clear * -
          intro hall
          induction w with
          | nil => exact ⟨[], rfl, by simp⟩
          | cons a w ih =>
            obtain ⟨ws, h1, h2⟩ := ih fun s hs => hall s (List.mem_cons_of_mem _ hs)
            obtain ⟨x, x1, x2, x3⟩ := step_fin (hall a (by simp)).1 (hall a (by simp)).2
            refine ⟨x :: ws, by rw [x1, h1]; rfl, ?_⟩
            intro y hy
            rcases List.mem_cons.mp hy with rfl | hy
            · exact ⟨x2, x3⟩
            · exact h2 y hy
        obtain ⟨ws, rfl, h2⟩ := hws
        rw [List.length_map] at hl
        have hlr : (ws.length : ℝ) ≤ 3 * 10 ^ 7 := by exact_mod_cast hl
        have habs : ws.map (|·|) = ws := by
          conv_rhs => rw [← List.map_id ws]
          exact List.map_congr_left fun x hx => abs_of_nonneg (h2 x hx).1
        have hsl : ws.sum ≤ ws.length := by
          have := List.sum_le_card_nsmul ws 1 fun x hx => (h2 x hx).2
          simpa using this
        have key : ∀ B : ℝ, 1 ≤ B → B ≤ 10 ^ 10 → ws.sum ≤ B → ∃ s, (ws.map fin).foldl add (fin 0) = fin s ∧ |s - ws.sum| ≤ 2 * u * B * ws.length := by
          intro B b1 b2 b3
          obtain ⟨z, z1, -, z3⟩ := foldl_add_long B b1 b2 ws 0 0 0 rep_zero (by simp) (by rw [abs_zero, zero_add, habs]; exact b3) (by omega)
          exact ⟨z, z1, by simpa using z3⟩
        obtain ⟨z, z1, z2⟩ := key (3 * 10 ^ 7) (by norm_num) (by norm_num) (by linarith)
        have z3 : |z - ws.sum| ≤ 2 / 10 := by
          refine z2.trans ?_
          calc 2 * u * (3 * 10 ^ 7) * (ws.length : ℝ) ≤ 2 * (1 / 9000000000000000) * (3 * 10 ^ 7) * (3 * 10 ^ 7) := by gcongr
            _ ≤ _ := by norm_num
        have hs0 : 0 ≤ ws.sum := List.sum_nonneg fun x hx => (h2 x hx).1
        have z3' := abs_le.mp z3
        have hzb : |z + -1| ≤ 10 ^ 8 := by rw [abs_le]; constructor <;> linarith
        rw [z1] at hsum
        have hsub : sub (fin z) (fin 1) = fin (round (z + -1)) := rnd_small (hzb.trans (by norm_num))
        have htol : rnd (1 / 10 ^ 5) = fin (round (1 / 10 ^ 5)) := rnd_small (by rw [abs_of_pos (by positivity)]; norm_num)
        rw [hsub, htol] at hsum
        have hlt : |round (z + -1)| < round (1 / 10 ^ 5) := hsum
        have e1 := abs_le.mp (round_err (1 / 10 ^ 5 : ℝ))
        have e2 := abs_le.mp (round_err (z + -1))
        rw [abs_of_pos (by positivity)] at e1
        have e3 : u * (1 / 10 ^ 5) ≤ 1 / 10 ^ 15 := by norm_num; linarith
        have e4 : u * |z + -1| ≤ (1 / 9000000000000000) * 10 ^ 8 := mul_le_mul hu hzb (abs_nonneg _) (by norm_num)
        have hlt' := abs_lt.mp hlt
        have hz1 : |z + -1| ≤ 1 := by rw [abs_le]; constructor <;> (norm_num at *; linarith)
        have e5 : u * |z + -1| ≤ u * 1 := mul_le_mul_of_nonneg_left hz1 hu0.le
        have hsm : ws.sum ≤ 3 := by have := abs_le.mp hz1; linarith
        obtain ⟨z', y1, y2⟩ := key 3 (by norm_num) (by norm_num) hsm
        have hzz : z' = z := by rw [z1] at y1; injection y1 with y1; exact y1.symm
        subst hzz
        have y3 : |z' - ws.sum| ≤ 1 / 10 ^ 6 := by
          refine y2.trans ?_
          calc 2 * u * 3 * (ws.length : ℝ) ≤ 2 * (1 / 9000000000000000) * 3 * (3 * 10 ^ 7) := by gcongr
            _ ≤ _ := by norm_num
        have y3' := abs_le.mp y3
        refine ⟨ws, rfl, h2, ?_⟩
        rw [abs_le]
        constructor <;> (norm_num at *; linarith)
      · cases h
    · cases h
  · cases h

/-- The change of `x ln x`, from above. -/
theorem xlog_sub_le {x y : ℝ} (hx : 0 ≤ x) (hx1 : x ≤ 2) (hy : 0 ≤ y) (hy1 : y ≤ 1) : x * Real.log x - y * Real.log y ≤ 26 * |x - y| + 25 * Real.exp (-25) := by
  set t := Real.exp (-25) with ht
  have ht0 : 0 < t := Real.exp_pos _
  have hlt : Real.log t = -25 := Real.log_exp _
  have ht1 : t ≤ 1 := by rw [ht]; exact Real.exp_le_one_iff.2 (by norm_num)
  have hylog : y * Real.log y ≤ 0 := mul_nonpos_of_nonneg_of_nonpos hy (Real.log_nonpos hy hy1)
  have hd := abs_nonneg (x - y)
  have hd1 := le_abs_self (x - y)
  have hd2 := neg_abs_le (x - y)
  by_cases hxt : t ≤ x
  · have hx0 : 0 < x := lt_of_lt_of_le ht0 hxt
    have hl1 : -25 ≤ Real.log x := by rw [← hlt]; exact Real.log_le_log ht0 hxt
    have hl2 : Real.log x ≤ 1 := by have := Real.log_le_sub_one_of_pos hx0; linarith
    have hcv : x * Real.log x - y * Real.log y ≤ (1 + Real.log x) * (x - y) := by
      rcases hy.eq_or_lt with rfl | hy0
      · simp; nlinarith
      · have h1 := Real.log_le_sub_one_of_pos (div_pos hx0 hy0)
        rw [Real.log_div hx0.ne' hy0.ne'] at h1
        have h2 : y * (Real.log x - Real.log y) ≤ y * (x / y - 1) := mul_le_mul_of_nonneg_left h1 hy
        have h3 : y * (x / y - 1) = x - y := by field_simp
        linarith
    have h5 : (1 + Real.log x) * (x - y) ≤ 26 * |x - y| := by
      calc (1 + Real.log x) * (x - y) ≤ |(1 + Real.log x) * (x - y)| := le_abs_self _
        _ = |1 + Real.log x| * |x - y| := abs_mul _ _
        _ ≤ _ := mul_le_mul_of_nonneg_right (by rw [abs_le]; constructor <;> linarith) hd
    linarith
  · have hxt' : x < t := not_le.1 hxt
    have hxl : x * Real.log x ≤ 0 := mul_nonpos_of_nonneg_of_nonpos hx (Real.log_nonpos hx (by linarith))
    by_cases hyt : t ≤ y
    · have hl1 : -25 ≤ Real.log y := by rw [← hlt]; exact Real.log_le_log ht0 hyt
      have : -(y * Real.log y) ≤ 25 * y := by nlinarith
      linarith
    · have hyt' : y < t := not_le.1 hyt
      rcases hy.eq_or_lt with rfl | hy0
      · simp at *; linarith
      · have h1 := Real.log_le_sub_one_of_pos (div_pos ht0 hy0)
        rw [Real.log_div ht0.ne' hy0.ne', hlt] at h1
        have h2 : y * (-25 - Real.log y) ≤ y * (t / y - 1) := mul_le_mul_of_nonneg_left h1 hy
        have h3 : y * (t / y - 1) = t - y := by field_simp
        linarith

/-- The sum of `x ln x`. -/
noncomputable def xlogs (xs : List ℝ) : ℝ := (xs.map fun x => x * Real.log x).sum

theorem xlogs_sub_le : ∀ xs ys : List ℝ, xs.length = ys.length → (∀ x ∈ xs, 0 ≤ x ∧ x ≤ 2) → (∀ y ∈ ys, 0 ≤ y ∧ y ≤ 1) →
    xlogs xs - xlogs ys ≤ 26 * Spec.dist1 xs ys + xs.length * (25 * Real.exp (-25)) := by
  intro xs
  induction xs with
  | nil => intro ys h _ _; rw [List.length_nil] at h; rw [List.length_eq_zero_iff.mp h.symm]; simp [xlogs, Spec.dist1]
  | cons x xs ih =>
    intro ys h hx hy
    cases ys with
    | nil => simp at h
    | cons y ys =>
      have i := ih ys (by simpa using h) (fun z hz => hx z (List.mem_cons_of_mem _ hz)) (fun z hz => hy z (List.mem_cons_of_mem _ hz))
      have j := xlog_sub_le (hx x (by simp)).1 (hx x (by simp)).2 (hy y (by simp)).1 (hy y (by simp)).2
      simp only [xlogs, Spec.dist1, List.map_cons, List.sum_cons, List.zipWith_cons_cons, List.length_cons] at i ⊢
      push_cast
      linarith

theorem exp25 : Real.exp (-25) ≤ 17 / 10 ^ 12 := by
  have h1 : Real.exp (-25) = (Real.exp 1 ^ 25)⁻¹ := by rw [← Real.exp_nat_mul, ← Real.exp_neg]; norm_num
  rw [h1]
  have h2 : (27 / 10 : ℝ) ≤ Real.exp 1 := by have := Real.exp_one_gt_d9; linarith
  have h3 : ((27 : ℝ) / 10) ^ 25 ≤ Real.exp 1 ^ 25 := by gcongr
  calc (Real.exp 1 ^ 25)⁻¹ ≤ (((27 : ℝ) / 10) ^ 25)⁻¹ := inv_anti₀ (by positivity) h3
    _ ≤ _ := by norm_num

variable {X H : Type*} [Classifier H X F64]

/-- The margins under any capped distribution, with the entropy of the computed weights. -/
theorem capped_margin_ent {S : List (X × ℝ)} (hne : S ≠ []) (hn : S.length ≤ 10 ^ 5) {a : X × ℝ → ℝ} (ha : ∀ e ∈ S, |a e| ≤ 101 / 100) {η nu : ℝ} (h1 : 1 / 100 ≤ η) (h2 : η ≤ 9000) (hnu : 1 ≤ nu)
    {xs p q : List ℝ} (hl : xs.length = S.length) (hx : ∀ x ∈ xs, 0 ≤ x ∧ x ≤ 2) (hp : Spec.IsEntropyProjection nu (S.map fun e => round (-η * a e)) p) (hd : Spec.dist1 xs p ≤ 3 / 10 ^ 5)
    (hq : q.length = S.length) (hc : Spec.IsCapped nu q) :
    (List.zipWith (fun x e => x * a e) xs S).sum + (xlogs xs + Real.log S.length) / η - Real.log (S.length / nu) / η - 4 / 10 ^ 5 - 83 / 10 ^ 5 / η ≤ (List.zipWith (fun x e => x * a e) q S).sum := by
  have hu := u_small
  have hu0 := u_pos
  have hη := eta_le_u
  have hη0 : 0 < η := by linarith
  have hnu0 : 0 < nu := by linarith
  have hpl : p.length = S.length := by rw [hp.1, List.length_map]
  have hδ : ∀ e ∈ S, |round (-η * a e) - -η * a e| ≤ 1 / 10 ^ 10 := by
    intro e he'
    refine (round_err _).trans ?_
    have h3 : |-η * a e| ≤ 9500 := by
      rw [abs_mul, abs_neg, abs_of_pos hη0]
      have := ha e he'
      calc η * |a e| ≤ 9000 * (101 / 100) := by gcongr
        _ ≤ _ := by norm_num
    have h4 : u * |-η * a e| ≤ (1 / 9000000000000000) * 9500 := mul_le_mul hu h3 (abs_nonneg _) (by norm_num)
    have : (1 : ℝ) / 9000000000000000 * 9500 + 1 / 9000000000000000 ≤ 1 / 10 ^ 10 := by norm_num
    linarith
  have hlin : ∀ (ys : List ℝ) (S : List (X × ℝ)), (List.zipWith (fun x e => x * (-η * a e)) ys S).sum = -η * (List.zipWith (fun x e => x * a e) ys S).sum := by
    intro ys
    induction ys with
    | nil => simp
    | cons y ys ih =>
      intro S
      cases S with
      | nil => simp
      | cons e S => simp only [List.zipWith_cons_cons, List.sum_cons, ih]; ring
  have hne' : (S.map fun e => round (-η * a e)) ≠ [] := by simpa using hne
  have m := hp.2.2 q (by simpa using hq) hc
  rw [relEnt_softmax hne' p hp.1, relEnt_softmax hne' q (by simpa using hq), hp.2.1.2, hc.2, List.zipWith_map_right, List.zipWith_map_right] at m
  have mq := entropy_le hnu0 q hc.1
  rw [hc.2] at mq
  have m1 := abs_le.mp (zipSum_close (fun e => round (-η * a e)) (fun e => -η * a e) (1 / 10 ^ 10) S p hδ (fun x hx => (hp.2.1.1 x hx).1) hpl)
  have m2 := abs_le.mp (zipSum_close (fun e => round (-η * a e)) (fun e => -η * a e) (1 / 10 ^ 10) S q hδ (fun x hx => (hc.1 x hx).1) hq)
  rw [hp.2.1.2, mul_one, hlin] at m1
  rw [hc.2, mul_one, hlin] at m2
  have m5 := abs_le.mp (zipSum_dist a (101 / 100) S xs p ha hl hpl)
  have hp1 : ∀ y ∈ p, 0 ≤ y ∧ y ≤ 1 := fun y hy => ⟨(hp.2.1.1 y hy).1, (hp.2.1.1 y hy).2.trans (by rw [div_le_one hnu0]; exact hnu)⟩
  have m8 := xlogs_sub_le xs p (by rw [hl, hpl]) hx hp1
  have m9 : (xs.length : ℝ) * (25 * Real.exp (-25)) ≤ 10 ^ 5 * (25 * (17 / 10 ^ 12)) := by
    have := exp25
    have hx5 : (xs.length : ℝ) ≤ 10 ^ 5 := by rw [hl]; exact_mod_cast hn
    have := Real.exp_pos (-25)
    gcongr
  set sp := (List.zipWith (fun x e => x * a e) p S).sum with hsp
  set sq := (List.zipWith (fun x e => x * a e) q S).sum with hsq
  set sx := (List.zipWith (fun x e => x * a e) xs S).sum with hsx
  have hN : (0 : ℝ) < S.length := by exact_mod_cast List.length_pos_of_ne_nil hne
  have m6 : η * sp + xlogs xs + Real.log nu - 825 / 10 ^ 6 ≤ η * sq := by
    unfold xlogs at m8 ⊢
    norm_num at m9 hd ⊢
    linarith [m1.1, m1.2, m2.1, m2.2]
  have m10 : sx - sp ≤ 101 / 100 * (3 / 10 ^ 5) := m5.2.trans (by gcongr)
  rw [Real.log_div hN.ne' hnu0.ne']
  have h3 : η * (sx + (xlogs xs + Real.log S.length) / η - (Real.log S.length - Real.log nu) / η - 4 / 10 ^ 5 - 83 / 10 ^ 5 / η) ≤ η * sq := by
    have h4 : η * (sx + (xlogs xs + Real.log S.length) / η - (Real.log S.length - Real.log nu) / η - 4 / 10 ^ 5 - 83 / 10 ^ 5 / η) =
      η * (sx - 4 / 10 ^ 5) + xlogs xs + Real.log nu - 83 / 10 ^ 5 := by field_simp; ring
    rw [h4]
    have h5 : η * (sx - 4 / 10 ^ 5) ≤ η * sp := mul_le_mul_of_nonneg_left (by linarith) hη0.le
    linarith
  exact le_of_mul_le_mul_left h3 hη0

/-- The entropy of computed weights, in `f64`. -/
theorem entropyFromUni_near (L : Libm) {xs : List ℝ} (hne : xs ≠ []) (hn : xs.length ≤ 10 ^ 5) (hx : ∀ x ∈ xs, 0 ≤ x ∧ x ≤ 2 ∧ Rep x) (hs : xs.sum ≤ 3 / 2) :
    ∃ v, entropyFromUni L (xs.map fin) = fin v ∧ |v - (xlogs xs + Real.log xs.length)| ≤ 1 / 10 ^ 6 ∧ |v| ≤ 2000 := by
  classical
  have hu := u_small
  have hu0 := u_pos
  have hη := eta_tiny
  have hη0 := eta_pos
  have hterm : ∀ x : ℝ, ∃ t : ℝ, x ∈ xs → (if fin x = fin 0 then fin 0 else mul (fin x) (ln L (fin x))) = fin t ∧ |t - x * Real.log x| ≤ 1 / 10 ^ 11 * x + 1 / 10 ^ 50 ∧ |x * Real.log x| ≤ 800 * x := by
    intro x
    by_cases hm : x ∈ xs
    swap
    · exact ⟨0, fun h => absurd h hm⟩
    obtain ⟨x0, x1, x2⟩ := hx x hm
    rcases x0.eq_or_lt with rfl | hx0
    · exact ⟨0, fun _ => ⟨if_pos rfl, by simp, by simp⟩⟩
    have hge := rep_pos x2 hx0
    have h2e : (2 : ℝ) * eta = 2 ^ (-1074 : ℤ) := by
      unfold eta
      rw [show (2 : ℝ) * 2 ^ (-1075 : ℤ) = 2 ^ (1 : ℤ) * 2 ^ (-1075 : ℤ) by norm_num, ← zpow_add₀ (by norm_num)]
      norm_num
    have hlog1 : -800 ≤ Real.log x := by
      have h3 := Real.log_le_log (by positivity) hge
      rw [h2e, Real.log_zpow] at h3
      have := Real.log_two_lt_d9
      push_cast at h3
      linarith
    have hlog2 : Real.log x ≤ 1 := by have := Real.log_le_sub_one_of_pos hx0; linarith
    have hla : |Real.log x| ≤ 800 := by rw [abs_le]; constructor <;> linarith
    obtain ⟨y, y1, y2⟩ := ln_fin L hx0 (hla.trans (by norm_num))
    have y3 : |y - Real.log x| ≤ 1 / 10 ^ 12 := by
      refine y2.trans ?_
      calc 10 * u * |Real.log x| + eta ≤ 10 * (1 / 9000000000000000) * 800 + 1 / 10 ^ 60 := by gcongr
        _ ≤ _ := by norm_num
    have y4 : |y| ≤ 801 := by
      have h3 := abs_le.mp y3
      have h4 := abs_le.mp hla
      rw [abs_le]; constructor <;> linarith
    have hxy : |x * y| ≤ x * 801 := by rw [abs_mul, abs_of_pos hx0]; gcongr
    refine ⟨round (x * y), fun _ => ⟨?_, ?_, by rw [abs_mul, abs_of_pos hx0]; nlinarith⟩⟩
    · rw [if_neg (by intro h; injection h with h; exact hx0.ne' h), y1]
      exact rnd_small (hxy.trans (by norm_num; linarith))
    · have e1 := abs_le.mp (round_err (x * y))
      have e2 : u * |x * y| ≤ (1 / 9000000000000000) * (x * 801) := mul_le_mul hu hxy (abs_nonneg _) (by norm_num)
      have e3 : |x * y - x * Real.log x| ≤ x * (1 / 10 ^ 12) := by rw [← mul_sub, abs_mul, abs_of_pos hx0]; gcongr
      have e3' := abs_le.mp e3
      have e4 : eta ≤ 1 / 10 ^ 50 := hη.trans (by norm_num)
      have e5 : (1 / 9000000000000000) * (x * 801) + x * (1 / 10 ^ 12) ≤ 1 / 10 ^ 11 * x := by nlinarith
      rw [abs_le]; constructor <;> linarith [e1.1, e1.2, e3'.1, e3'.2]
  choose t ht using hterm
  have hlr : (xs.length : ℝ) ≤ 10 ^ 5 := by exact_mod_cast hn
  have hlist : ((xs.map fin).map fun d => if d = fin 0 then fin 0 else mul d (ln L d)) = (xs.map t).map fin := by
    rw [List.map_map, List.map_map]
    exact List.map_congr_left fun x hx => (ht x hx).1
  have hsums : ∀ l : List ℝ, (∀ x ∈ l, x ∈ xs) → |(l.map t).sum - xlogs l| ≤ 1 / 10 ^ 11 * l.sum + l.length * (1 / 10 ^ 50) ∧ ((l.map t).map (|·|)).sum ≤ 801 * l.sum + l.length * (1 / 10 ^ 50) ∧ 0 ≤ l.sum ∧
      |xlogs l| ≤ 800 * l.sum := by
    intro l
    induction l with
    | nil => intro _; simp [xlogs]
    | cons x l ih =>
      intro h
      obtain ⟨i1, i2, i3, i4⟩ := ih fun y hy => h y (List.mem_cons_of_mem _ hy)
      have hm := h x (by simp)
      obtain ⟨-, j1, j2⟩ := ht x hm
      have hx0 := (hx x hm).1
      have i1' := abs_le.mp i1
      have j1' := abs_le.mp j1
      have j2' := abs_le.mp j2
      have i4' := abs_le.mp i4
      have j3 : |t x| ≤ 801 * x + 1 / 10 ^ 50 := by rw [abs_le]; constructor <;> nlinarith
      simp only [xlogs, List.map_cons, List.sum_cons, List.length_cons] at i1' i2 i4' ⊢
      push_cast
      refine ⟨?_, by linarith, by linarith, ?_⟩
      · rw [abs_le]; constructor <;> linarith [i1'.1, i1'.2, j1'.1, j1'.2]
      · rw [abs_le]; constructor <;> linarith [i4'.1, i4'.2, j2'.1, j2'.2]
  obtain ⟨g1, g2, g3, g4⟩ := hsums xs fun x h => h
  have hl50 : (xs.length : ℝ) * (1 / 10 ^ 50) ≤ 10 ^ 5 * (1 / 10 ^ 50) := by gcongr
  obtain ⟨z, z1, -, z3⟩ := foldl_add_long 1300 (by norm_num) (by norm_num) (xs.map t) 0 0 0 rep_zero (by simp) (by rw [abs_zero, zero_add]; have := hl50.trans (by norm_num : (10 : ℝ) ^ 5 * (1 / 10 ^ 50) ≤ 1); linarith)
    (by rw [List.length_map]; omega)
  simp only [zero_add, List.length_map] at z3
  have z4 : |z - (xs.map t).sum| ≤ 1 / 10 ^ 7 := by
    refine z3.trans ?_
    calc 2 * u * 1300 * (xs.length : ℝ) ≤ 2 * (1 / 9000000000000000) * 1300 * 10 ^ 5 := by gcongr
      _ ≤ _ := by norm_num
  have z4' := abs_le.mp z4
  have g1' := abs_le.mp g1
  have g4' := abs_le.mp g4
  have hN0 : (1 : ℝ) ≤ xs.length := by exact_mod_cast List.length_pos_of_ne_nil hne
  have hlogN : Real.log xs.length ≤ 12 := by
    rw [Real.log_le_iff_le_exp (by linarith)]
    refine hlr.trans ?_
    have h1 : Real.exp 12 = Real.exp 1 ^ 12 := by rw [← Real.exp_nat_mul]; norm_num
    rw [h1]
    have h2 : (27 / 10 : ℝ) ≤ Real.exp 1 := by have := Real.exp_one_gt_d9; linarith
    calc (10 : ℝ) ^ 5 ≤ (27 / 10) ^ 12 := by norm_num
      _ ≤ _ := by gcongr
  have hlogN0 : 0 ≤ Real.log xs.length := Real.log_nonneg hN0
  have hla : |Real.log xs.length| ≤ 12 := by rw [abs_of_nonneg hlogN0]; exact hlogN
  obtain ⟨y, y1, y2⟩ := ln_fin L (by linarith : (0 : ℝ) < xs.length) (hla.trans (by norm_num))
  have y3 : |y - Real.log xs.length| ≤ 1 / 10 ^ 12 := by
    refine y2.trans ?_
    calc 10 * u * |Real.log xs.length| + eta ≤ 10 * (1 / 9000000000000000) * 12 + 1 / 10 ^ 60 := by gcongr
      _ ≤ _ := by norm_num
  have y3' := abs_le.mp y3
  have hzy : |z + y| ≤ 1900 := by rw [abs_le]; constructor <;> (norm_num at *; linarith)
  have e := (round_err (z + y)).trans (add_le_add (mul_le_mul hu hzy (abs_nonneg _) (by norm_num)) hη)
  have e' := abs_le.mp e
  have hzy' := abs_le.mp hzy
  refine ⟨round (z + y), ?_, ?_, ?_⟩
  · unfold entropyFromUni entropy
    rw [hlist, z1, List.length_map, rnd_nat_long (by omega), y1]
    exact rnd_small (hzy.trans (by norm_num))
  · rw [abs_le]; constructor <;> (norm_num at *; linarith)
  · rw [abs_le]; constructor <;> (norm_num at *; linarith)

end F64

end Miniboosts
