import Verif.Lemmas.FloatCERLPRun
import Verif.Lemmas.Entropy

/-! # CERLPBoost in `f64` with a cap -/

namespace Miniboosts

namespace F64

/-- The relative entropy to a softmax. -/
theorem relEnt_softmax {logs : List ℝ} (hne : logs ≠ []) : ∀ p : List ℝ, p.length = logs.length →
    Spec.relEnt p (Spec.softmax logs) = (p.map fun x => x * Real.log x).sum - (List.zipWith (· * ·) p logs).sum + p.sum * Real.log (logs.map Real.exp).sum := by
  obtain ⟨l₀, rest, hl⟩ := List.exists_cons_of_ne_nil hne
  have hZ : 0 < (logs.map Real.exp).sum := by
    refine lt_of_lt_of_le (Real.exp_pos l₀) (List.single_le_sum ?_ _ (List.mem_map_of_mem (by rw [hl]; simp)))
    intro x hx; obtain ⟨y, -, rfl⟩ := List.mem_map.mp hx; exact (Real.exp_pos y).le
  set Z := (logs.map Real.exp).sum with hZd
  have : ∀ (ls p : List ℝ), p.length = ls.length → Spec.relEnt p (ls.map fun a => Real.exp a / Z) =
      (p.map fun x => x * Real.log x).sum - (List.zipWith (· * ·) p ls).sum + p.sum * Real.log Z := by
    intro ls
    induction ls with
    | nil => intro p hp; simp [List.length_eq_zero_iff.mp hp, Spec.relEnt]
    | cons l ls ih =>
      intro p hp
      cases p with
      | nil => simp at hp
      | cons x p =>
        have i := ih p (by simpa using hp)
        rw [List.map_cons, relEnt_cons, i]
        simp only [List.map_cons, List.sum_cons, List.zipWith_cons_cons, klTerm]
        by_cases hx : x = 0
        · simp [hx]
        · rw [if_neg hx, Real.log_div hx (div_pos (Real.exp_pos l) hZ).ne', Real.log_div (Real.exp_pos l).ne' hZ.ne', Real.log_exp]
          ring
  intro p hp
  exact this logs p hp

theorem entropy_ge {n : ℝ} (hn : 0 < n) : ∀ p : List ℝ, (∀ x ∈ p, 0 ≤ x) → p.sum - p.length / n - p.sum * Real.log n ≤ (p.map fun x => x * Real.log x).sum := by
  intro p
  induction p with
  | nil => simp
  | cons x p ih =>
    intro h
    have i := ih fun y hy => h y (List.mem_cons_of_mem _ hy)
    have hx := h x (by simp)
    have h1 : x - 1 / n - x * Real.log n ≤ x * Real.log x := by
      rcases hx.eq_or_lt with rfl | hx
      · simp; positivity
      · have := Real.one_sub_inv_le_log_of_pos (mul_pos hx hn)
        rw [Real.log_mul hx.ne' hn.ne'] at this
        have h2 := mul_le_mul_of_nonneg_left this hx.le
        have h3 : x * (1 - (x * n)⁻¹) = x - 1 / n := by field_simp
        rw [h3] at h2
        linarith
    simp only [List.map_cons, List.sum_cons, List.length_cons]
    push_cast
    have h4 : ((p.length : ℝ) + 1) / n = p.length / n + 1 / n := add_div _ _ _
    rw [h4]
    linarith

theorem entropy_le {nu : ℝ} (hn : 0 < nu) : ∀ q : List ℝ, (∀ x ∈ q, 0 ≤ x ∧ x ≤ 1 / nu) → (q.map fun x => x * Real.log x).sum ≤ -(q.sum * Real.log nu) := by
  intro q
  induction q with
  | nil => simp
  | cons x q ih =>
    intro h
    have i := ih fun y hy => h y (List.mem_cons_of_mem _ hy)
    obtain ⟨hx, hx'⟩ := h x (by simp)
    have h1 : x * Real.log x ≤ -(x * Real.log nu) := by
      rcases hx.eq_or_lt with rfl | hx
      · simp
      · have := Real.log_le_log hx hx'
        rw [one_div, Real.log_inv] at this
        nlinarith
    simp only [List.map_cons, List.sum_cons]
    linarith

/-- An entropy projection onto the capped simplex has almost the largest mean. -/
theorem capped_mean {nu : ℝ} (hnu : 0 < nu) {logs p q : List ℝ} (hne : logs ≠ []) (hp : Spec.IsEntropyProjection nu logs p) (hq : q.length = logs.length) (hc : Spec.IsCapped nu q) :
    (List.zipWith (· * ·) q logs).sum - Real.log (logs.length / nu) ≤ (List.zipWith (· * ·) p logs).sum := by
  obtain ⟨p1, p2, p3⟩ := hp
  have h := p3 q hq hc
  rw [relEnt_softmax hne p p1, relEnt_softmax hne q hq, p2.2, hc.2] at h
  have hn : (0 : ℝ) < logs.length := by exact_mod_cast List.length_pos_of_ne_nil hne
  have h1 := entropy_ge hn p fun x hx => (p2.1 x hx).1
  have h2 := entropy_le hnu q hc.1
  rw [p2.2, p1, div_self hn.ne'] at h1
  rw [hc.2] at h2
  rw [Real.log_div hn.ne' hnu.ne']
  linarith

variable {X H : Type*} [Classifier H X F64]

/-- The margins under any capped distribution. -/
theorem capped_margin {S : List (X × ℝ)} (hne : S ≠ []) {a : X × ℝ → ℝ} (ha : ∀ e ∈ S, |a e| ≤ 101 / 100) {η nu : ℝ} (h1 : 1 / 100 ≤ η) (h2 : η ≤ 9000) (hnu : 0 < nu) {xs p q : List ℝ}
    (hl : xs.length = S.length) (hp : Spec.IsEntropyProjection nu (S.map fun e => round (-η * a e)) p) (hd : Spec.dist1 xs p ≤ 3 / 10 ^ 5)
    (hq : q.length = S.length) (hc : Spec.IsCapped nu q) :
    (List.zipWith (fun x e => x * a e) xs S).sum - Real.log (S.length / nu) / η - 4 / 10 ^ 5 ≤ (List.zipWith (fun x e => x * a e) q S).sum := by
  have hu := u_small
  have hu0 := u_pos
  have hη := eta_le_u
  have hη0 : 0 < η := by linarith
  have hpl : p.length = S.length := by rw [hp.1, List.length_map]
  have hδ : ∀ e ∈ S, |round (-η * a e) - -η * a e| ≤ 1 / 10 ^ 10 := by
    intro e he'
    refine (round_err _).trans ?_
    have h3 : |-η * a e| ≤ 9500 := by
      rw [abs_mul, abs_neg, abs_of_pos hη0]
      have := ha e he'
      calc η * |a e| ≤ 9000 * (101 / 100) := by gcongr
        _ ≤ _ := by norm_num
    have h4 : u * |-η * a e| ≤ (1 / 9000000000000000) * 9500 := mul_le_mul hu h3 (abs_nonneg _) (by norm_num)
    have : (1 : ℝ) / 9000000000000000 * 9500 + 1 / 9000000000000000 ≤ 1 / 10 ^ 10 := by norm_num
    linarith
  have hlin : ∀ (ys : List ℝ) (S : List (X × ℝ)), (List.zipWith (fun x e => x * (-η * a e)) ys S).sum = -η * (List.zipWith (fun x e => x * a e) ys S).sum := by
    intro ys
    induction ys with
    | nil => simp
    | cons y ys ih =>
      intro S
      cases S with
      | nil => simp
      | cons e S => simp only [List.zipWith_cons_cons, List.sum_cons, ih]; ring
  have m := capped_mean hnu (by simpa using hne) hp (by simpa using hq) hc
  rw [List.length_map, List.zipWith_map_right, List.zipWith_map_right] at m
  have m1 := abs_le.mp (zipSum_close (fun e => round (-η * a e)) (fun e => -η * a e) (1 / 10 ^ 10) S p hδ (fun x hx => (hp.2.1.1 x hx).1) hpl)
  have m2 := abs_le.mp (zipSum_close (fun e => round (-η * a e)) (fun e => -η * a e) (1 / 10 ^ 10) S q hδ (fun x hx => (hc.1 x hx).1) hq)
  rw [hp.2.1.2, mul_one, hlin] at m1
  rw [hc.2, mul_one, hlin] at m2
  have m5 := abs_le.mp (zipSum_dist a (101 / 100) S xs p ha hl hpl)
  have m6 : η * (List.zipWith (fun x e => x * a e) p S).sum - Real.log (S.length / nu) - 2 / 10 ^ 10 ≤ η * (List.zipWith (fun x e => x * a e) q S).sum := by
    linarith [m1.1, m1.2, m2.1, m2.2]
  have m7 : (List.zipWith (fun x e => x * a e) p S).sum - Real.log (S.length / nu) / η - 2 / 10 ^ 8 ≤ (List.zipWith (fun x e => x * a e) q S).sum := by
    have h3 : η * ((List.zipWith (fun x e => x * a e) p S).sum - Real.log (S.length / nu) / η - 2 / 10 ^ 8) ≤ η * (List.zipWith (fun x e => x * a e) q S).sum := by
      have h4 : η * ((List.zipWith (fun x e => x * a e) p S).sum - Real.log (S.length / nu) / η - 2 / 10 ^ 8) =
        η * (List.zipWith (fun x e => x * a e) p S).sum - Real.log (S.length / nu) - η * (2 / 10 ^ 8) := by field_simp
      rw [h4]
      have : (2 : ℝ) / 10 ^ 10 ≤ η * (2 / 10 ^ 8) := by
        calc (2 : ℝ) / 10 ^ 10 = 1 / 100 * (2 / 10 ^ 8) := by norm_num
          _ ≤ _ := by gcongr
      linarith
    exact le_of_mul_le_mul_left h3 hη0
  linarith [m5.2]

theorem step_fin {x : F64} (h0 : Le (fin 0) x) (h1 : Le x (fin 1)) : ∃ s, x = fin s ∧ 0 ≤ s ∧ s ≤ 1 := by
  cases x with
  | nan => exact absurd h0 id
  | inf s => cases s with
    | true => exact absurd h0 (by simp [Le])
    | false => exact absurd h1 (by simp [Le])
  | fin x => exact ⟨x, rfl, h0, h1⟩

theorem interior_shape {x : F64} {pos : ℕ} {base ws : List F64} (h : interiorPoint x pos base = .ok ws) : ∃ s, x = fin s ∧ 0 ≤ s ∧ s ≤ 1 := by
  unfold interiorPoint at h
  split at h
  · rename_i hx; exact step_fin hx.1 hx.2
  · cases h

end F64

end Miniboosts
