import Verif.Spec.Entropy
import Verif.Lemmas.Basic

namespace Miniboosts

open Real

/-- One term of the relative entropy. -/
noncomputable def klTerm (x y : ℝ) : ℝ := if x = 0 then 0 else x * log (x / y)

theorem klTerm_eq (x y : ℝ) : klTerm x y = x * log (x / y) := by
  unfold klTerm; split
  · rename_i h; simp [h]
  · rfl

theorem klTerm_ge {x y : ℝ} (hx : 0 ≤ x) (hy : 0 < y) : x - y ≤ klTerm x y := by
  rw [klTerm_eq]
  rcases hx.eq_or_lt with rfl | hx
  · simp; exact hy.le
  · have h := log_le_sub_one_of_pos (div_pos hy hx)
    have h2 : log (x / y) = - log (y / x) := by rw [← log_inv, inv_div]
    rw [h2]
    have : x * log (y / x) ≤ x * (y / x - 1) := mul_le_mul_of_nonneg_left h hx.le
    have h3 : x * (y / x - 1) = y - x := by field_simp
    linarith

theorem klTerm_eq_iff {x y : ℝ} (hx : 0 ≤ x) (hy : 0 < y) : klTerm x y = x - y ↔ x = y := by
  constructor
  · intro h
    by_contra hne
    rw [klTerm_eq] at h
    rcases hx.eq_or_lt with rfl | hx
    · simp at h; linarith
    · have hlt := log_lt_sub_one_of_pos (div_pos hy hx) (by
        intro h1; rw [div_eq_one_iff_eq hx.ne'] at h1; exact hne h1.symm)
      have h2 : log (x / y) = - log (y / x) := by rw [← log_inv, inv_div]
      rw [h2] at h
      have : x * log (y / x) < x * (y / x - 1) := mul_lt_mul_of_pos_left hlt hx
      have h3 : x * (y / x - 1) = y - x := by field_simp
      linarith
  · rintro rfl
    rw [klTerm_eq, div_self hy.ne', log_one]; simp

theorem relEnt_cons (x y : ℝ) (a b : List ℝ) :
    Spec.relEnt (x :: a) (y :: b) = klTerm x y + Spec.relEnt a b := by
  simp [Spec.relEnt, klTerm]

theorem relEnt_ge (a b : List ℝ) (hl : a.length = b.length) (ha : ∀ x ∈ a, 0 ≤ x) (hb : ∀ y ∈ b, 0 < y) :
    a.sum - b.sum ≤ Spec.relEnt a b ∧ (Spec.relEnt a b = a.sum - b.sum → a = b) := by
  induction a generalizing b with
  | nil =>
    match b, hl with
    | [], _ => simp [Spec.relEnt]
  | cons x a ih =>
    match b, hl with
    | y :: b, hl =>
      obtain ⟨h1, h2⟩ := ih b (by simpa using hl) (fun z hz => ha z (by simp [hz])) (fun z hz => hb z (by simp [hz]))
      have hk := klTerm_ge (ha x (by simp)) (hb y (by simp))
      rw [relEnt_cons]
      simp only [List.sum_cons]
      refine ⟨by linarith, fun h => ?_⟩
      have e1 : klTerm x y = x - y := by linarith
      have e2 : Spec.relEnt a b = a.sum - b.sum := by linarith
      rw [(klTerm_eq_iff (ha x (by simp)) (hb y (by simp))).1 e1, h2 e2]

end Miniboosts
