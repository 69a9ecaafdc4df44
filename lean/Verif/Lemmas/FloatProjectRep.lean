import Verif.Lemmas.Rounding
import Verif.Model.FloatProject

/-! # The numbers that the projection returns are `f64` -/

namespace Miniboosts

namespace F64

/-- A number, if it is one, that is an `f64`. -/
def IsRep (a : F64) : Prop := ∀ x : ℝ, a = fin x → Rep x

theorem isRep_rnd (x : ℝ) : IsRep (rnd x) := by
  intro y h
  unfold rnd at h
  split at h
  · cases h
  · rw [fin.injEq] at h
    rw [← h]
    exact rep_round x

theorem isRep_exp (L : Libm) (a : F64) : IsRep (exp L a) := by
  cases a with
  | nan => intro x h; cases h
  | inf s =>
    cases s with
    | true => intro x h; simp only [exp, if_true, fin.injEq] at h; rw [← h]; exact rep_zero
    | false => intro x h; simp [exp] at h
  | fin a => exact isRep_rnd _

theorem isRep_mul (a b : ℝ) : IsRep (mul (fin a) (fin b)) := isRep_rnd _

theorem isRep_div (a b : ℝ) : IsRep (div (fin a) (fin b)) := by
  unfold div
  dsimp only
  split
  · split
    · intro x h; cases h
    · intro x h; cases h
  · exact isRep_rnd _

theorem projTail_rep (L : Libm) (ξ : F64) : ∀ (l : List (ℕ × F64)) (dist r : List F64), (∀ a ∈ dist, IsRep a) → projTail L ξ l dist = .ok r → ∀ a ∈ r, IsRep a := by
  intro l
  induction l with
  | nil => intro dist r h e; simp only [projTail, Except.ok.injEq] at e; subst e; exact h
  | cons p l ih =>
    intro dist r h e
    obtain ⟨k, v⟩ := p
    simp only [projTail] at e
    split at e
    · cases e
    · refine ih _ r ?_ e
      intro a ha
      rcases List.mem_or_eq_of_mem_set ha with ha | rfl
      · exact h a ha
      · exact isRep_exp _ _

theorem projLoop_rep (L : Libm) {ub : F64} (hub : IsRep ub) (logNu : F64) : ∀ (l : List (ℕ × F64)) (i : ℕ) (dist r : List F64), (∀ a ∈ dist, IsRep a) →
    projLoop L ub logNu i l dist = .ok r → ∀ a ∈ r, IsRep a := by
  intro l
  induction l with
  | nil => intro i dist r h e; simp only [projLoop, Except.ok.injEq] at e; subst e; exact h
  | cons p l ih =>
    intro i dist r h e
    obtain ⟨k, v⟩ := p
    simp only [projLoop] at e
    split at e
    · cases e
    · split at e
      · refine projTail_rep L _ l _ r ?_ e
        intro a ha
        rcases List.mem_or_eq_of_mem_set ha with ha | rfl
        · exact h a ha
        · exact isRep_exp _ _
      · refine ih _ _ r ?_ e
        intro a ha
        rcases List.mem_or_eq_of_mem_set ha with ha | rfl
        · exact h a ha
        · exact hub

/-- What the projection of `f64` numbers returns are `f64` numbers. -/
theorem projectCapped_rep (L : Libm) (ν : ℝ) {logs r : List F64} (h : ∀ a ∈ logs, IsRep a) (e : projectCapped L (fin ν) logs = .ok r) : ∀ a ∈ r, IsRep a := by
  unfold projectCapped at e
  split at e
  · cases e
  · dsimp only at e
    split at e
    · cases e
    · rename_i dist hd
      split at e
      · cases e
      · rw [Except.ok.injEq] at e
        subst e
        exact projLoop_rep L (isRep_div _ _) _ _ _ _ _ h hd

theorem projected_double (L : Libm) (ν : ℝ) {logs xs : List ℝ} (h : ∀ x ∈ logs, Rep x) (e : projectCapped L (fin ν) (logs.map fin) = .ok (xs.map fin)) : ∀ x ∈ xs, Rep x := by
  intro x hx
  refine projectCapped_rep L ν ?_ e (fin x) (List.mem_map_of_mem hx) x rfl
  intro a ha
  obtain ⟨y, hy, rfl⟩ := List.mem_map.mp ha
  intro z hz
  rw [fin.injEq] at hz
  rw [← hz]
  exact h y hy

end F64

end Miniboosts
