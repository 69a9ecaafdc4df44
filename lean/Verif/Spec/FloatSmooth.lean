import Verif.Spec.Float

/-! # What is said about SmoothBoost in `f64` (C118) -/

namespace Miniboosts

open F64

/-- Smooth weights: one finite non-negative `f64` per example, their sum is one up to `10⁻⁸`, and none of them exceeds `1/(κ n)` by more than
the factor `1 + 10⁻⁸`. -/
def SmoothWeights (κ : ℝ) (n : Nat) (d : List F64) : Prop :=
  ∃ xs : List ℝ, d = xs.map fin ∧ xs.length = n ∧ (∀ x ∈ xs, 0 ≤ x ∧ x ≤ (1 + 1 / 10 ^ 8) / (κ * n)) ∧ |xs.sum - 1| ≤ 1 / 10 ^ 8 ∧
    ∀ x ∈ xs, Double x

/-- For smooth weights the learner's hypothesis answers with numbers in `[-1, 1]`. -/
def AnswersSmooth {H X : Type*} [Classifier H X F64] (S : Examples X ℝ) (κ : ℝ) (wl : WeakLearner F64 H) : Prop :=
  ∀ it d, SmoothWeights κ S.length d → ∀ e ∈ S, ∃ c : ℝ, conf (wl it d) e.1 = fin c ∧ |c| ≤ 1

end Miniboosts
