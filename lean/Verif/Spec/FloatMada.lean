import Verif.Spec.Float
import Verif.Model.FloatMada

/-! # What is said about MadaBoost in `f64` (C120) -/

namespace Miniboosts

open F64

variable {H X : Type*} [Classifier H X F64]

/-- Weights as MadaBoost hands them out: one finite non-negative `f64` per example, with a sum of one up to `3·10⁻⁶`. -/
def CappedWeights (n : Nat) (d : List F64) : Prop :=
  ∃ xs : List ℝ, d = xs.map fin ∧ xs.length = n ∧ (∀ x ∈ xs, 0 ≤ x ∧ Double x) ∧ |xs.sum - 1| ≤ 3 / 10 ^ 6

/-- For such weights the learner's hypothesis answers with numbers in `[-1, 1]` and has an edge of at least `lo`. -/
structure MadaLearner (S : Examples X ℝ) (wl : WeakLearner F64 H) (lo : ℝ) : Prop where
  conf : ∀ it d, CappedWeights S.length d → ∀ e ∈ S, ∃ c : ℝ, conf (wl it d) e.1 = fin c ∧ |c| ≤ 1
  edge : ∀ it d, CappedWeights S.length d → lo ≤ exactEdge S d (wl it d)

/-- The step of a round with the edge `γ`: with `ε = (1-γ)/2` and `ε' = √(ε/2)` it is `√(ε'/(1-ε'))`. -/
noncomputable def stepOf (γ : ℝ) : ℝ := √(√((1 - γ) / 4) / (1 - √((1 - γ) / 4)))

/-- The score of an example after the rounds `V`, a list of edges and hypotheses: `1/m + ∑ step · y h(x)`. -/
noncomputable def madaScore (m : Nat) (V : List (ℝ × H)) (e : X × ℝ) : ℝ :=
  1 / m + (V.map fun v => stepOf v.1 * (e.2 * (conf v.2 e.1).val)).sum

/-- The weights are proportional to `exp(min(1, score))` up to the factor `1 ± 10⁻⁵` and the underflow. -/
def NearClipped (S : Examples X ℝ) (score : X × ℝ → ℝ) (d : List F64) : Prop :=
  ∃ g : X × ℝ → ℝ, d = S.map (fun e => fin (g e)) ∧ ∀ e ∈ S,
    |g e - Real.exp (min (score e) 1) / (S.map fun e => Real.exp (min (score e) 1)).sum| ≤
      1 / 10 ^ 5 * (Real.exp (min (score e) 1) / (S.map fun e => Real.exp (min (score e) 1)).sum) + 1 / 10 ^ 60

/-- The rounds of a run: the weight vectors handed out, and for every round the edge that was measured and the hypothesis that was received. -/
inductive MadaRounds (S : Examples X ℝ) (wl : WeakLearner F64 H) : List (List F64) → List (ℝ × H) → Prop
  | nil : MadaRounds S wl [] []
  | snoc {qs V q γ} (h : MadaRounds S wl qs V) (hc : CappedWeights S.length q) (hq : NearClipped S (madaScore S.length V) q)
      (hγ : |γ - exactEdge S q (wl (qs.length + 1) q)| ≤ 1 / 10 ^ 9) : MadaRounds S wl (qs ++ [q]) (V ++ [(γ, wl (qs.length + 1) q)])

/-- The number of rounds allowed: `force_quit_at`, or the limit computed from the tolerance. -/
noncomputable def madaLimitF (S : Examples X ℝ) (s : MadaBoostF H) : ℕ :=
  match s.forceQuitAt with
  | some it => it
  | none => MadaBoostF.maxLoop S s

end Miniboosts
