/-
C98 and C101 together: every booster's vote on decision trees depends on the named values of a row only.
-/
import Verif.Props.Provenance
import Verif.Props.OtherSample
import Verif.Props.GraphSepBoost

namespace Miniboosts.Props

open Miniboosts Spec

variable {env : TreeEnv ℝ} {s : Sample ℝ}

/-- **C98**, for every booster: whatever booster returned the vote `f` after a run on the decision-tree learner of the sample `s`
(`adaboost_provenance` … `mlp_provenance` give `hf`), rows, of whatever samples, that agree by name on the training columns get the same
confidence and the same prediction. -/
theorem trees_by_name (hs : SampleOk s) (t : DecisionTree ℝ) {f : WeightedMajority ℝ (TreeNode ℝ)} {qs : List (List ℝ)}
    (hf : FromRun (treeLearner env t s) qs f.hypotheses) {s₁ s₂ : Sample ℝ} (h1 : SampleOk s₁) (h2 : SampleOk s₂) {i j : Nat}
    (hi : i < s₁.nSample) (hj : j < s₂.nSample) (heq : ∀ nm ∈ s.features.map Feature.name, valueAt s₁ i nm = valueAt s₂ j nm) :
    (conf (K := ℝ) f (s₁, i) : ℝ) = conf f (s₂, j) ∧ (predict (K := ℝ) f (s₁, i)) = predict (K := ℝ) f (s₂, j) := by
  have := vote_same_answer h1 h2 hi hj f (by
    intro g hg nm hn
    obtain ⟨k, hk, rfl⟩ := (fromRun_iff_index hf).2 g hg
    exact heq nm (treeLearner_known hs t _ _ hn))
  refine ⟨this, ?_⟩
  unfold predict
  rw [this]

/-- **C98**, for every booster: every tree of the vote answers every row of every sample that has the training columns. -/
theorem vote_trees_answer (hs : SampleOk s) (t : DecisionTree ℝ) {f : WeightedMajority ℝ (TreeNode ℝ)} {qs : List (List ℝ)}
    (hf : FromRun (treeLearner env t s) qs f.hypotheses) {s' : Sample ℝ} (hs' : SampleOk s')
    (hcol : s.features.map Feature.name ⊆ s'.features.map Feature.name) {i : Nat} (hi : i < s'.nSample) :
    ∀ g ∈ f.hypotheses, ∃ c, g.confidence s' i = .ok c := by
  intro g hg
  obtain ⟨k, hk, rfl⟩ := (fromRun_iff_index hf).2 g hg
  exact tree_answers_elsewhere hs' hi _ fun _ hn => hcol (treeLearner_known hs t _ _ hn)

/-- The hypotheses are met by real runs: LPBoost and MLPBoost, whatever the solver answers. -/
example (hs : SampleOk s) (t : DecisionTree ℝ) (solver : Solver ℝ) {s₀ : LPBoost ℝ (TreeNode ℝ)} {n : Nat}
    {f : WeightedMajority ℝ (TreeNode ℝ)} {qs : List (List ℝ)}
    (h : (LPBoost.booster solver s.rows).run (treeLearner env t s) n s₀ = some (.ok (f, qs))) {s₁ s₂ : Sample ℝ} (h1 : SampleOk s₁)
    (h2 : SampleOk s₂) {i j : Nat} (hi : i < s₁.nSample) (hj : j < s₂.nSample)
    (heq : ∀ nm ∈ s.features.map Feature.name, valueAt s₁ i nm = valueAt s₂ j nm) :
    (predict (K := ℝ) f (s₁, i)) = predict (K := ℝ) f (s₂, j) :=
  (trees_by_name hs t (lpboost_provenance h) h1 h2 hi hj heq).2

/-- A concrete run with three calls of the weak learner and three different answers: GraphSepBoost keeps all of them, in order. -/
example : ((GraphSepBoost.booster exGraph).run exGraphLearner 10 GraphSepBoost.init).map
      (fun r => r.toOption.map fun p => (p.1.hypotheses.map fun h => (List.range 4).map fun x => predict (K := ℚ) h x)) =
    some (some [[1, -1, -1, -1], [-1, 1, -1, -1], [-1, -1, 1, -1]]) := by decide +kernel

end Miniboosts.Props
