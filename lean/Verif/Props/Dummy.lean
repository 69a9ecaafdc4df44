import Verif.Props.DecisionTree
import Verif.Props.BadLearner
import Verif.Props.Sample

/-! # C56 the dummy sample, C40 the leaf counter of a trained tree -/

set_option linter.unusedSectionVars false

namespace Miniboosts.Props

open Spec

section

variable {K : Type*} [Field K] [LinearOrder K] [IsStrictOrderedRing K]

/-- C56: the sample made for the worst-case learner has the promised number of rows, one label per row — the first
half (rounded down) `+1`, the rest `-1` — and one column that reads zero in every row. -/
theorem dummy_sample (n : Nat) :
    (Sample.dummy n : Sample K).nSample = n ∧ (Sample.dummy n : Sample K).target.length = n ∧
      (∀ i, i < n / 2 → (Sample.dummy n : Sample K).target[i]? = some 1) ∧
      (∀ i, n / 2 ≤ i → i < n → (Sample.dummy n : Sample K).target[i]? = some (-1)) ∧
      (Sample.dummy n : Sample K).nFeature = 1 ∧ (Sample.dummy n : Sample K).features.length = 1 ∧
      ∃ f, (Sample.dummy n : Sample K).byName "dummy" = .ok f ∧ f.name = "dummy" ∧ ∀ i, f.index i = .ok (0 : K) := by
  refine ⟨rfl, ?_, ?_, ?_, rfl, rfl, .sparse (SparseFeature.new "dummy"), ?_, rfl, ?_⟩
  · simp only [Sample.dummy, List.length_append, List.length_replicate]; omega
  · intro i hi
    rw [Sample.dummy, List.getElem?_append_left (by simpa using hi)]
    simp [hi]
  · intro i h1 h2
    rw [Sample.dummy, List.getElem?_append_right (by simpa using h1)]
    simp only [List.length_replicate, List.getElem?_replicate]
    rw [if_pos (by omega)]
  · simp [Sample.byName, Sample.dummy, HMap.get?]
  · intro i
    simp [Feature.index, SparseFeature.index, SparseFeature.new]

/-- The dummy sample is accepted as a binary sample exactly when it has two rows. -/
theorem dummy_binary [FloorRing K] (n : Nat) : (Sample.dummy n : Sample K).isValidBinaryInstance = .ok () ↔ 2 ≤ n := by
  have hmem : ∀ y ∈ (Sample.dummy n : Sample K).target, ∃ z : Int, y = z ∧ (z = 1 ∨ z = -1) := by
    intro y hy
    rcases List.mem_append.1 hy with h | h
    · exact ⟨1, by rw [List.eq_of_mem_replicate h]; simp, .inl rfl⟩
    · exact ⟨-1, by rw [List.eq_of_mem_replicate h]; simp, .inr rfl⟩
  rw [valid_binary_iff_partial]
  · have hset : distinct (Sample.dummy n : Sample K).target = 2 ↔ 2 ≤ n := by
      unfold distinct
      constructor
      · intro h
        have h1 := List.toFinset_card_le (Sample.dummy n : Sample K).target
        rw [(dummy_sample n).2.1] at h1
        omega
      · intro h
        have : (Sample.dummy n : Sample K).target.toFinset = {1, -1} := by
          ext y
          simp only [Sample.dummy, List.toFinset_append, Finset.mem_union, List.mem_toFinset, List.mem_replicate,
            Finset.mem_insert, Finset.mem_singleton]
          constructor
          · rintro (h | h)
            · exact .inl h.2
            · exact .inr h.2
          · rintro (h | h)
            · exact .inl ⟨by omega, h⟩
            · exact .inr ⟨by omega, h⟩
        rw [this, Finset.card_pair]
        intro h
        have : (0 : K) < 1 := one_pos
        linarith
    rw [hset]
    constructor
    · exact fun h => h.2.2
    · exact fun h => ⟨(dummy_sample n).2.1, fun y hy => (hmem y hy).imp (fun _ h => h.1), h⟩
  · intro y hy _
    obtain ⟨z, rfl, h⟩ := hmem y hy
    exact ⟨z, rfl, by rcases h with rfl | rfl <;> norm_num, by rcases h with rfl | rfl <;> norm_num⟩

end

/-- The number of leaves of a tree. -/
def leafCount {K : Type*} : TreeNode K → Nat
  | .leaf _ => 1
  | .branch _ left right => leafCount left + leafCount right

variable {K : Type*} [Field K] [LinearOrder K] [IsStrictOrderedRing K] [FloorRing K]

/-- C40: the leaf counter kept in a trained tree is the number of its leaves. -/
theorem leaf_counter {env : TreeEnv K} {t : DecisionTree K} {s : Sample K} {dist : List K} : ∀ (depth : Nat) (idx : List Nat)
    (node : TrainNode K), DecisionTree.fullTree env t s dist depth idx = .ok node → node.leavesOf = leafCount (TreeNode.ofTrain node) := by
  intro depth
  induction depth with
  | zero =>
    intro idx node h
    unfold DecisionTree.fullTree at h
    split at h
    · cases h
    · split at h
      · cases h
      · simp only [Except.ok.injEq] at h
        subst h
        rfl
  | succ depth ih =>
    intro idx node h
    unfold DecisionTree.fullTree at h
    split at h
    · cases h
    · split at h
      · cases h
      · simp only at h
        split at h
        · simp only [Except.ok.injEq] at h
          subst h
          rfl
        · split at h
          · cases h
          · split at h
            · cases h
            · split at h
              · simp only [Except.ok.injEq] at h
                subst h
                rfl
              · split at h
                · cases h
                · rename_i l hl
                  split at h
                  · cases h
                  · rename_i r hr
                    simp only [Except.ok.injEq] at h
                    subst h
                    have h1 := ih _ _ hl
                    have h2 := ih _ _ hr
                    change l.leavesOf + r.leavesOf = _
                    rw [h1, h2]
                    rfl

end Miniboosts.Props
