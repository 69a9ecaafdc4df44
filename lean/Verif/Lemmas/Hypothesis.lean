import Verif.Lemmas.AdaBoostInv

/-! Helper lemmas about combined hypotheses. -/

namespace Miniboosts

variable {K : Type*} [Field K] [LinearOrder K] [IsStrictOrderedRing K] {H X : Type*}

theorem normalize_of_pos (l : List K) (h : ∀ a ∈ l, 0 < a) :
    normalize l = if l = [] then .error .assertion else .ok (l.map fun a => a / l.sum) := by
  have habs : l.map (fun a => |a|) = l := by
    conv_rhs => rw [← List.map_id l]
    apply List.map_congr_left
    intro a ha; simp [abs_of_pos (h a ha)]
  unfold normalize
  rw [habs]
  split
  · subst_vars; simp
  · rename_i hl
    rw [if_neg (sum_pos' l hl h).ne']

theorem zip_map_fst_snd {α β : Type*} (l : List (α × β)) :
    List.zip (l.map Prod.fst) (l.map Prod.snd) = l := by
  induction l with
  | nil => rfl
  | cons a l ih => simp [ih]

/-- The pairs of positive weight, with normalised weights. -/
theorem fromSlices_cases (ws : List K) (hs : List H) :
    let kept := (List.zip ws hs).filter (fun p => decide (0 < p.1))
    (kept = [] ∧ WeightedMajority.fromSlices ws hs = .error .assertion) ∨
    (kept ≠ [] ∧ WeightedMajority.fromSlices ws hs =
      .ok ⟨kept.map fun p => p.1 / (kept.map Prod.fst).sum, kept.map Prod.snd⟩) := by
  intro kept
  have hk : ∀ a ∈ kept.map Prod.fst, 0 < a := by
    intro a ha
    obtain ⟨p, hp, rfl⟩ := List.mem_map.1 ha
    simpa using (List.mem_filter.1 hp).2
  have hn := normalize_of_pos _ hk
  by_cases h : kept = []
  · left
    refine ⟨h, ?_⟩
    rw [if_pos (by simpa using h)] at hn
    simp only [WeightedMajority.fromSlices]
    rw [hn]
  · right
    refine ⟨h, ?_⟩
    rw [if_neg (by simpa using h)] at hn
    simp only [WeightedMajority.fromSlices]
    rw [hn]
    simp only [List.map_map, Function.comp_def]
    rfl

omit [IsStrictOrderedRing K] in
theorem conf_weightedMajority [Classifier H X K] (f : WeightedMajority K H) (x : X) :
    conf f x = Spec.vote conf (List.zip f.weights f.hypotheses) x :=
  weightedConf_eq_vote _ _ _

/-- The confidence of the normalised hypothesis is the raw vote of the positive pairs over their
total weight. -/
theorem fromSlices_conf [Classifier H X K] {ws : List K} {hs : List H} {f : WeightedMajority K H}
    (h : WeightedMajority.fromSlices ws hs = .ok f) (x : X) :
    let kept := (List.zip ws hs).filter (fun p => decide (0 < p.1))
    conf f x = Spec.vote conf kept x / (kept.map Prod.fst).sum ∧ 0 < (kept.map Prod.fst).sum := by
  intro kept
  have hk : ∀ p ∈ kept, 0 < p.1 := by
    intro p hp; simpa using (List.mem_filter.1 hp).2
  rcases fromSlices_cases ws hs with ⟨h1, h2⟩ | ⟨h1, h2⟩
  · rw [h2] at h; simp at h
  · rw [h2] at h
    simp only [Except.ok.injEq] at h
    constructor
    · rw [conf_weightedMajority, ← h]
      unfold Spec.vote
      rw [← sum_map_div]
      change (List.map _ (List.zip (List.map (fun p : K × H => p.1 / (kept.map Prod.fst).sum) kept)
        (kept.map Prod.snd))).sum = _
      congr 1
      generalize (kept.map Prod.fst).sum = z
      clear_value kept
      clear h1 h2 h hk
      induction kept with
      | nil => rfl
      | cons p l ih =>
        simp only [List.map_cons, List.zip_cons_cons, ih]
        rw [div_mul_eq_mul_div]
    · exact sum_map_pos kept _ h1 hk

end Miniboosts
