import Verif.Spec.BadLearner
import Verif.Lemmas.BestSplit
import Verif.Lemmas.AdaBoostInv
import Verif.Spec.Basic
import Mathlib.Tactic.Linarith
import Mathlib.Tactic.FieldSimp
import Mathlib.Tactic.Positivity

/-! # C56: the worst-case learner -/

namespace Miniboosts.Props

variable {K : Type*} [Field K] [LinearOrder K]

theorem foldl_max_split {A : Type*} (key : A → K) : ∀ (l pre : List A) (b : A), (∀ x ∈ pre, key x ≤ key b) →
    ∃ l1 l2, pre ++ b :: l = l1 ++ (l.foldl (fun best x => if key x < key best then best else x) b) :: l2 ∧
      (∀ x ∈ l1, key x ≤ key (l.foldl (fun best x => if key x < key best then best else x) b)) ∧
      ∀ x ∈ l2, key x < key (l.foldl (fun best x => if key x < key best then best else x) b) := by
  intro l
  induction l using List.reverseRecOn with
  | nil => intro pre b h; exact ⟨pre, [], by simp, h, by simp⟩
  | append_singleton l a ih =>
    intro pre b h
    obtain ⟨l1, l2, e, h1, h2⟩ := ih pre b h
    rw [List.foldl_append]
    set c := l.foldl (fun best x => if key x < key best then best else x) b with hc
    simp only [List.foldl_cons, List.foldl_nil]
    split
    · rename_i hlt
      refine ⟨l1, l2 ++ [a], ?_, h1, ?_⟩
      · rw [show pre ++ b :: (l ++ [a]) = (pre ++ b :: l) ++ [a] by simp, e]; simp
      · intro x hx
        rcases List.mem_append.1 hx with hx | hx
        · exact h2 x hx
        · rw [List.mem_singleton.1 hx]; exact hlt
    · rename_i hlt
      refine ⟨pre ++ b :: l, [], by simp, ?_, by simp⟩
      intro x hx
      have hle := not_lt.1 hlt
      rw [e] at hx
      rcases List.mem_append.1 hx with hx | hx
      · exact (h1 x hx).trans hle
      · rcases List.mem_cons.1 hx with rfl | hx
        · exact hle
        · exact (h2 x hx).le.trans hle

/-- C56: for every sample and every weighting of it, the learner returns one of its hypotheses; its edge is at
least that of every other, and of several with the largest edge it is the last. -/
theorem bad_produce_max_edge (b : BadBaseLearner K) (hb : b.classifiers ≠ []) (target dist : List K) :
    ∃ h l1 l2, b.produce target dist = .ok h ∧ b.classifiers = l1 ++ h :: l2 ∧
      (∀ g ∈ l1, Spec.edge (numbered target) dist (conf g) ≤ Spec.edge (numbered target) dist (conf h)) ∧
      ∀ g ∈ l2, Spec.edge (numbered target) dist (conf g) < Spec.edge (numbered target) dist (conf h) := by
  unfold BadBaseLearner.produce
  cases hc : b.classifiers with
  | nil => exact absurd hc hb
  | cons c cs =>
    set E : BadClassifier K → K := fun h => edge (numbered target) dist h with hE
    have hE' : ∀ h, Spec.edge (numbered target) dist (conf h) = E h := fun h => (edge_eq_spec _ _ _).symm
    simp only [hE']
    have key : Criterion.maxBy (fun p : K × BadClassifier K => p.1) ((c :: cs).map fun h => (E h, h)) =
        some (E (cs.foldl (fun best x => if E x < E best then best else x) c),
          cs.foldl (fun best x => if E x < E best then best else x) c) := by
      simp only [Criterion.maxBy, List.map_cons, List.foldl_map, Option.some.injEq]
      clear hc hb
      induction cs generalizing c with
      | nil => rfl
      | cons d cs ih =>
        simp only [List.foldl_cons]
        split <;> exact ih _
    have := foldl_max_split E cs [] c (by simp)
    obtain ⟨l1, l2, e, h1, h2⟩ := this
    refine ⟨_, l1, l2, ?_, by simpa using e, h1, h2⟩
    show (match Criterion.maxBy (fun p : K × BadClassifier K => p.1) ((c :: cs).map fun h => (E h, h)) with
      | none => Except.error Panic.unwrapNone
      | some p => .ok p.2) = _
    rw [key]

section new
variable [IsStrictOrderedRing K]

theorem middle_spec (half shift : Nat) (tol : K) : ∀ (count k : Nat) (gap : K),
    ((∀ j < count, tol * (gap + 2 * ((j : K) + 1)) ≤ 1) →
      BadBaseLearner.middle half shift tol count k gap =
        .ok ((List.range count).map (fun j => ⟨1, half + (k + j), shift, gap + 2 * ((j : K) + 1), tol⟩),
          gap + 2 * (count : K))) ∧
    ((∃ j < count, ¬ tol * (gap + 2 * ((j : K) + 1)) ≤ 1) →
      BadBaseLearner.middle half shift tol count k gap = .error .assertion) := by
  intro count
  induction count with
  | zero => intro k gap; simp [BadBaseLearner.middle]
  | succ count ih =>
    intro k gap
    obtain ⟨i1, i2⟩ := ih (k + 1) (gap + 2)
    have e : ∀ j : Nat, gap + 2 + 2 * ((j : K) + 1) = gap + 2 * (((j + 1 : Nat) : K) + 1) := by
      intro j; push_cast; ring
    constructor
    · intro h
      have h0 : tol * (gap + 2) ≤ 1 := by have := h 0 (by omega); simpa using this
      have := i1 (by intro j hj; rw [e]; exact h (j + 1) (by omega))
      unfold BadBaseLearner.middle
      rw [if_pos h0, this]
      simp only [Except.ok.injEq, Prod.mk.injEq]
      constructor
      · rw [List.range_succ_eq_map, List.map_cons, List.map_map]
        congr 1
        · simp
        · apply List.map_congr_left
          intro j _
          simp only [Function.comp]
          rw [e]; congr 1; omega
      · push_cast; ring
    · rintro ⟨j, hj, hne⟩
      unfold BadBaseLearner.middle
      split
      · rename_i h0
        cases j with
        | zero => exact absurd (by simpa using h0) hne
        | succ j =>
          rw [i2 ⟨j, by omega, by rw [e]; exact hne⟩]
      · rfl

/-- C56: what the learner consists of, and exactly when building it panics: on an empty sample, and when the largest
gap times `tolerance / (2n)` exceeds 1. -/
theorem bad_new_spec [FloorRing K] (n : Nat) (tolerance nu : K) :
    BadBaseLearner.new n tolerance nu =
      if n = 0 then .error .arith
      else if ∀ k < (n + 1) / 2 - 1, tolerance / (2 * (n : K)) * (5 + 2 * (k : K)) ≤ 1 then
        .ok ⟨Spec.badHypotheses n ⌈nu⌉.toNat (tolerance / (2 * (n : K)))⟩
      else .error .assertion := by
  unfold BadBaseLearner.new
  simp only []
  by_cases hn : n = 0
  · subst hn; simp
  rw [if_neg (by omega), if_neg hn]
  obtain ⟨i1, i2⟩ := middle_spec ((n + 1) / 2) ⌈nu⌉.toNat (tolerance / (2 * (n : K))) ((n + 1) / 2 - 1) 0 3
  have e : ∀ k : Nat, (3 : K) + 2 * ((k : K) + 1) = 5 + 2 * (k : K) := by intro k; ring
  simp only [e] at i1 i2
  by_cases h : ∀ k < (n + 1) / 2 - 1, tolerance / (2 * (n : K)) * (5 + 2 * (k : K)) ≤ 1
  · rw [if_pos h, i1 h]
    simp [Spec.badHypotheses]
  · rw [if_neg h, i2 (by push Not at h; obtain ⟨k, h1, h2⟩ := h; exact ⟨k, h1, not_le.2 h2⟩)]

/-- C56: with a tolerance of at most 1 and at least one example the learner can be built. -/
theorem bad_new_ok [FloorRing K] (n : Nat) (hn : n ≠ 0) (tolerance nu : K) (h1 : tolerance ≤ 1) :
    BadBaseLearner.new n tolerance nu = .ok ⟨Spec.badHypotheses n ⌈nu⌉.toNat (tolerance / (2 * (n : K)))⟩ := by
  rw [bad_new_spec, if_neg hn, if_pos]
  intro k hk
  have hn' : (0 : K) < n := by exact_mod_cast Nat.pos_of_ne_zero hn
  have hk' : 5 + 2 * (k : K) ≤ 2 * (n : K) := by
    have : 5 + 2 * k ≤ 2 * n := by omega
    exact_mod_cast this
  rw [div_mul_eq_mul_div, div_le_one (by positivity)]
  calc tolerance * (5 + 2 * (k : K)) ≤ 1 * (5 + 2 * (k : K)) := by
        apply mul_le_mul_of_nonneg_right h1; positivity
    _ ≤ 2 * (n : K) := by linarith

/-- C56: the margins of the hypotheses on a sample with labels `±1`, row by row. -/
theorem bad_margins (h : BadClassifier K) (target : List K) (hpm : Spec.PmLabels (numbered target)) (i : Nat) (e : (Nat × K) × K)
    (he : (numbered target)[i]? = some e) :
    e.2 * conf h e.1 =
      if h.tag = 0 then
        if i < h.index then 1 else if i < h.index + h.shift then -1 + 2 * h.eps else -1 + 3 * h.eps
      else if h.tag = 1 then
        if h.index ≤ i ∧ i < h.index + h.shift then 1
        else if h.index + h.shift ≤ i ∧ i < h.index + 2 * h.shift then -1 + (h.gap - 1) * h.eps
        else -1 + h.gap * h.eps
      else if i < h.index then -1 + h.eps else 1 - h.eps := by
  have hmem : e ∈ numbered target := List.mem_of_getElem? he
  have hy : e.2 * e.2 = 1 := by rcases hpm e hmem with h | h <;> rw [h] <;> ring
  unfold numbered at he
  rw [List.getElem?_mapIdx] at he
  cases hy' : target[i]? with
  | none => rw [hy'] at he; simp at he
  | some y =>
    rw [hy', Option.map_some, Option.some.injEq] at he
    subst he
    simp only [conf, BadClassifier.value] at hy ⊢
    have hc : ∀ c : K, y * (c * y) = c := by intro c; linear_combination c * hy
    by_cases h0 : h.tag = 0
    · simp only [h0, if_true]
      by_cases h1 : i < h.index
      · rw [if_pos h1, if_pos h1, hc]
      · rw [if_neg h1, if_neg h1]
        by_cases h2 : i < h.index + h.shift
        · rw [if_pos ⟨by omega, h2⟩, if_pos h2, hc]
        · rw [if_neg (by omega), if_neg h2, hc]
    · rw [if_neg h0, if_neg h0]
      by_cases h1 : h.tag = 1
      · rw [if_pos h1, if_pos h1]
        by_cases h2 : h.index ≤ i ∧ i < h.index + h.shift
        · rw [if_pos h2, if_pos h2, hc]
        · rw [if_neg h2, if_neg h2]
          by_cases h3 : h.index + h.shift ≤ i ∧ i < h.index + h.shift + h.shift
          · rw [if_pos h3, if_pos ⟨h3.1, by omega⟩, hc]
          · rw [if_neg h3, if_neg (by omega), hc]
      · rw [if_neg h1, if_neg h1]
        split <;> rw [hc]

/-- C56: the learner's hypotheses are confidence-rated: on labels `±1` all values lie in `[-1, 1]`
(`0 ≤ tolerance ≤ 1`). -/
theorem bad_confidence_range [FloorRing K] (n : Nat) (tolerance nu : K) (h0 : 0 ≤ tolerance) (h1 : tolerance ≤ 1)
    (b : BadBaseLearner K) (hb : BadBaseLearner.new n tolerance nu = .ok b) (h : BadClassifier K) (hh : h ∈ b.classifiers)
    (row : Nat) (y : K) (hy : y = 1 ∨ y = -1) : |(conf h (row, y) : K)| ≤ 1 := by
  have hn : n ≠ 0 := by
    rintro rfl
    rw [bad_new_spec] at hb; simp at hb
  rw [bad_new_ok n hn tolerance nu h1, Except.ok.injEq] at hb
  subst hb
  have hn' : (1 : K) ≤ n := by exact_mod_cast Nat.one_le_iff_ne_zero.2 hn
  set eps := tolerance / (2 * (n : K)) with heps
  have e0 : 0 ≤ eps := by rw [heps]; positivity
  have e1 : eps * (2 * (n : K)) = tolerance := by rw [heps]; field_simp
  have hval : ∀ c : K, -1 ≤ c → c ≤ 1 → |c * y| ≤ 1 := by
    intro c c1 c2
    rcases hy with rfl | rfl
    · rw [mul_one]; exact abs_le.2 ⟨c1, c2⟩
    · rw [mul_neg, mul_one, abs_neg]; exact abs_le.2 ⟨c1, c2⟩
  have h3 : ∀ g : K, 0 ≤ g → g ≤ 2 * (n : K) + 2 → -1 ≤ -1 + g * eps ∧ -1 + g * eps ≤ 1 := by
    intro g g1 g2
    refine ⟨by nlinarith, ?_⟩
    have : g * eps ≤ (2 * (n : K) + 2) * eps := mul_le_mul_of_nonneg_right g2 e0
    nlinarith
  have key : h.eps = eps ∧ 1 ≤ h.gap ∧ h.gap ≤ 2 * (n : K) + 2 := by
    simp only [Spec.badHypotheses, List.mem_append, List.mem_singleton, List.mem_map, List.mem_range] at hh
    rcases hh with (rfl | ⟨k, hk, rfl⟩) | rfl
    · exact ⟨rfl, by norm_num, by linarith⟩
    · refine ⟨rfl, ?_, ?_⟩
      · have : (0 : K) ≤ k := by positivity
        simp only []; linarith
      · have : 5 + 2 * k ≤ 2 * n + 2 := by omega
        simp only []; exact_mod_cast this
    · refine ⟨rfl, ?_, ?_⟩
      · have : (0 : K) ≤ (((n + 1) / 2 - 1 : Nat) : K) := by positivity
        simp only []; linarith
      · have : 3 + 2 * ((n + 1) / 2 - 1) ≤ 2 * n + 2 := by omega
        simp only []; exact_mod_cast this
  obtain ⟨k1, k2, k3⟩ := key
  have r2 := h3 2 (by norm_num) (by linarith)
  have r3 := h3 3 (by norm_num) (by linarith)
  have rg := h3 h.gap (by linarith) k3
  have rg1 := h3 (h.gap - 1) (by linarith) (by linarith)
  have r1 := h3 1 (by norm_num) (by linarith)
  simp only [conf, BadClassifier.value, k1]
  split_ifs
  · exact hval _ (by norm_num) le_rfl
  · exact hval _ r2.1 r2.2
  · exact hval _ r3.1 r3.2
  · exact hval _ (by norm_num) le_rfl
  · exact hval _ rg1.1 rg1.2
  · exact hval _ rg.1 rg.2
  · exact hval _ (by linarith [r1.1]) (by linarith [r1.2])
  · exact hval _ (by linarith [r1.2]) (by linarith)

omit [IsStrictOrderedRing K] in
/-- C56: the builder's defaults and setters; `nu` is accepted exactly in `[1, n)` (the message says `[1, n_sample]`). -/
theorem bad_builder [FloorRing K] (target : List K) (tolerance nu : K) :
    (BadBaseLearnerBuilder.new target).build = BadBaseLearner.new target.length (1 / 1000000000) 1 ∧
    ((BadBaseLearnerBuilder.new target).setTolerance tolerance).build = BadBaseLearner.new target.length tolerance 1 ∧
    (((∃ b, ((BadBaseLearnerBuilder.new target).setTolerance tolerance).setNu nu = .ok b ∧
        b.build = BadBaseLearner.new target.length tolerance nu)) ↔ 1 ≤ nu ∧ nu < (target.length : K)) ∧
    (¬ (1 ≤ nu ∧ nu < (target.length : K)) →
      ((BadBaseLearnerBuilder.new target).setTolerance tolerance).setNu nu = .error .assertion) := by
  refine ⟨rfl, rfl, ?_, ?_⟩
  · constructor
    · rintro ⟨b, hb, -⟩
      unfold BadBaseLearnerBuilder.setNu at hb
      split at hb
      · rename_i h; exact h
      · cases hb
    · intro h
      refine ⟨_, by unfold BadBaseLearnerBuilder.setNu; exact if_pos h, rfl⟩
  · intro h
    unfold BadBaseLearnerBuilder.setNu; exact if_neg h

end new

/-- A concrete case: four examples, unit tolerance. -/
example : (BadBaseLearner.new 4 1 1 : Except Panic (BadBaseLearner ℚ)) =
    .ok ⟨[⟨0, 2, 1, 3, 1 / 8⟩, ⟨1, 2, 1, 5, 1 / 8⟩, ⟨2, 2, 1, 5, 1 / 8⟩]⟩ := by
  rw [bad_new_ok 4 (by decide) 1 1 le_rfl]
  simp [Spec.badHypotheses]; norm_num

/-- Under the uniform distribution the first hypothesis wins, under a point mass on row 2 the second. -/
example : (BadBaseLearner.mk [⟨0, 2, 1, 3, 1 / 8⟩, ⟨1, 2, 1, 5, 1 / 8⟩, ⟨2, 2, 1, 5, 1 / 8⟩] : BadBaseLearner ℚ).produce
      [1, -1, 1, -1] [1 / 4, 1 / 4, 1 / 4, 1 / 4] = .ok ⟨0, 2, 1, 3, 1 / 8⟩ ∧
    (BadBaseLearner.mk [⟨0, 2, 1, 3, 1 / 8⟩, ⟨1, 2, 1, 5, 1 / 8⟩, ⟨2, 2, 1, 5, 1 / 8⟩] : BadBaseLearner ℚ).produce
      [1, -1, 1, -1] [0, 0, 1, 0] = .ok ⟨1, 2, 1, 5, 1 / 8⟩ := by
  constructor <;> decide +kernel

end Miniboosts.Props
