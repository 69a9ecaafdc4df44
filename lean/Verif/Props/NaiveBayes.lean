import Verif.Lemmas.NaiveBayes

/-! # C53: Gaussian naive Bayes -/

namespace Miniboosts.Props

open Real Spec NB

open Classical in
/-- The value the code computes for the label `y`. -/
noncomputable def nbVal (cols : List (List ℝ)) (t w z : List ℝ) (y : ℝ) : Option ℝ :=
  NBayesClassifier.prob (max 0 (min 1 (labelMass t w y)))
    (if ∀ x ∈ cols, 0 < condVar t w y x then some (codeLog (condMean t w y) (condVar t w y) cols z) else none)
    (if ∀ x ∈ cols, 0 < allVar w x then some (codeLog (allMean w) (allVar w) cols z) else none)

theorem nb_confidence {s : Sample ℝ} {cols : List (List ℝ)} {t : List ℝ} (hs : DenseSample s cols t) (w : List ℝ)
    (h2 : w.length = t.length) (hw : IsProb w) (y : ℝ) (ys : List ℝ) (e : s.uniqueTarget = y :: ys) :
    ∃ f, GaussianNB.produce s w = .ok f ∧ ∀ (s' : Sample ℝ) (row : Nat) (z : List ℝ) (yy : ℝ),
      s'.at' row = .ok (z, yy) → z.length = cols.length → f.confidence s' row = .ok
        ((ys.map fun u => (u, nbVal cols t w z u)).foldl (fun a b => if NBayesClassifier.gt a.2 b.2 then a else b)
          (y, nbVal cols t w z y)).1 := by
  classical
  refine ⟨_, produce_ok hs w h2 hw, fun s' row z yy hz hlen => ?_⟩
  have hp : ∀ l : List ℝ, NBayesClassifier.probs s' row
      (if ∀ x ∈ cols, 0 < allVar w x then some (codeLog (allMean w) (allVar w) cols z) else none)
      (l.map fun y => (y, max 0 (min 1 (labelMass t w y)), condG cols t w y)) = .ok (l.map fun u => (u, nbVal cols t w z u)) := by
    intro l
    induction l with
    | nil => rfl
    | cons u l ih =>
      have := log_ok hz cols hlen (condMean t w u) (condVar t w u)
      simp only [List.map_cons, NBayesClassifier.probs, condG, this]
      simp only [condG] at ih
      rw [ih]
      rfl
  simp only [NBayesClassifier.confidence, NBayesClassifier.probabilities, log_ok hz cols hlen, hp]
  rw [e, List.map_cons]

theorem nb_prior {t w : List ℝ} (h2 : w.length = t.length) (hw : IsProb w) (y : ℝ) :
    max 0 (min 1 (labelMass t w y)) = labelMass t w y := by
  have h1 : labelMass t w y ≤ 1 := by
    rw [← hw.2, LP.sum_getD, h2]
    apply Finset.sum_le_sum
    intro i _
    split
    · exact le_rfl
    · exact getD_nonneg w hw.1 i
  rw [min_eq_right h1, max_eq_right (mass_nonneg t w hw.1 y)]

theorem nb_allVar_pos {t w x : List ℝ} (hx : x.length = t.length) (h2 : w.length = t.length) (hw : IsProb w) (y : ℝ)
    (hv : 0 < condVar t w y x) : 0 < allVar w x := by
  by_contra hneg
  have hsum : allVar w x = ∑ i ∈ Finset.range t.length, w.getD i 0 * (x.getD i 0 - allMean w x) ^ 2 := by
    rw [allVar, NN.sum_zipWith _ _ _ (by rw [hx, h2]), h2]
  have hnn : ∀ i ∈ Finset.range t.length, 0 ≤ w.getD i 0 * (x.getD i 0 - allMean w x) ^ 2 :=
    fun i _ => mul_nonneg (getD_nonneg w hw.1 i) (sq_nonneg _)
  have h0 : allVar w x = 0 := le_antisymm (not_lt.1 hneg) (by rw [hsum]; exact Finset.sum_nonneg hnn)
  rw [hsum, Finset.sum_eq_zero_iff_of_nonneg hnn] at h0
  have hm : labelMass t w y ≠ 0 := by
    intro h
    rw [condVar, h, div_zero] at hv
    exact lt_irrefl _ hv
  have hi : ∀ i ∈ Finset.range t.length, w.getD i 0 = 0 ∨ x.getD i 0 = allMean w x := by
    intro i hi
    rcases mul_eq_zero.1 (h0 i hi) with h | h
    · exact .inl h
    · exact .inr (by have := pow_eq_zero_iff (two_ne_zero) |>.1 h; linarith)
  have hc : condMean t w y x = allMean w x := by
    rw [condMean, div_eq_iff hm, labelMass, Finset.mul_sum]
    apply Finset.sum_congr rfl
    intro i h
    split
    · rcases hi i h with h | h
      · rw [h]; ring
      · rw [h]; ring
    · ring
  have : condVar t w y x = 0 := by
    rw [condVar, div_eq_zero_iff]
    left
    apply Finset.sum_eq_zero
    intro i h
    split
    · rcases hi i h with h | h
      · rw [h]; ring
      · rw [hc, h]; ring
    · rfl
  linarith

theorem nb_labels {s : Sample ℝ} {t : List ℝ} (ht : s.target = t) (hne : t ≠ []) :
    ∃ y ys, s.uniqueTarget = y :: ys ∧ ∀ u, u ∈ y :: ys ↔ u ∈ t := by
  have h := (unique_target_spec s).2
  have : s.uniqueTarget ≠ [] := by
    intro h0
    obtain ⟨a, t', rfl⟩ := List.exists_cons_of_ne_nil hne
    have := (h a).2 (by rw [ht]; simp)
    rw [h0] at this
    simp at this
  obtain ⟨y, ys, e⟩ := List.exists_cons_of_ne_nil this
  exact ⟨y, ys, e, fun u => by rw [← e, h, ht]⟩

/-- On a sample with dense columns and a probability vector, training does not panic; the fitted classifier answers
every row, of any sample with as many columns, with one of the training labels. -/
theorem nb_answers_with_label {s : Sample ℝ} {cols : List (List ℝ)} {t : List ℝ} (hs : DenseSample s cols t) (hne : t ≠ [])
    (w : List ℝ) (h2 : w.length = t.length) (hw : IsProb w) :
    ∃ f, GaussianNB.produce s w = .ok f ∧ ∀ (s' : Sample ℝ) (row : Nat) (z : List ℝ) (yy : ℝ),
      s'.at' row = .ok (z, yy) → z.length = cols.length → ∃ y ∈ t, f.confidence s' row = .ok y := by
  obtain ⟨y, ys, e, hmem⟩ := nb_labels hs.target hne
  obtain ⟨f, hf, h⟩ := nb_confidence hs w h2 hw y ys e
  refine ⟨f, hf, fun s' row z yy hz hlen => ⟨_, ?_, h s' row z yy hz hlen⟩⟩
  rw [← hmem]
  have := reduce_mem (ys.map fun u => (u, nbVal cols t w z u)) (y, nbVal cols t w z y)
  rcases List.mem_cons.1 this with h | h
  · rw [h]; simp
  · obtain ⟨u, hu, h⟩ := List.mem_map.1 h
    rw [← h]
    exact List.mem_cons_of_mem _ hu

/-- What the classifier maximises: the naive-Bayes score divided by the `(d-1)`-st power of the product of the standard
deviations, for `d` columns. -/
noncomputable def codeScore (cols : List (List ℝ)) (t w z : List ℝ) (y : ℝ) : ℝ :=
  bayesScore cols t w z y / (cols.map fun x => √(condVar t w y x)).prod ^ (cols.length - 1)

/-- The label the classifier answers with maximises `codeScore`, whenever every label has positive variance in every
column. -/
theorem nb_maximises {s : Sample ℝ} {cols : List (List ℝ)} {t : List ℝ} (hs : DenseSample s cols t) (hne : t ≠ [])
    (w : List ℝ) (h2 : w.length = t.length) (hw : IsProb w) (hv : ∀ y ∈ t, ∀ x ∈ cols, 0 < condVar t w y x) :
    ∃ f, GaussianNB.produce s w = .ok f ∧ ∀ (s' : Sample ℝ) (row : Nat) (z : List ℝ) (yy : ℝ),
      s'.at' row = .ok (z, yy) → z.length = cols.length → ∃ y ∈ t, f.confidence s' row = .ok y ∧
        ∀ u ∈ t, codeScore cols t w z u ≤ codeScore cols t w z y := by
  obtain ⟨y, ys, e, hmem⟩ := nb_labels hs.target hne
  obtain ⟨f, hf, h⟩ := nb_confidence hs w h2 hw y ys e
  refine ⟨f, hf, fun s' row z yy hz hlen => ?_⟩
  have hall : ∀ x ∈ cols, 0 < allVar w x := fun x hx =>
    nb_allVar_pos (hs.len x hx) h2 hw y (hv y ((hmem y).1 (by simp)) x hx)
  set a := codeLog (allMean w) (allVar w) cols z with ha
  have hp : ∀ u ∈ y :: ys, nbVal cols t w z u = some (codeScore cols t w z u * exp (-a)) := by
    intro u hu
    have hvu := hv u ((hmem u).1 hu)
    rw [nbVal, if_pos hvu, if_pos hall, NBayesClassifier.prob, nb_prior h2 hw, sub_eq_add_neg, exp_add,
      exp_codeLog _ _ _ _ hlen hvu, codeScore, bayesScore]
    congr 1
    ring
  have hmap : (ys.map fun u => (u, nbVal cols t w z u)) = ys.map fun u => (u, some (codeScore cols t w z u * exp (-a))) := by
    apply List.map_congr_left
    intro u hu
    rw [hp u (List.mem_cons_of_mem _ hu)]
  obtain ⟨y', h3, h4, h5⟩ := reduce_max (fun u => codeScore cols t w z u * exp (-a)) ys y
  refine ⟨y', (hmem y').1 h3, ?_, fun u hu => ?_⟩
  · rw [h s' row z yy hz hlen, hmap, hp y (by simp), h4]
  · exact le_of_mul_le_mul_right (h5 u ((hmem u).2 hu)) (exp_pos _)

/-- With a single column, the classifier answers with a label maximising prior times Gaussian density, with the weighted
means and variances of the training sample.  Missing (false): two and more columns, see `nb_wrong_two_columns`. -/
theorem nb_one_column_partial {s : Sample ℝ} {x t : List ℝ} (hs : DenseSample s [x] t) (hne : t ≠ [])
    (w : List ℝ) (h2 : w.length = t.length) (hw : IsProb w) (hv : ∀ y ∈ t, 0 < condVar t w y x) :
    ∃ f, GaussianNB.produce s w = .ok f ∧ ∀ (s' : Sample ℝ) (row : Nat) (a yy : ℝ),
      s'.at' row = .ok ([a], yy) → ∃ y ∈ t, f.confidence s' row = .ok y ∧
        ∀ u ∈ t, bayesScore [x] t w [a] u ≤ bayesScore [x] t w [a] y := by
  obtain ⟨f, h3, h4⟩ := nb_maximises hs hne w h2 hw (fun y hy x' hx => by
    rw [List.mem_singleton] at hx; subst hx; exact hv y hy)
  refine ⟨f, h3, fun s' row a yy h => ?_⟩
  obtain ⟨y, h5, h6, h7⟩ := h4 s' row [a] yy h rfl
  refine ⟨y, h5, h6, fun u hu => ?_⟩
  have := h7 u hu
  simpa [codeScore] using this

/-- With any number of columns, the answer is right when the product of the variances is the same for all labels. -/
theorem nb_equal_variances_partial {s : Sample ℝ} {cols : List (List ℝ)} {t : List ℝ} (hs : DenseSample s cols t)
    (hne : t ≠ []) (w : List ℝ) (h2 : w.length = t.length) (hw : IsProb w)
    (hv : ∀ y ∈ t, ∀ x ∈ cols, 0 < condVar t w y x)
    (heq : ∀ y ∈ t, ∀ u ∈ t, (cols.map fun x => √(condVar t w y x)).prod = (cols.map fun x => √(condVar t w u x)).prod) :
    ∃ f, GaussianNB.produce s w = .ok f ∧ ∀ (s' : Sample ℝ) (row : Nat) (z : List ℝ) (yy : ℝ),
      s'.at' row = .ok (z, yy) → z.length = cols.length → ∃ y ∈ t, f.confidence s' row = .ok y ∧
        ∀ u ∈ t, bayesScore cols t w z u ≤ bayesScore cols t w z y := by
  obtain ⟨f, h3, h4⟩ := nb_maximises hs hne w h2 hw hv
  refine ⟨f, h3, fun s' row z yy h hlen => ?_⟩
  obtain ⟨y, h5, h6, h7⟩ := h4 s' row z yy h hlen
  refine ⟨y, h5, h6, fun u hu => ?_⟩
  have := h7 u hu
  rw [codeScore, codeScore, heq u hu y h5] at this
  have hpos : 0 < (cols.map fun x => √(condVar t w y x)).prod ^ (cols.length - 1) := by
    apply pow_pos
    apply List.prod_pos
    intro a ha
    obtain ⟨x, hx, rfl⟩ := List.mem_map.1 ha
    exact sqrt_pos.2 (hv y h5 x hx)
  exact (div_le_div_iff_of_pos_right hpos).1 this

/-- If a column is constant, the classifier answers every row with the largest label: all probabilities are NaN. -/
theorem nb_constant_column {s : Sample ℝ} {cols : List (List ℝ)} {t : List ℝ} (hs : DenseSample s cols t) (hne : t ≠ [])
    (w : List ℝ) (h2 : w.length = t.length) (hw : IsProb w) (c : ℝ) (hc : List.replicate t.length c ∈ cols) :
    ∃ f, GaussianNB.produce s w = .ok f ∧ ∀ (s' : Sample ℝ) (row : Nat) (z : List ℝ) (yy : ℝ),
      s'.at' row = .ok (z, yy) → z.length = cols.length → ∃ y ∈ t, f.confidence s' row = .ok y ∧ ∀ u ∈ t, u ≤ y := by
  obtain ⟨y, ys, e, hmem⟩ := nb_labels hs.target hne
  obtain ⟨f, hf, h⟩ := nb_confidence hs w h2 hw y ys e
  refine ⟨f, hf, fun s' row z yy hz hlen => ?_⟩
  have hall : ¬ ∀ x ∈ cols, 0 < allVar w x := by
    intro h
    have := h _ hc
    have hm : allMean w (List.replicate t.length c) = c := by
      rw [allMean, NN.sum_zipWith _ _ _ (by simp [h2])]
      rw [Finset.sum_congr rfl (g := fun i => c * w.getD i 0)]
      · rw [← Finset.mul_sum, ← LP.sum_getD, hw.2, mul_one]
      · intro i hi
        have hi := Finset.mem_range.1 hi
        rw [List.getD_eq_getElem (List.replicate t.length c) _ (by simp; omega), List.getElem_replicate]
    rw [allVar, hm, NN.sum_zipWith _ _ _ (by simp [h2])] at this
    rw [Finset.sum_eq_zero] at this
    · exact lt_irrefl _ this
    · intro i hi
      have hi := Finset.mem_range.1 hi
      rw [List.getD_eq_getElem (List.replicate t.length c) _ (by simp; omega), List.getElem_replicate]
      ring
  have hsort := (unique_target_spec s).1
  rw [e] at hsort
  have hnone : ∀ u, nbVal cols t w z u = none := by
    intro u
    rw [nbVal, if_neg hall]
    cases (if ∀ x ∈ cols, 0 < condVar t w u x then some (codeLog (condMean t w u) (condVar t w u) cols z) else none) <;> rfl
  rw [h s' row z yy hz hlen]
  rcases List.eq_nil_or_concat ys with rfl | ⟨ys', q, rfl⟩
  · refine ⟨y, (hmem y).1 (by simp), rfl, fun u hu => ?_⟩
    have := (hmem u).2 hu
    simp at this
    exact this.le
  · refine ⟨q, (hmem q).1 (by simp), ?_, fun u hu => ?_⟩
    · rw [List.concat_eq_append, List.map_append, List.map_cons, List.map_nil, reduce_last _ _ _ (hnone q)]
    · have := (hmem u).2 hu
      rw [List.concat_eq_append] at this hsort
      have hsort' : ((y :: ys') ++ [q]).Pairwise (· < ·) := hsort
      rw [List.pairwise_append] at hsort'
      have hm : u ∈ (y :: ys') ++ [q] := this
      rcases List.mem_append.1 hm with h | h
      · exact (hsort'.2.2 u h q (by simp)).le
      · simp at h; exact h.le

/-- If all the weight is on other labels than the largest one (and there is a column), the classifier nevertheless
answers every row with the largest label: its probability is NaN, and NaN wins the last comparison. -/
theorem nb_weightless_label {s : Sample ℝ} {cols : List (List ℝ)} {t : List ℝ} (hs : DenseSample s cols t) (hne : t ≠ [])
    (w : List ℝ) (h2 : w.length = t.length) (hw : IsProb w) (hc : cols ≠ []) (q : ℝ) (hq : q ∈ t) (hmax : ∀ u ∈ t, u ≤ q)
    (h0 : labelMass t w q = 0) :
    ∃ f, GaussianNB.produce s w = .ok f ∧ ∀ (s' : Sample ℝ) (row : Nat) (z : List ℝ) (yy : ℝ),
      s'.at' row = .ok (z, yy) → z.length = cols.length → f.confidence s' row = .ok q := by
  obtain ⟨y, ys, e, hmem⟩ := nb_labels hs.target hne
  obtain ⟨f, hf, h⟩ := nb_confidence hs w h2 hw y ys e
  refine ⟨f, hf, fun s' row z yy hz hlen => ?_⟩
  have hsort := (unique_target_spec s).1
  rw [e] at hsort
  have hnv : ¬ ∀ x ∈ cols, 0 < condVar t w q x := by
    intro h
    obtain ⟨x, cols', rfl⟩ := List.exists_cons_of_ne_nil hc
    have := h x (by simp)
    rw [condVar, h0, div_zero] at this
    exact lt_irrefl _ this
  have hnone : nbVal cols t w z q = none := by
    rw [nbVal, if_neg hnv]; rfl
  rw [h s' row z yy hz hlen]
  rcases List.eq_nil_or_concat ys with rfl | ⟨ys', r, rfl⟩
  · have := (hmem q).2 hq
    simp at this
    rw [this]; rfl
  · rw [List.concat_eq_append] at hsort hmem
    have hr : r = q := by
      have h1 : r ≤ q := hmax r ((hmem r).1 (by simp))
      have h3 : q ∈ (y :: ys') ++ [r] := (hmem q).2 hq
      have hsort' : ((y :: ys') ++ [r]).Pairwise (· < ·) := hsort
      rw [List.pairwise_append] at hsort'
      rcases List.mem_append.1 h3 with h | h
      · exact le_antisymm h1 (hsort'.2.2 q h r (by simp)).le
      · simp at h; exact h.symm
    subst hr
    rw [List.concat_eq_append, List.map_append, List.map_cons, List.map_nil, reduce_last _ _ _ hnone]

/-! ## Two columns -/

/-- Two dense columns: label `-1` at `(1, 1)` and `(-1, -1)`, label `1` at `(2, 2)`, `(-2, -2)` and `(0, 0)`. -/
def exNBSample : Sample ℝ :=
  { nameToIndex := [("a", 0), ("b", 1)], features := [.dense ⟨"a", [1, -1, 2, -2, 0]⟩, .dense ⟨"b", [1, -1, 2, -2, 0]⟩], target := [-1, -1, 1, 1, 1], nSample := 5, nFeature := 2 }

/-- A probability vector. -/
noncomputable def exNBDist : List ℝ := [1 / 8, 1 / 8, 3 / 16, 3 / 16, 3 / 8]

theorem exNB_dense : DenseSample exNBSample [[1, -1, 2, -2, 0], [1, -1, 2, -2, 0]] [-1, -1, 1, 1, 1] :=
  ⟨rfl, .cons ⟨_, rfl⟩ (.cons ⟨_, rfl⟩ .nil), by simp⟩

theorem exNB_prob : IsProb exNBDist := by
  constructor
  · intro p hp
    simp only [exNBDist, List.mem_cons, List.not_mem_nil, or_false] at hp
    rcases hp with rfl | rfl | rfl | rfl | rfl <;> norm_num
  · simp [exNBDist]; norm_num

theorem exNB_values (y : ℝ) (hy : y = -1 ∨ y = 1) :
    labelMass [-1, -1, 1, 1, 1] exNBDist y = (if y = 1 then 3 / 4 else 1 / 4) ∧
    condMean [-1, -1, 1, 1, 1] exNBDist y [1, -1, 2, -2, 0] = 0 ∧
    condVar [-1, -1, 1, 1, 1] exNBDist y [1, -1, 2, -2, 0] = (if y = 1 then 2 else 1) := by
  have hm : labelMass [-1, -1, 1, 1, 1] exNBDist y = (if y = 1 then 3 / 4 else 1 / 4) := by
    rcases hy with rfl | rfl <;> simp [labelMass, exNBDist, Finset.sum_range_succ] <;> norm_num
  have hc : condMean [-1, -1, 1, 1, 1] exNBDist y [1, -1, 2, -2, 0] = 0 := by
    rcases hy with rfl | rfl <;> simp [condMean, exNBDist, Finset.sum_range_succ] <;> norm_num
  refine ⟨hm, hc, ?_⟩
  rw [condVar, hc, hm]
  rcases hy with rfl | rfl <;> simp [exNBDist, Finset.sum_range_succ] <;> norm_num

/-- Non-vacuity of `nb_one_column_partial`. -/
example : DenseSample { exNBSample with features := [.dense ⟨"a", [1, -1, 2, -2, 0]⟩] } [[1, -1, 2, -2, 0]] [-1, -1, 1, 1, 1] ∧
    IsProb exNBDist ∧ ∀ y ∈ ([-1, -1, 1, 1, 1] : List ℝ), 0 < condVar [-1, -1, 1, 1, 1] exNBDist y [1, -1, 2, -2, 0] := by
  refine ⟨⟨rfl, .cons ⟨_, rfl⟩ .nil, by simp⟩, exNB_prob, fun y hy => ?_⟩
  have hy' : y = -1 ∨ y = 1 := by simpa using hy
  rw [(exNB_values y hy').2.2]
  split <;> norm_num

/-- **False for two columns**: on the row `(0, 0)` the label `1` has the larger naive-Bayes score, but the classifier
trained on this very sample answers `-1` (the logarithm of the variance is counted once per column too often). -/
theorem nb_wrong_two_columns :
    ∃ f, GaussianNB.produce exNBSample exNBDist = .ok f ∧ f.confidence exNBSample 4 = .ok (-1) ∧
      bayesScore [[1, -1, 2, -2, 0], [1, -1, 2, -2, 0]] [-1, -1, 1, 1, 1] exNBDist [0, 0] (-1) <
        bayesScore [[1, -1, 2, -2, 0], [1, -1, 2, -2, 0]] [-1, -1, 1, 1, 1] exNBDist [0, 0] 1 := by
  obtain ⟨m1, c1, v1⟩ := exNB_values (-1) (.inl rfl)
  obtain ⟨m2, c2, v2⟩ := exNB_values 1 (.inr rfl)
  rw [if_neg (by norm_num)] at m1 v1
  rw [if_pos rfl] at m2 v2
  have hb1 : bayesScore [[1, -1, 2, -2, 0], [1, -1, 2, -2, 0]] [-1, -1, 1, 1, 1] exNBDist [0, 0] (-1) = 1 / 4 / (2 * π) := by
    simp only [bayesScore, List.zipWith_cons_cons, List.zipWith_nil_right, List.prod_cons, List.prod_nil, m1, c1, v1,
      normalDensity]
    have : √(2 * π * 1) * √(2 * π * 1) = 2 * π * 1 := mul_self_sqrt (by positivity)
    simp only [sub_zero, ne_eq, OfNat.ofNat_ne_zero, not_false_eq_true, zero_pow, neg_zero, zero_div, exp_zero, mul_one] at this ⊢
    rw [div_mul_div_comm, this]
    ring
  have hb2 : bayesScore [[1, -1, 2, -2, 0], [1, -1, 2, -2, 0]] [-1, -1, 1, 1, 1] exNBDist [0, 0] 1 = 3 / 8 / (2 * π) := by
    simp only [bayesScore, List.zipWith_cons_cons, List.zipWith_nil_right, List.prod_cons, List.prod_nil, m2, c2, v2,
      normalDensity]
    have : √(2 * π * 2) * √(2 * π * 2) = 2 * π * 2 := mul_self_sqrt (by positivity)
    simp only [sub_zero, ne_eq, OfNat.ofNat_ne_zero, not_false_eq_true, zero_pow, neg_zero, zero_div, exp_zero, mul_one] at this ⊢
    rw [div_mul_div_comm, this]
    field_simp
    norm_num
  have hlabel : ∀ y ∈ ([-1, -1, 1, 1, 1] : List ℝ), y = -1 ∨ y = 1 := by
    intro y hy
    simp at hy
    exact hy
  obtain ⟨f, h3, h4⟩ := nb_maximises exNB_dense (by simp) exNBDist rfl exNB_prob (by
    intro y hy x hx
    simp at hx
    subst hx
    rw [(exNB_values y (hlabel y hy)).2.2]
    split <;> norm_num)
  refine ⟨f, h3, ?_, ?_⟩
  · obtain ⟨y, h5, h6, h7⟩ := h4 exNBSample 4 [0, 0] 1 rfl rfl
    rcases hlabel y h5 with rfl | rfl
    · exact h6
    · exfalso
      have := h7 (-1) (by simp)
      rw [codeScore, codeScore, hb1, hb2] at this
      simp only [List.map_cons, List.map_nil, v1, v2, List.prod_cons, List.prod_nil, List.length_cons, List.length_nil, sqrt_one,
        mul_one, mul_self_sqrt (zero_le_two (α := ℝ))] at this
      simp only [Nat.zero_add, Nat.add_one_sub_one, one_pow, pow_one, div_one] at this
      have hp : 0 < (2 * π)⁻¹ := by positivity
      rw [div_eq_mul_inv _ (2 * π), div_eq_mul_inv (3 / 8) (2 * π)] at this
      linarith
  · rw [hb1, hb2]
    have hp := pi_pos
    apply div_lt_div_of_pos_right _ (by positivity)
    norm_num

end Miniboosts.Props
