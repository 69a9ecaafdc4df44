import Verif.Spec.NaiveBayes
import Verif.Lemmas.MLPBoost
import Verif.Lemmas.NNGrad
import Verif.Props.Sample

/-! # Fitting and evaluating the Gaussian naive-Bayes classifier -/

namespace Miniboosts.NB

open Real Spec

theorem zip3_sum (f : (ℝ × ℝ) × ℝ → ℝ) (x t w : List ℝ) (h1 : x.length = t.length) (h2 : w.length = t.length) :
    (((x.zip t).zip w).map f).sum = ∑ i ∈ Finset.range t.length, f ((x.getD i 0, t.getD i 0), w.getD i 0) := by
  rw [LP.sum_getD]
  simp only [List.length_map, List.length_zip, h1, h2, min_self]
  apply Finset.sum_congr rfl
  intro i hi
  have hi := Finset.mem_range.1 hi
  rw [List.getD_eq_getElem _ _ (by simp [h1, h2, hi]), List.getElem_map, List.getElem_zip, List.getElem_zip,
    List.getD_eq_getElem x _ (by omega), List.getD_eq_getElem t _ hi, List.getD_eq_getElem w _ (by omega)]

theorem filterMap_sum (y : ℝ) (l : List (ℝ × ℝ)) :
    (l.filterMap (fun p => if p.1 = y then some p.2 else none)).sum = (l.map fun p => if p.1 = y then p.2 else 0).sum := by
  induction l with
  | nil => rfl
  | cons p l ih =>
    by_cases h : p.1 = y
    · simp [h, ih]
    · simp [h, ih]

theorem mass_eq (t w : List ℝ) (h : w.length = t.length) (y : ℝ) : totalWeightForLabel y t w = labelMass t w y := by
  rw [totalWeightForLabel, filterMap_sum, labelMass, LP.sum_getD]
  simp only [List.length_map, List.length_zip, h, min_self]
  apply Finset.sum_congr rfl
  intro i hi
  have hi := Finset.mem_range.1 hi
  rw [List.getD_eq_getElem _ _ (by simp [h, hi]), List.getElem_map, List.getElem_zip,
    List.getD_eq_getElem t _ hi, List.getD_eq_getElem w _ (by omega)]

theorem getD_nonneg (w : List ℝ) (hw : ∀ p ∈ w, 0 ≤ p) (i : Nat) : 0 ≤ w.getD i 0 := by
  by_cases h : i < w.length
  · exact hw _ (LP.getD_mem w i h)
  · rw [List.getD_eq_default _ _ (by omega)]

theorem mass_nonneg (t w : List ℝ) (hw : ∀ p ∈ w, 0 ≤ p) (y : ℝ) : 0 ≤ labelMass t w y :=
  Finset.sum_nonneg fun i _ => by
    split
    · exact getD_nonneg w hw i
    · exact le_rfl

theorem mass_zero (t w : List ℝ) (hw : ∀ p ∈ w, 0 ≤ p) (y : ℝ) (h : labelMass t w y = 0) (g : Nat → ℝ) :
    (∑ i ∈ Finset.range t.length, if t.getD i 0 = y then w.getD i 0 * g i else 0) = 0 := by
  have := (Finset.sum_eq_zero_iff_of_nonneg (fun i _ => by
    split
    · exact getD_nonneg w hw i
    · exact le_rfl)).1 h
  apply Finset.sum_eq_zero
  intro i hi
  have := this i hi
  split
  · rename_i h2
    rw [if_pos h2] at this
    rw [this, zero_mul]
  · rfl

theorem mean_eq (name : String) (x t w : List ℝ) (h1 : x.length = t.length) (h2 : w.length = t.length)
    (hw : ∀ p ∈ w, 0 ≤ p) (y : ℝ) : (⟨name, x⟩ : DenseFeature ℝ).weightedMeanForLabel y t w = condMean t w y x := by
  rw [DenseFeature.weightedMeanForLabel, zip3_sum _ _ _ _ h1 h2, condMean, labelWeight, mass_eq t w h2]
  have e : (∑ i ∈ Finset.range t.length, if t.getD i 0 ≠ y then 0 else x.getD i 0 * w.getD i 0) =
      ∑ i ∈ Finset.range t.length, if t.getD i 0 = y then w.getD i 0 * x.getD i 0 else 0 := by
    apply Finset.sum_congr rfl
    intro i _
    by_cases h : t.getD i 0 = y
    · rw [if_neg (by simpa using h), if_pos h, mul_comm]
    · rw [if_pos h, if_neg h]
  simp only [e]
  by_cases h : labelMass t w y = 0
  · rw [mass_zero t w hw y h fun i => x.getD i 0]; simp
  · rw [if_neg h]

theorem var_eq (name : String) (x t w : List ℝ) (h1 : x.length = t.length) (h2 : w.length = t.length)
    (hw : ∀ p ∈ w, 0 ≤ p) (y : ℝ) :
    (⟨name, x⟩ : DenseFeature ℝ).weightedVarianceForLabel (condMean t w y x) y t w = condVar t w y x := by
  rw [DenseFeature.weightedVarianceForLabel, zip3_sum _ _ _ _ h1 h2, condVar, labelWeight, mass_eq t w h2]
  have e : (∑ i ∈ Finset.range t.length, if t.getD i 0 ≠ y then 0 else w.getD i 0 * (x.getD i 0 - condMean t w y x) ^ 2) =
      ∑ i ∈ Finset.range t.length, if t.getD i 0 = y then w.getD i 0 * (x.getD i 0 - condMean t w y x) ^ 2 else 0 := by
    apply Finset.sum_congr rfl
    intro i _
    by_cases h : t.getD i 0 = y
    · rw [if_neg (by simpa using h), if_pos h]
    · rw [if_pos h, if_neg h]
  simp only [e]
  by_cases h : labelMass t w y = 0
  · rw [mass_zero t w hw y h fun i => (x.getD i 0 - condMean t w y x) ^ 2]; simp
  · rw [if_neg h]

/-- The weighted mean of a column over the whole sample. -/
noncomputable def allMean (w x : List ℝ) : ℝ := (List.zipWith (fun x w => x * w) x w).sum

/-- The weighted variance of a column over the whole sample. -/
noncomputable def allVar (w x : List ℝ) : ℝ := (List.zipWith (fun a p => p * (a - allMean w x) ^ 2) x w).sum

/-- The Gaussian fitted to one label. -/
noncomputable def condG (cols : List (List ℝ)) (t w : List ℝ) (y : ℝ) : Gaussian :=
  { means := cols.map (condMean t w y), vars := cols.map (condVar t w y) }

theorem mapAll_forall₂ {B : Type*} {f : Feature ℝ → Except Panic B} {fs : List (Feature ℝ)} {bs : List B}
    (h : List.Forall₂ (fun a b => f a = .ok b) fs bs) : Sample.mapAll f fs = .ok bs := by
  induction h with
  | nil => rfl
  | cons h _ ih => unfold Sample.mapAll; rw [h, ih]; rfl

theorem mapAll_inv {B : Type*} {f : Feature ℝ → Except Panic B} {fs : List (Feature ℝ)} {bs : List B} (h : Sample.mapAll f fs = .ok bs) :
    List.Forall₂ (fun a b => f a = .ok b) fs bs := by
  induction fs generalizing bs with
  | nil => unfold Sample.mapAll at h; injection h with h; subst h; exact .nil
  | cons a fs ih =>
    unfold Sample.mapAll at h
    cases ha : f a with
    | error e => rw [ha] at h; simp at h
    | ok b =>
      rw [ha] at h
      cases hr : Sample.mapAll f fs with
      | error e => rw [hr] at h; simp [Except.map] at h
      | ok r =>
        rw [hr] at h
        simp [Except.map] at h
        subst h
        exact .cons ha (ih hr)

theorem forall₂_right {A B : Type*} {R : A → B → Prop} {P : B → Prop} {l : List A} {m : List B} (h : List.Forall₂ R l m)
    (hp : ∀ x ∈ m, P x) : List.Forall₂ (fun a b => R a b ∧ P b) l m := by
  induction h with
  | nil => exact .nil
  | cons h _ ih => exact .cons ⟨h, hp _ List.mem_cons_self⟩ (ih fun x hx => hp x (List.mem_cons_of_mem _ hx))

theorem fit_ok {s : Sample ℝ} {cols : List (List ℝ)} {t : List ℝ} (hs : DenseSample s cols t) (w : List ℝ)
    (h2 : w.length = t.length) (hw : ∀ p ∈ w, 0 ≤ p) (ys : List ℝ) :
    GaussianNB.fit s w ys = .ok (ys.map fun y => (y, max 0 (min 1 (labelMass t w y)), condG cols t w y)) := by
  induction ys with
  | nil => rfl
  | cons y ys ih =>
    have hm : s.weightedMeanAndVarianceForLabel y w = .ok (cols.map fun x => (condMean t w y x, condVar t w y x)) := by
      rw [Sample.weightedMeanAndVarianceForLabel]
      apply mapAll_forall₂
      rw [List.forall₂_map_right_iff]
      refine (forall₂_right hs.features hs.len).imp ?_
      rintro f x ⟨⟨name, rfl⟩, hx⟩
      simp only [Feature.weightedMeanAndVarianceForLabel, Feature.weightedMeanForLabel, hs.target]
      rw [mean_eq name x t w hx h2 hw, var_eq name x t w hx h2 hw]
    simp only [GaussianNB.fit, hm, Gaussian.new, List.length_map, List.map_map, ih]
    rw [if_neg (by simp)]
    simp only [List.map_cons, hs.target, mass_eq t w h2]
    rfl

theorem produce_ok {s : Sample ℝ} {cols : List (List ℝ)} {t : List ℝ} (hs : DenseSample s cols t) (w : List ℝ)
    (h2 : w.length = t.length) (hw : IsProb w) :
    GaussianNB.produce s w = .ok
      { conditionals := s.uniqueTarget.map fun y => (y, max 0 (min 1 (labelMass t w y)), condG cols t w y)
        density := { means := cols.map (allMean w), vars := cols.map (allVar w) } } := by
  have hm : s.weightedMeanAndVariance w = .ok (cols.map fun x => (allMean w x, allVar w x)) := by
    rw [Sample.weightedMeanAndVariance]
    apply mapAll_forall₂
    rw [List.forall₂_map_right_iff]
    refine hs.features.imp ?_
    rintro f x ⟨name, rfl⟩
    simp only [Feature.weightedMeanAndVariance, Feature.weightedMean, MLPBoost.checkSimplex_prob hw]
    rfl
  simp only [GaussianNB.produce, fit_ok hs w h2 hw.1, hm, Gaussian.new, List.length_map, List.map_map]
  rw [if_neg (by simp)]
  rfl

/-! ## Evaluation -/

open Classical in
theorem nonConst_ok {feats : List (Feature ℝ)} {z : List ℝ} {row : Nat}
    (hz : List.Forall₂ (fun f a => f.index row = .ok a) feats z) (n : Nat) (m v : List ℝ → ℝ) (cols : List (List ℝ)) :
    Gaussian.nonConst n row (((cols.map m).zip (cols.map v)).zip feats) = .ok
      (if ∀ p ∈ cols.zip z, 0 < v p.1 then
        some (List.zipWith (fun x a => (a - m x) ^ 2 / v x + n * log (v x)) cols z).sum else none) := by
  induction cols generalizing feats z with
  | nil => simp [Gaussian.nonConst]
  | cons x cols ih =>
    cases hz with
    | nil => simp [Gaussian.nonConst]
    | @cons f a feats z hfa hz =>
      simp only [List.map_cons, List.zip_cons_cons, Gaussian.nonConst, hfa, ih hz, List.mem_cons, forall_eq_or_imp,
        List.zipWith_cons_cons, List.sum_cons]
      by_cases h : ∀ p ∈ cols.zip z, 0 < v p.1
      · by_cases hx : 0 < v x
        · have h' : (0 < v x ∧ ∀ p ∈ cols.zip z, 0 < v p.1) := ⟨hx, h⟩
          rw [if_pos h, if_pos h']
          simp only
          rw [if_neg (by linarith)]
        · rw [if_pos h, if_neg (fun h' => hx h'.1)]
          simp only
          rw [if_pos (by linarith)]
      · rw [if_neg h, if_neg (fun h' => h h'.2)]

theorem zip_forall (cols : List (List ℝ)) (z : List ℝ) (h : z.length = cols.length) (P : List ℝ → Prop) :
    (∀ p ∈ cols.zip z, P p.1) ↔ ∀ x ∈ cols, P x := by
  constructor
  · intro hp x hx
    obtain ⟨i, hi, rfl⟩ := List.mem_iff_getElem.1 hx
    have : (cols[i], z[i]) ∈ cols.zip z := by
      rw [List.mem_iff_getElem]
      exact ⟨i, by simp [h, hi], by simp⟩
    exact hp _ this
  · intro hp p hm
    exact hp p.1 (List.of_mem_zip (a := p.1) (b := p.2) hm).1

/-- The logarithm of the density as the code computes it. -/
noncomputable def codeLog (m v : List ℝ → ℝ) (cols : List (List ℝ)) (z : List ℝ) : ℝ :=
  -(1 / 2) * (cols.length * log (2 * π) + (List.zipWith (fun x a => (a - m x) ^ 2 / v x + cols.length * log (v x)) cols z).sum)

open Classical in
theorem log_ok {s : Sample ℝ} {row : Nat} {z : List ℝ} {yy : ℝ} (h : s.at' row = .ok (z, yy)) (cols : List (List ℝ))
    (hz : z.length = cols.length) (m v : List ℝ → ℝ) :
    Gaussian.logProbability { means := cols.map m, vars := cols.map v } s row = .ok
      (if ∀ x ∈ cols, 0 < v x then some (codeLog m v cols z) else none) := by
  have hf : List.Forall₂ (fun f a => f.index row = .ok a) s.features z := by
    rw [Sample.at'] at h
    cases hm : Sample.mapAll (fun f => f.index row) s.features with
    | error e => rw [hm] at h; simp at h
    | ok x =>
      rw [hm] at h
      cases ht : s.target[row]? with
      | none => rw [ht] at h; simp at h
      | some y =>
        rw [ht] at h
        simp at h
        rw [← h.1]
        exact mapAll_inv hm
  simp only [Gaussian.logProbability, nonConst_ok hf, List.length_map, zip_forall cols z hz fun x => 0 < v x, Except.map]
  split <;> simp [codeLog]

/-- The per-column factor. -/
theorem factor (n : Nat) (hn : 0 < n) (μ v a : ℝ) (hv : 0 < v) :
    exp (-(1 / 2) * (log (2 * π) + ((a - μ) ^ 2 / v + n * log v))) = normalDensity μ v a / √v ^ (n - 1) := by
  have hp : 0 < 2 * π := by positivity
  have hs : √(2 * π * v) = exp (1 / 2 * log (2 * π) + 1 / 2 * log v) := by
    rw [← mul_add, ← log_mul hp.ne' hv.ne', sqrt_eq_rpow, rpow_def_of_pos (by positivity), mul_comm]
  have hs2 : √v ^ (n - 1) = exp ((n - 1 : ℝ) * (1 / 2 * log v)) := by
    rw [sqrt_eq_rpow, rpow_def_of_pos hv, ← exp_nat_mul, Nat.cast_sub hn, Nat.cast_one, mul_comm (log v)]
  rw [normalDensity, hs, hs2, ← exp_sub, ← exp_sub]
  congr 1
  have : v ≠ 0 := hv.ne'
  field_simp
  ring

theorem exp_codeLog (m v : List ℝ → ℝ) (cols : List (List ℝ)) (z : List ℝ) (hz : z.length = cols.length)
    (hv : ∀ x ∈ cols, 0 < v x) :
    exp (codeLog m v cols z) =
      (List.zipWith (fun x a => normalDensity (m x) (v x) a) cols z).prod / (cols.map fun x => √(v x)).prod ^ (cols.length - 1) := by
  have key : ∀ (n : Nat), 0 < n → ∀ (cols : List (List ℝ)) (z : List ℝ), z.length = cols.length → (∀ x ∈ cols, 0 < v x) →
      exp (-(1 / 2) * (cols.length * log (2 * π) + (List.zipWith (fun x a => (a - m x) ^ 2 / v x + n * log (v x)) cols z).sum)) =
        (List.zipWith (fun x a => normalDensity (m x) (v x) a) cols z).prod / (cols.map fun x => √(v x)).prod ^ (n - 1) := by
    intro n hn cols
    induction cols with
    | nil => intro z _ _; simp
    | cons x cols ih =>
      intro z hz hv
      cases z with
      | nil => simp at hz
      | cons a z =>
        have := ih z (by simpa using hz) fun x hx => hv x (List.mem_cons_of_mem _ hx)
        simp only [List.zipWith_cons_cons, List.sum_cons, List.prod_cons, List.map_cons, List.length_cons]
        rw [mul_pow, mul_div_mul_comm, ← this, ← factor n hn _ _ _ (hv x List.mem_cons_self), ← exp_add]
        congr 1
        push_cast
        ring
  cases cols with
  | nil =>
    simp [codeLog]
  | cons x cols => exact key _ (by simp) _ z hz hv

/-! ## The maximum -/

theorem reduce_mem (ps : List (ℝ × Option ℝ)) : ∀ p, (ps.foldl (fun a b => if NBayesClassifier.gt a.2 b.2 then a else b) p) ∈ p :: ps := by
  induction ps with
  | nil => intro p; simp
  | cons q ps ih =>
    intro p
    rw [List.foldl_cons]
    have := ih (if NBayesClassifier.gt p.2 q.2 then p else q)
    rcases List.mem_cons.1 this with h | h
    · rw [h]; split <;> simp
    · exact List.mem_cons_of_mem _ (List.mem_cons_of_mem _ h)

theorem reduce_max (f : ℝ → ℝ) (ys : List ℝ) : ∀ y, ∃ y', y' ∈ y :: ys ∧
    ((ys.map fun y => (y, some (f y))).foldl (fun a b => if NBayesClassifier.gt a.2 b.2 then a else b) (y, some (f y))) =
      (y', some (f y')) ∧ ∀ u ∈ y :: ys, f u ≤ f y' := by
  induction ys with
  | nil => intro y; exact ⟨y, by simp, rfl, by simp⟩
  | cons q ys ih =>
    intro y
    simp only [List.map_cons, List.foldl_cons, NBayesClassifier.gt, decide_eq_true_eq]
    by_cases h : f q < f y
    · obtain ⟨y', h1, h2, h3⟩ := ih y
      rw [if_pos h]
      refine ⟨y', ?_, h2, ?_⟩
      · rcases List.mem_cons.1 h1 with h1 | h1
        · rw [h1]; simp
        · exact List.mem_cons_of_mem _ (List.mem_cons_of_mem _ h1)
      · intro u hu
        rcases List.mem_cons.1 hu with rfl | hu
        · exact h3 u (by simp)
        · rcases List.mem_cons.1 hu with rfl | hu
          · exact le_trans h.le (h3 y (by simp))
          · exact h3 u (List.mem_cons_of_mem _ hu)
    · obtain ⟨y', h1, h2, h3⟩ := ih q
      rw [if_neg h]
      refine ⟨y', List.mem_cons_of_mem _ h1, h2, ?_⟩
      intro u hu
      rcases List.mem_cons.1 hu with rfl | hu
      · exact le_trans (not_lt.1 h) (h3 q (by simp))
      · exact h3 u hu

theorem reduce_last (ps : List (ℝ × Option ℝ)) (p q : ℝ × Option ℝ) (h : q.2 = none) :
    ((ps ++ [q]).foldl (fun a b => if NBayesClassifier.gt a.2 b.2 then a else b) p) = q := by
  rw [List.foldl_append, List.foldl_cons, List.foldl_nil, h]
  rw [if_neg]
  cases (List.foldl (fun a b => if NBayesClassifier.gt a.2 b.2 then a else b) p ps).2 <;> simp [NBayesClassifier.gt]

end Miniboosts.NB
