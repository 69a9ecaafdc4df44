import Verif.Spec.NeuralNetwork
import Verif.Lemmas.LPBoostOpt
import Mathlib.Analysis.SpecialFunctions.Log.Deriv
import Mathlib.Analysis.SpecialFunctions.ExpDeriv
import Mathlib.Analysis.Calculus.Deriv.Inv
import Mathlib.Analysis.Calculus.Deriv.Pow

/-! # Derivatives along curves of vectors, and the chain rule through a network -/

namespace Miniboosts.NN

open Real Spec

/-- The curve `z` of vectors has velocity `v` at time 0. -/
structure Cv (z : ℝ → List ℝ) (v : List ℝ) : Prop where
  len : ∀ t, (z t).length = v.length
  der : ∀ i, HasDerivAt (fun t => (z t).getD i 0) (v.getD i 0) 0

theorem getD_map (f : ℝ → ℝ) (l : List ℝ) (i : Nat) (h : i < l.length) : (l.map f).getD i 0 = f (l.getD i 0) := by
  rw [List.getD_eq_getElem _ _ (by simpa using h), List.getD_eq_getElem _ _ h, List.getElem_map]

theorem getD_range_map (f : Nat → ℝ) (n i : Nat) (h : i < n) : ((List.range n).map f).getD i 0 = f i := by
  rw [List.getD_eq_getElem _ _ (by simpa using h)]; simp

theorem sum_zipWith (f : ℝ → ℝ → ℝ) (p y : List ℝ) (h : p.length = y.length) :
    (List.zipWith f p y).sum = ∑ i ∈ Finset.range y.length, f (p.getD i 0) (y.getD i 0) := by
  rw [LP.sum_getD]
  simp only [List.length_zipWith, h, min_self]
  apply Finset.sum_congr rfl
  intro i hi
  have hi := Finset.mem_range.1 hi
  rw [List.getD_eq_getElem _ _ (by simp [h, hi]), List.getElem_zipWith, List.getD_eq_getElem _ _ (by omega),
    List.getD_eq_getElem _ _ hi]

theorem getD_zipWith (f : ℝ → ℝ → ℝ) (p y : List ℝ) (h : p.length = y.length) (i : Nat) (hi : i < y.length) :
    (List.zipWith f p y).getD i 0 = f (p.getD i 0) (y.getD i 0) := by
  rw [List.getD_eq_getElem _ _ (by simp [h, hi]), List.getElem_zipWith, List.getD_eq_getElem _ _ (by omega),
    List.getD_eq_getElem _ _ hi]

/-! ## The layers -/

theorem affine_length (l : Layer) (z : List ℝ) : (affineFn l z).length = l.nrow := by simp [affineFn]

theorem act_length (a : Activation) (u : List ℝ) : (actFn a u).length = u.length := by
  cases a <;> simp [actFn, softmax]

/-- `W v`. -/
noncomputable def linFn (l : Layer) (v : List ℝ) : List ℝ :=
  (List.range l.nrow).map fun i => ∑ j ∈ Finset.range l.ncol, l.matrix.entry i j * v.getD j 0

theorem Cv.affine {z : ℝ → List ℝ} {v : List ℝ} (h : Cv z v) (l : Layer) : Cv (fun t => affineFn l (z t)) (linFn l v) := by
  refine ⟨fun t => by simp [affineFn, linFn], fun i => ?_⟩
  by_cases hi : i < l.nrow
  · simp only [affineFn, linFn, getD_range_map _ _ _ hi]
    refine HasDerivAt.add_const _ ?_
    apply HasDerivAt.fun_sum
    intro j _
    exact (h.der j).const_mul _
  · have h1 : ∀ t, (affineFn l (z t)).getD i 0 = 0 := fun t => List.getD_eq_default _ _ (by simp [affineFn]; omega)
    have h2 : (linFn l v).getD i 0 = 0 := List.getD_eq_default _ _ (by simp [linFn]; omega)
    simp only [h1, h2]; exact hasDerivAt_const _ _

/-- What the code takes for the derivative of an activation, coordinate by coordinate. -/
noncomputable def actDer : Activation → List ℝ → List ℝ
  | .softMax η, u => (actFn (.softMax η) u).map fun p => η * p * (1 - p)
  | .sigmoid η, u => u.map fun a => η * exp (-η * a) / (1 + exp (-η * a))
  | .reLu θ, u => u.map fun a => if a < θ then 0 else 1
  | .id, u => List.replicate u.length 1

theorem actDer_length (a : Activation) (u : List ℝ) : (actDer a u).length = u.length := by
  cases a <;> simp [actDer, act_length]

theorem relu_hasDeriv (θ a : ℝ) (h : a ≠ θ) :
    HasDerivAt (fun x : ℝ => if x ≤ θ then 0 else x) (if a < θ then 0 else 1) a := by
  rcases lt_or_gt_of_ne h with h | h
  · rw [if_pos h]
    refine (hasDerivAt_const a (0 : ℝ)).congr_of_eventuallyEq ?_
    filter_upwards [Iio_mem_nhds h] with x hx
    rw [if_pos (le_of_lt hx)]
  · rw [if_neg (by linarith)]
    refine (hasDerivAt_id a).congr_of_eventuallyEq ?_
    filter_upwards [Ioi_mem_nhds h] with x hx
    rw [if_neg (not_le.2 hx)]; rfl

theorem Cv.act {u : ℝ → List ℝ} {v : List ℝ} (h : Cv u v) (a : Activation) (ha : HiddenOk a (u 0)) :
    Cv (fun t => actFn a (u t)) (List.zipWith (fun x y => x * y) (actDer a (u 0)) v) := by
  have hl := h.len
  cases a with
  | softMax η => exact ha.elim
  | sigmoid η => exact ha.elim
  | id =>
    have : List.zipWith (fun x y => x * y) (actDer .id (u 0)) v = v := by
      apply List.ext_getElem
      · simp [actDer, hl]
      · intro i h1 h2; simp [actDer]
    rw [this]; exact h
  | reLu θ =>
    refine ⟨fun t => by simp [actFn, actDer, hl], fun i => ?_⟩
    by_cases hi : i < v.length
    · simp only [actFn]
      have e : ∀ t, ((u t).map fun a => if a ≤ θ then (0 : ℝ) else a).getD i 0 =
          (fun a => if a ≤ θ then (0 : ℝ) else a) ((u t).getD i 0) := fun t => getD_map _ _ _ (by rw [hl]; exact hi)
      simp only [e]
      rw [getD_zipWith _ _ _ (by simp [actDer, hl]) _ hi]
      have e2 : (actDer (.reLu θ) (u 0)).getD i 0 = if (u 0).getD i 0 < θ then 0 else 1 :=
        getD_map _ _ _ (by rw [hl]; exact hi)
      rw [e2]
      have hne : (u 0).getD i 0 ≠ θ := by
        apply ha
        rw [List.getD_eq_getElem _ _ (by rw [hl]; exact hi)]
        exact List.getElem_mem _
      exact HasDerivAt.comp (h₂ := fun a => if a ≤ θ then (0 : ℝ) else a) (h := fun t => (u t).getD i 0) (0 : ℝ)
        (relu_hasDeriv θ _ hne) (h.der i)
    · have h1 : ∀ t, (actFn (.reLu θ) (u t)).getD i 0 = 0 :=
        fun t => List.getD_eq_default _ _ (by rw [act_length, hl]; omega)
      have h2 : (List.zipWith (fun x y => x * y) (actDer (.reLu θ) (u 0)) v).getD i 0 = 0 :=
        List.getD_eq_default _ _ (by simp; omega)
      simp only [h1, h2]; exact hasDerivAt_const _ _

/-! ## The output loss -/

theorem output_deriv {u : ℝ → List ℝ} {v : List ℝ} (h : Cv u v) (a : Activation) (y : List ℝ) (hy : y.length = v.length)
    (ha : OutputOk a y) :
    HasDerivAt (fun t => outputLoss a (actFn a (u t)) y)
      (∑ i ∈ Finset.range y.length, ((actFn a (u 0)).getD i 0 - y.getD i 0) * v.getD i 0) 0 := by
  have hl : ∀ t, (u t).length = y.length := fun t => by rw [h.len, hy]
  cases a with
  | reLu θ => exact ha.elim
  | id =>
    have e : ∀ t, outputLoss .id (actFn .id (u t)) y =
        ∑ i ∈ Finset.range y.length, ((u t).getD i 0 - y.getD i 0) ^ 2 / 2 := by
      intro t; exact sum_zipWith (fun p y => (p - y) ^ 2 / 2) _ _ (hl t)
    simp only [e]
    simp only [actFn]
    apply HasDerivAt.fun_sum
    intro i _
    have := (((h.der i).sub_const (y.getD i 0)).fun_pow 2).div_const 2
    refine this.congr_deriv ?_
    norm_num; ring
  | sigmoid η =>
    have hη : η ≠ 0 := ha
    have e : ∀ t, outputLoss (.sigmoid η) (actFn (.sigmoid η) (u t)) y =
        ∑ i ∈ Finset.range y.length,
          (log (1 + exp (-η * (u t).getD i 0)) + (1 - y.getD i 0) * (η * (u t).getD i 0)) / η := by
      intro t
      have h1 : outputLoss (.sigmoid η) (actFn (.sigmoid η) (u t)) y =
          -(List.zipWith (fun p y => y * log p + (1 - y) * log (1 - p)) (actFn (.sigmoid η) (u t)) y).sum / η := rfl
      rw [h1, sum_zipWith _ _ _ (by rw [act_length, hl t]), ← Finset.sum_neg_distrib, Finset.sum_div]
      apply Finset.sum_congr rfl
      intro i hi
      have e2 : (actFn (.sigmoid η) (u t)).getD i 0 = 1 / (1 + exp (-η * (u t).getD i 0)) :=
        getD_map (fun a => 1 / (1 + exp (-η * a))) _ _ (by rw [hl t]; exact Finset.mem_range.1 hi)
      rw [e2]
      set x := (u t).getD i 0
      have hpos : 0 < 1 + exp (-η * x) := by positivity
      have e3 : 1 - 1 / (1 + exp (-η * x)) = exp (-η * x) / (1 + exp (-η * x)) := by field_simp; ring
      rw [e3, log_div one_ne_zero hpos.ne', log_one, log_div (exp_pos _).ne' hpos.ne', log_exp]
      congr 1; ring
    simp only [e]
    apply HasDerivAt.fun_sum
    intro i hi
    have e2 : (actFn (.sigmoid η) (u 0)).getD i 0 = 1 / (1 + exp (-η * (u 0).getD i 0)) :=
      getD_map (fun a => 1 / (1 + exp (-η * a))) _ _ (by rw [hl 0]; exact Finset.mem_range.1 hi)
    rw [e2]
    have hpos : 0 < 1 + exp (-η * (u 0).getD i 0) := by positivity
    have d1 := ((((h.der i).const_mul (-η)).exp).const_add 1).log hpos.ne'
    have d2 := ((h.der i).const_mul η).const_mul (1 - y.getD i 0)
    refine ((d1.add d2).div_const η).congr_deriv ?_
    field_simp; ring
  | softMax η =>
    obtain ⟨hη, hsum⟩ := ha
    have hne : y ≠ [] := by rintro rfl; simp at hsum
    have hn : 0 < y.length := List.length_pos_iff.2 hne
    have hZ : ∀ t, ((((u t).map fun a => η * a)).map exp).sum = ∑ k ∈ Finset.range y.length, exp (η * (u t).getD k 0) := by
      intro t
      rw [List.map_map, LP.sum_getD, List.length_map, hl t]
      apply Finset.sum_congr rfl
      intro k hk
      exact getD_map (exp ∘ fun a => η * a) _ _ (by rw [hl t]; exact Finset.mem_range.1 hk)
    have hZpos : ∀ t, 0 < ∑ k ∈ Finset.range y.length, exp (η * (u t).getD k 0) := by
      intro t
      exact Finset.sum_pos (fun k _ => exp_pos _) ⟨0, Finset.mem_range.2 hn⟩
    have hp : ∀ t, ∀ i < y.length, (actFn (.softMax η) (u t)).getD i 0 =
        exp (η * (u t).getD i 0) / ∑ k ∈ Finset.range y.length, exp (η * (u t).getD k 0) := by
      intro t i hi
      have : actFn (.softMax η) (u t) = (u t).map fun a => exp (η * a) / ∑ k ∈ Finset.range y.length, exp (η * (u t).getD k 0) := by
        simp only [actFn, softmax, List.map_map, ← hZ t]; rfl
      rw [this, getD_map _ _ _ (by rw [hl t]; exact hi)]
    have hys : ∑ i ∈ Finset.range y.length, y.getD i 0 = 1 := by rw [← LP.sum_getD]; exact hsum
    have e : ∀ t, outputLoss (.softMax η) (actFn (.softMax η) (u t)) y =
        log (∑ k ∈ Finset.range y.length, exp (η * (u t).getD k 0)) / η -
          ∑ i ∈ Finset.range y.length, y.getD i 0 * (u t).getD i 0 := by
      intro t
      have h1 : outputLoss (.softMax η) (actFn (.softMax η) (u t)) y =
          -(List.zipWith (fun p y => y * log p) (actFn (.softMax η) (u t)) y).sum / η := rfl
      rw [h1, sum_zipWith _ _ _ (by rw [act_length, hl t])]
      rw [Finset.sum_congr rfl (g := fun i => η * (y.getD i 0 * (u t).getD i 0) -
        y.getD i 0 * log (∑ k ∈ Finset.range y.length, exp (η * (u t).getD k 0)))]
      · rw [Finset.sum_sub_distrib, ← Finset.mul_sum, ← Finset.sum_mul, hys]
        field_simp; ring
      · intro i hi
        rw [hp t i (Finset.mem_range.1 hi), log_div (exp_pos _).ne' (hZpos t).ne', log_exp]; ring
    simp only [e]
    have d1 : HasDerivAt (fun t => ∑ k ∈ Finset.range y.length, exp (η * (u t).getD k 0))
        (∑ k ∈ Finset.range y.length, exp (η * (u 0).getD k 0) * (η * v.getD k 0)) 0 := by
      apply HasDerivAt.fun_sum
      intro k _
      exact ((h.der k).const_mul η).exp
    have d2 : HasDerivAt (fun t => ∑ i ∈ Finset.range y.length, y.getD i 0 * (u t).getD i 0)
        (∑ i ∈ Finset.range y.length, y.getD i 0 * v.getD i 0) 0 := by
      apply HasDerivAt.fun_sum
      intro k _
      exact (h.der k).const_mul _
    refine (((d1.log (hZpos 0).ne').div_const η).sub d2).congr_deriv ?_
    simp only [sub_mul, Finset.sum_sub_distrib]
    congr 1
    rw [Finset.sum_div, Finset.sum_div]
    apply Finset.sum_congr rfl
    intro i hi
    rw [hp 0 i (Finset.mem_range.1 hi)]
    field_simp

/-! ## Back-propagation -/

/-- `δᵀ W`. -/
noncomputable def backW (l : Layer) (δ : List ℝ) : List ℝ :=
  (List.range l.ncol).map fun j => ∑ k ∈ Finset.range l.nrow, δ.getD k 0 * l.matrix.entry k j

/-- The derivative of the loss with respect to the pre-activation of the first layer. -/
noncomputable def deltaOf : List Layer → List ℝ → List ℝ → List ℝ
  | [], _, _ => []
  | [l], z, y => List.zipWith (fun p y => p - y) (actFn l.activation (affineFn l z)) y
  | l :: l' :: ls, z, y =>
    List.zipWith (fun a b => a * b) (actDer l.activation (affineFn l z))
      (backW l' (deltaOf (l' :: ls) (actFn l.activation (affineFn l z)) y))

/-- The activation of the last layer (the identity for the empty network). -/
def lastAct : List Layer → Activation
  | [] => .id
  | [l] => l.activation
  | _ :: l' :: ls => lastAct (l' :: ls)

/-- The chain rule: how the loss changes when the pre-activation of the first layer moves. -/
theorem deriv_pre (post : List Layer) : ∀ (l : Layer) (z y : List ℝ), Regular (l :: post) z y →
    Shaped post l.nrow → y.length = outDim post l.nrow →
    ∀ (u : ℝ → List ℝ) (v : List ℝ), Cv u v → v.length = l.nrow → u 0 = affineFn l z →
    HasDerivAt (fun t => outputLoss (lastAct (l :: post)) (netFn post (actFn l.activation (u t))) y)
      (∑ i ∈ Finset.range l.nrow, (deltaOf (l :: post) z y).getD i 0 * v.getD i 0) 0 := by
  induction post with
  | nil =>
    intro l z y hr _ hy u v hu hv h0
    have := output_deriv hu l.activation y (by rw [hy, hv]; rfl) hr
    simp only [lastAct, netFn]
    refine this.congr_deriv ?_
    simp only [outDim] at hy
    rw [hy]
    apply Finset.sum_congr rfl
    intro i hi
    rw [deltaOf, getD_zipWith _ _ _ (by rw [act_length, affine_length, hy]) _ (by rw [hy]; exact Finset.mem_range.1 hi), h0]
  | cons l' ls ih =>
    intro l z y hr hs hy u v hu hv h0
    obtain ⟨hr1, hr2⟩ := hr
    obtain ⟨hs1, hs2, hs3⟩ := hs
    have hz := hu.act l.activation (by rw [h0]; exact hr1)
    have hu' := hz.affine l'
    have := ih l' (actFn l.activation (affineFn l z)) y hr2 hs3 hy _ _ hu' (by simp [linFn]) (by rw [h0])
    simp only [lastAct, netFn] at this ⊢
    refine this.congr_deriv ?_
    set δ := deltaOf (l' :: ls) (actFn l.activation (affineFn l z)) y with hδ
    have hal : (actDer l.activation (affineFn l z)).length = l.nrow := by rw [actDer_length, affine_length]
    have e1 : ∀ j < l.nrow, (List.zipWith (fun x y => x * y) (actDer l.activation (u 0)) v).getD j 0 =
        (actDer l.activation (affineFn l z)).getD j 0 * v.getD j 0 := by
      intro j hj
      rw [h0, getD_zipWith _ _ _ (by rw [hal, hv]) _ (by rw [hv]; exact hj)]
    have e2 : ∀ j < l.nrow, (deltaOf (l :: l' :: ls) z y).getD j 0 =
        (actDer l.activation (affineFn l z)).getD j 0 * ∑ k ∈ Finset.range l'.nrow, δ.getD k 0 * l'.matrix.entry k j := by
      intro j hj
      rw [deltaOf, getD_zipWith _ _ _ (by rw [hal]; simp [backW, hs2]) _ (by simp [backW, hs2, hj]), ← hδ]
      simp only [backW]
      rw [getD_range_map _ _ _ (by rw [hs2]; exact hj)]
    calc _ = ∑ k ∈ Finset.range l'.nrow, δ.getD k 0 *
          ∑ j ∈ Finset.range l.nrow, l'.matrix.entry k j * ((actDer l.activation (affineFn l z)).getD j 0 * v.getD j 0) := by
          apply Finset.sum_congr rfl
          intro k hk
          simp only [linFn]
          rw [getD_range_map _ _ _ (Finset.mem_range.1 hk), hs2]
          congr 1
          apply Finset.sum_congr rfl
          intro j hj
          rw [e1 j (Finset.mem_range.1 hj)]
      _ = ∑ j ∈ Finset.range l.nrow, (actDer l.activation (affineFn l z)).getD j 0 *
          (∑ k ∈ Finset.range l'.nrow, δ.getD k 0 * l'.matrix.entry k j) * v.getD j 0 := by
          simp only [Finset.mul_sum, Finset.sum_mul]
          rw [Finset.sum_comm]
          apply Finset.sum_congr rfl; intro j _
          apply Finset.sum_congr rfl; intro k _; ring
      _ = _ := by
          apply Finset.sum_congr rfl
          intro j hj
          rw [e2 j (Finset.mem_range.1 hj)]

/-! ## Moving one parameter -/

theorem entry_bump {l : Layer} (hl : ShapedLayer l) (i j : Nat) (hi : i < l.nrow) (hj : j < l.ncol) (t : ℝ) (i' j' : Nat) :
    (bumpWeight l i j t).matrix.entry i' j' = l.matrix.entry i' j' + if i' = i ∧ j' = j then t else 0 := by
  have hi2 : i < l.matrix.length := by rw [hl.rows]; exact hi
  have hrow : (l.matrix.getD i []).length = l.ncol := by
    rw [List.getD_eq_getElem _ _ hi2]; exact hl.cols _ (List.getElem_mem _)
  simp only [bumpWeight, Mat.entry]
  by_cases h : i' = i
  · subst h
    rw [List.getD_eq_getElem?_getD (l := List.set _ _ _), List.getElem?_set_self hi2, Option.getD_some]
    by_cases h2 : j' = j
    · subst h2
      rw [List.getD_eq_getElem?_getD (l := List.set _ _ _), List.getElem?_set_self (by rw [hrow]; exact hj), Option.getD_some,
        if_pos ⟨rfl, rfl⟩]
    · rw [List.getD_eq_getElem?_getD (l := List.set _ _ _), List.getElem?_set_ne (by omega), ← List.getD_eq_getElem?_getD,
        if_neg (by tauto), add_zero]
  · rw [List.getD_eq_getElem?_getD (l := List.set _ _ _), List.getElem?_set_ne (by omega), ← List.getD_eq_getElem?_getD,
      if_neg (by tauto), add_zero]

theorem getD_set_replicate (n i k : Nat) (a : ℝ) (hi : i < n) :
    ((List.replicate n (0 : ℝ)).set i a).getD k 0 = if k = i then a else 0 := by
  by_cases h : k = i
  · subst h
    rw [List.getD_eq_getElem?_getD, List.getElem?_set_self (by simpa using hi), Option.getD_some, if_pos rfl]
  · rw [List.getD_eq_getElem?_getD, List.getElem?_set_ne (by omega), if_neg h, List.getElem?_replicate]
    split <;> rfl

theorem Cv.bumpWeight {l : Layer} (hl : ShapedLayer l) (i j : Nat) (hi : i < l.nrow) (hj : j < l.ncol) (z : List ℝ) :
    Cv (fun t => affineFn (bumpWeight l i j t) z) ((List.replicate l.nrow 0).set i (z.getD j 0)) := by
  refine ⟨fun t => by simp [affineFn, Spec.bumpWeight], fun k => ?_⟩
  rw [getD_set_replicate _ _ _ _ hi]
  by_cases hk : k < l.nrow
  · have e : ∀ t, (affineFn (Spec.bumpWeight l i j t) z).getD k 0 =
        (∑ j' ∈ Finset.range l.ncol, l.matrix.entry k j' * z.getD j' 0 + l.bias.getD k 0) +
          (if k = i then z.getD j 0 else 0) * t := by
      intro t
      have : (Spec.bumpWeight l i j t).nrow = l.nrow := rfl
      simp only [affineFn]
      rw [getD_range_map _ _ _ (by rw [this]; exact hk)]
      simp only [entry_bump hl i j hi hj t]
      rw [show (Spec.bumpWeight l i j t).ncol = l.ncol from rfl, show (Spec.bumpWeight l i j t).bias = l.bias from rfl]
      simp only [add_mul, Finset.sum_add_distrib]
      have : ∑ x ∈ Finset.range l.ncol, (if k = i ∧ x = j then t else 0) * z.getD x 0 =
          (if k = i then z.getD j 0 else 0) * t := by
        by_cases hki : k = i
        · simp only [hki, true_and, if_true, ite_mul, zero_mul]
          rw [Finset.sum_ite_eq', if_pos (Finset.mem_range.2 hj)]; ring
        · simp [hki]
      rw [this]; ring
    simp only [e]
    have := ((hasDerivAt_id (0 : ℝ)).const_mul (if k = i then z.getD j 0 else 0)).const_add
      (∑ j' ∈ Finset.range l.ncol, l.matrix.entry k j' * z.getD j' 0 + l.bias.getD k 0)
    simpa using this
  · have h1 : ∀ t, (affineFn (Spec.bumpWeight l i j t) z).getD k 0 = 0 :=
      fun t => List.getD_eq_default _ _ (by rw [affine_length]; exact not_lt.1 hk)
    simp only [h1]
    rw [if_neg (by omega)]
    exact hasDerivAt_const _ _

theorem Cv.bumpBias {l : Layer} (hl : ShapedLayer l) (i : Nat) (hi : i < l.nrow) (z : List ℝ) :
    Cv (fun t => affineFn (bumpBias l i t) z) ((List.replicate l.nrow 0).set i 1) := by
  refine ⟨fun t => by simp [affineFn, Spec.bumpBias], fun k => ?_⟩
  rw [getD_set_replicate _ _ _ _ hi]
  by_cases hk : k < l.nrow
  · have e : ∀ t, (affineFn (Spec.bumpBias l i t) z).getD k 0 =
        (∑ j' ∈ Finset.range l.ncol, l.matrix.entry k j' * z.getD j' 0 + l.bias.getD k 0) +
          (if k = i then 1 else 0) * t := by
      intro t
      simp only [affineFn]
      rw [getD_range_map _ _ _ (show k < (Spec.bumpBias l i t).nrow from hk)]
      simp only [Spec.bumpBias]
      by_cases hki : k = i
      · subst hki
        rw [List.getD_eq_getElem?_getD (l := List.set _ _ _), List.getElem?_set_self (by rw [hl.bias]; exact hk), Option.getD_some,
          if_pos rfl]; ring
      · rw [List.getD_eq_getElem?_getD (l := List.set _ _ _), List.getElem?_set_ne (by omega), ← List.getD_eq_getElem?_getD,
          if_neg hki]; ring
    simp only [e]
    have := ((hasDerivAt_id (0 : ℝ)).const_mul (if k = i then 1 else 0)).const_add
      (∑ j' ∈ Finset.range l.ncol, l.matrix.entry k j' * z.getD j' 0 + l.bias.getD k 0)
    simpa using this
  · have h1 : ∀ t, (affineFn (Spec.bumpBias l i t) z).getD k 0 = 0 :=
      fun t => List.getD_eq_default _ _ (by rw [affine_length]; exact not_lt.1 hk)
    simp only [h1]
    rw [if_neg (by omega)]
    exact hasDerivAt_const _ _

theorem regular_append (pre : List Layer) : ∀ (l : Layer) (post : List Layer) (x y : List ℝ),
    Regular (pre ++ l :: post) x y → Regular (l :: post) (netFn pre x) y := by
  induction pre with
  | nil => intro l post x y h; exact h
  | cons p pre ih =>
    intro l post x y h
    have : Regular (pre ++ l :: post) (actFn p.activation (affineFn p x)) y := by
      cases pre with
      | nil => exact h.2
      | cons q pre => exact h.2
    exact ih l post _ y this

theorem lastAct_append (pre : List Layer) (l : Layer) (post : List Layer) : lastAct (pre ++ l :: post) = lastAct (l :: post) := by
  induction pre with
  | nil => rfl
  | cons p pre ih =>
    rw [← ih]
    cases pre <;> rfl

theorem lastAct_congr (l l' : Layer) (h : l.activation = l'.activation) (post : List Layer) :
    lastAct (l :: post) = lastAct (l' :: post) := by
  cases post with
  | nil => exact h
  | cons => rfl

theorem netFn_append (a b : List Layer) (x : List ℝ) : netFn (a ++ b) x = netFn b (netFn a x) := by
  induction a generalizing x with
  | nil => rfl
  | cons l a ih => exact ih _

theorem shaped_append (pre : List Layer) : ∀ (rest : List Layer) (d : Nat), Shaped (pre ++ rest) d ↔
    Shaped pre d ∧ Shaped rest (outDim pre d) := by
  induction pre with
  | nil => intro rest d; simp [Shaped, outDim]
  | cons p pre ih =>
    intro rest d
    simp only [List.cons_append, Shaped, outDim, ih]
    tauto

theorem outDim_append (pre rest : List Layer) (d : Nat) : outDim (pre ++ rest) d = outDim rest (outDim pre d) := by
  induction pre generalizing d with
  | nil => rfl
  | cons p pre ih => exact ih _

theorem netFn_length (ls : List Layer) (x : List ℝ) (d : Nat) (h : x.length = d) : (netFn ls x).length = outDim ls d := by
  induction ls generalizing x d with
  | nil => exact h
  | cons l ls ih => exact ih _ _ (by rw [act_length, affine_length])

/-- The derivative of the loss of one example with respect to one weight. -/
theorem deriv_weight (pre : List Layer) (l : Layer) (post : List Layer) (x y : List ℝ)
    (hs : Shaped (pre ++ l :: post) x.length) (hr : Regular (pre ++ l :: post) x y)
    (hy : y.length = outDim (pre ++ l :: post) x.length) (i j : Nat) (hi : i < l.nrow) (hj : j < l.ncol) :
    HasDerivAt (fun t => outputLoss (lastAct (pre ++ l :: post)) (netFn (pre ++ bumpWeight l i j t :: post) x) y)
      ((deltaOf (l :: post) (netFn pre x) y).getD i 0 * (netFn pre x).getD j 0) 0 := by
  obtain ⟨h1, h2, h3, h4⟩ := (shaped_append _ _ _).1 hs
  rw [outDim_append] at hy
  have := deriv_pre post l (netFn pre x) y (regular_append pre l post x y hr) h4 hy _ _
    (Cv.bumpWeight h2 i j hi hj (netFn pre x)) (by simp) (by
      apply List.ext_getElem
      · simp [affineFn, Spec.bumpWeight]
      · intro k k1 k2
        have k3 : k < l.nrow := by rw [affine_length] at k2; exact k2
        have e := (affineFn l (netFn pre x)).getD_eq_getElem 0 k2
        have e' := (affineFn (Spec.bumpWeight l i j 0) (netFn pre x)).getD_eq_getElem 0 k1
        rw [← e, ← e']
        simp only [affineFn]
        rw [getD_range_map _ _ _ k3, getD_range_map _ _ _ (show k < (Spec.bumpWeight l i j 0).nrow from k3)]
        simp only [entry_bump h2 i j hi hj, ite_self, add_zero]
        rfl)
  rw [lastAct_append]
  simp only [netFn_append]
  simp only [netFn]
  refine this.congr_deriv ?_
  rw [Finset.sum_eq_single i]
  · rw [getD_set_replicate _ _ _ _ hi, if_pos rfl]
  · intro k _ hne
    rw [getD_set_replicate _ _ _ _ hi, if_neg hne, mul_zero]
  · intro h; exact absurd (Finset.mem_range.2 hi) h

/-- The derivative of the loss of one example with respect to one bias. -/
theorem deriv_bias (pre : List Layer) (l : Layer) (post : List Layer) (x y : List ℝ)
    (hs : Shaped (pre ++ l :: post) x.length) (hr : Regular (pre ++ l :: post) x y)
    (hy : y.length = outDim (pre ++ l :: post) x.length) (i : Nat) (hi : i < l.nrow) :
    HasDerivAt (fun t => outputLoss (lastAct (pre ++ l :: post)) (netFn (pre ++ bumpBias l i t :: post) x) y)
      ((deltaOf (l :: post) (netFn pre x) y).getD i 0) 0 := by
  obtain ⟨h1, h2, h3, h4⟩ := (shaped_append _ _ _).1 hs
  rw [outDim_append] at hy
  have := deriv_pre post l (netFn pre x) y (regular_append pre l post x y hr) h4 hy _ _
    (Cv.bumpBias h2 i hi (netFn pre x)) (by simp) (by
      have : Spec.bumpBias l i 0 = l := by
        simp only [Spec.bumpBias, add_zero]
        rw [List.getD_eq_getElem _ _ (by rw [h2.bias]; exact hi), List.set_getElem_self]
      rw [this])
  rw [lastAct_append]
  simp only [netFn_append]
  simp only [netFn]
  refine this.congr_deriv ?_
  rw [Finset.sum_eq_single i]
  · rw [getD_set_replicate _ _ _ _ hi, if_pos rfl, mul_one]
  · intro k _ hne
    rw [getD_set_replicate _ _ _ _ hi, if_neg hne, mul_zero]
  · intro h; exact absurd (Finset.mem_range.2 hi) h

end Miniboosts.NN
