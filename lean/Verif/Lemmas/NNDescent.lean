import Verif.Lemmas.NNTrain
import Mathlib.Analysis.Calculus.Deriv.Mul
import Mathlib.Analysis.Calculus.Deriv.Slope

/-! # The loss along the whole training step -/

namespace Miniboosts.NN

open Real Spec

/-- The summed derivatives of the weights of one layer, as the code computes them. -/
noncomputable def gW {α : Type*} (E : List α) (δ ζ : α → List ℝ) (i j : Nat) : ℝ :=
  (E.map fun e => (δ e).getD i 0 * (ζ e).getD j 0).sum

/-- The same for the biases. -/
noncomputable def gB {α : Type*} (E : List α) (δ : α → List ℝ) (i : Nat) : ℝ := (E.map fun e => (δ e).getD i 0).sum

theorem entry_range (f : Nat → Nat → ℝ) (r c i j : Nat) (hi : i < r) (hj : j < c) :
    Mat.entry ((List.range r).map fun i => (List.range c).map fun j => f i j) i j = f i j := by
  rw [Mat.entry, List.getD_eq_getElem (List.map _ _) _ (by simpa using hi), List.getElem_map, List.getElem_range,
    getD_range_map _ _ _ hj]

theorem stepL_entry (rate : ℝ) (l : Layer) {α : Type*} (E : List α) (δ ζ : α → List ℝ) (i j : Nat) (hi : i < l.nrow)
    (hj : j < l.ncol) : (stepL rate l E δ ζ).matrix.entry i j = l.matrix.entry i j - rate * gW E δ ζ i j :=
  entry_range (fun i j => l.matrix.entry i j - rate * gW E δ ζ i j) _ _ _ _ hi hj

theorem stepL_bias (rate : ℝ) (l : Layer) {α : Type*} (E : List α) (δ ζ : α → List ℝ) (i : Nat) (hi : i < l.nrow) :
    (stepL rate l E δ ζ).bias.getD i 0 = l.bias.getD i 0 - rate * gB E δ i :=
  getD_range_map (fun i => l.bias.getD i 0 - rate * gB E δ i) _ _ hi

theorem stepL_shaped (rate : ℝ) {l : Layer} (hl : ShapedLayer l) {α : Type*} (E : List α) (δ ζ : α → List ℝ) :
    ShapedLayer (stepL rate l E δ ζ) := by
  refine ⟨hl.pos, by simp [stepL], ?_, by simp [stepL]⟩
  intro r hr
  obtain ⟨i, _, rfl⟩ := List.mem_map.1 hr
  simp [stepL]

theorem steps_shaped (rate : ℝ) (ls : List Layer) (E : List (List ℝ × List ℝ)) (d : Nat) (h : Shaped ls d) :
    Shaped (steps rate ls E) d := by
  induction ls generalizing E d with
  | nil => trivial
  | cons l ls ih => exact ⟨stepL_shaped rate h.1 _ _ _, h.2.1, ih _ _ h.2.2⟩

theorem steps_outDim (rate : ℝ) (ls : List Layer) (E : List (List ℝ × List ℝ)) (d : Nat) :
    outDim (steps rate ls E) d = outDim ls d := by
  induction ls generalizing E d with
  | nil => rfl
  | cons l ls ih => exact ih _ _

theorem affineFn_congr (l l' : Layer) (h1 : l.nrow = l'.nrow) (h2 : l.ncol = l'.ncol)
    (h3 : ∀ i < l.nrow, ∀ j < l.ncol, l.matrix.entry i j = l'.matrix.entry i j)
    (h4 : ∀ i < l.nrow, l.bias.getD i 0 = l'.bias.getD i 0) (z : List ℝ) : affineFn l z = affineFn l' z := by
  simp only [affineFn, ← h1, ← h2]
  apply List.map_congr_left
  intro i hi
  have hi := List.mem_range.1 hi
  rw [h4 i hi]
  congr 1
  apply Finset.sum_congr rfl
  intro j hj
  rw [h3 i hi j (Finset.mem_range.1 hj)]

theorem affineFn_step_zero (l : Layer) {α : Type*} (E : List α) (δ ζ : α → List ℝ) (z : List ℝ) :
    affineFn (stepL 0 l E δ ζ) z = affineFn l z := by
  apply affineFn_congr (stepL 0 l E δ ζ) l rfl rfl
  · intro i hi j hj; rw [stepL_entry 0 l E δ ζ i j hi hj]; ring
  · intro i hi; rw [stepL_bias 0 l E δ ζ i hi]; ring

theorem netFn_step_zero (ls : List Layer) (E : List (List ℝ × List ℝ)) (z : List ℝ) : netFn (steps 0 ls E) z = netFn ls z := by
  induction ls generalizing E z with
  | nil => rfl
  | cons l ls ih =>
    simp only [steps, netFn]
    rw [affineFn_step_zero, ih]
    rfl

/-- How the pre-activation of a layer moves when its input and its parameters move. -/
noncomputable def velFn (l : Layer) {α : Type*} (E : List α) (δ ζ : α → List ℝ) (z v : List ℝ) : List ℝ :=
  (List.range l.nrow).map fun i => ∑ j ∈ Finset.range l.ncol, (l.matrix.entry i j * v.getD j 0 - gW E δ ζ i j * z.getD j 0) - gB E δ i

theorem Cv.step {z : ℝ → List ℝ} {v : List ℝ} (h : Cv z v) (l : Layer) {α : Type*} (E : List α) (δ ζ : α → List ℝ) :
    Cv (fun t => affineFn (stepL t l E δ ζ) (z t)) (velFn l E δ ζ (z 0) v) := by
  refine ⟨fun t => by simp [affineFn, velFn, stepL], fun i => ?_⟩
  by_cases hi : i < l.nrow
  · have e : ∀ t, (affineFn (stepL t l E δ ζ) (z t)).getD i 0 =
        ∑ j ∈ Finset.range l.ncol, (l.matrix.entry i j - t * gW E δ ζ i j) * (z t).getD j 0 +
          (l.bias.getD i 0 - t * gB E δ i) := by
      intro t
      simp only [affineFn]
      rw [getD_range_map _ _ _ (show i < (stepL t l E δ ζ).nrow from hi), stepL_bias t l E δ ζ i hi]
      congr 1
      apply Finset.sum_congr rfl
      intro j hj
      rw [stepL_entry t l E δ ζ i j hi (Finset.mem_range.1 hj)]
    simp only [e, velFn]
    rw [getD_range_map _ _ _ hi, sub_eq_add_neg (Finset.sum _ _)]
    apply HasDerivAt.add
    · apply HasDerivAt.fun_sum
      intro j _
      have h1 : HasDerivAt (fun t : ℝ => l.matrix.entry i j - t * gW E δ ζ i j) (-(gW E δ ζ i j)) 0 := by
        have := ((hasDerivAt_id (0 : ℝ)).mul_const (gW E δ ζ i j)).const_sub (l.matrix.entry i j)
        simpa using this
      refine (h1.mul (h.der j)).congr_deriv ?_
      ring
    · have := ((hasDerivAt_id (0 : ℝ)).mul_const (gB E δ i)).const_sub (l.bias.getD i 0)
      simpa using this
  · have h1 : ∀ t, (affineFn (stepL t l E δ ζ) (z t)).getD i 0 = 0 :=
      fun t => List.getD_eq_default _ _ (by simp [affineFn, stepL]; omega)
    have h2 : (velFn l E δ ζ (z 0) v).getD i 0 = 0 := List.getD_eq_default _ _ (by simp [velFn]; omega)
    simp only [h1, h2]; exact hasDerivAt_const _ _

/-- The derivative of the loss of an example along the step, up to sign. -/
noncomputable def along : List Layer → List (List ℝ × List ℝ) → List ℝ → List ℝ → ℝ
  | [], _, _, _ => 0
  | l :: post, E, z, y =>
    (∑ i ∈ Finset.range l.nrow, (deltaOf (l :: post) z y).getD i 0 *
      (∑ j ∈ Finset.range l.ncol, gW E (fun e => deltaOf (l :: post) e.1 e.2) (fun e => e.1) i j * z.getD j 0 +
        gB E (fun e => deltaOf (l :: post) e.1 e.2) i)) +
      along post (E.map fun e => (fwd l e.1, e.2)) (fwd l z) y

theorem vel_sum (l : Layer) {α : Type*} (E : List α) (δ ζ : α → List ℝ) (z v d : List ℝ) :
    ∑ i ∈ Finset.range l.nrow, d.getD i 0 * (velFn l E δ ζ z v).getD i 0 =
      ∑ j ∈ Finset.range l.ncol, (backW l d).getD j 0 * v.getD j 0 -
        ∑ i ∈ Finset.range l.nrow, d.getD i 0 * (∑ j ∈ Finset.range l.ncol, gW E δ ζ i j * z.getD j 0 + gB E δ i) := by
  have h1 : ∀ i ∈ Finset.range l.nrow, d.getD i 0 * (velFn l E δ ζ z v).getD i 0 =
      (∑ j ∈ Finset.range l.ncol, d.getD i 0 * l.matrix.entry i j * v.getD j 0) -
        d.getD i 0 * (∑ j ∈ Finset.range l.ncol, gW E δ ζ i j * z.getD j 0 + gB E δ i) := by
    intro i hi
    simp only [velFn]
    rw [getD_range_map _ _ _ (Finset.mem_range.1 hi), Finset.sum_sub_distrib]
    simp only [mul_assoc]
    rw [← Finset.mul_sum]
    ring
  rw [Finset.sum_congr rfl h1, Finset.sum_sub_distrib]
  congr 1
  rw [Finset.sum_comm]
  apply Finset.sum_congr rfl
  intro j hj
  simp only [backW]
  rw [getD_range_map _ _ _ (Finset.mem_range.1 hj), Finset.sum_mul]

/-- The loss of one example while the input moves and the parameters take the step. -/
theorem deriv_step (post : List Layer) : ∀ (l : Layer) (E : List (List ℝ × List ℝ)) (z : ℝ → List ℝ) (v y : List ℝ),
    Cv z v → Shaped (l :: post) v.length → Regular (l :: post) (z 0) y → y.length = outDim post l.nrow →
    HasDerivAt (fun t => outputLoss (lastAct (l :: post)) (netFn (steps t (l :: post) E) (z t)) y)
      (∑ j ∈ Finset.range l.ncol, (backW l (deltaOf (l :: post) (z 0) y)).getD j 0 * v.getD j 0 -
        along (l :: post) E (z 0) y) 0 := by
  induction post with
  | nil =>
    intro l E z v y hz hs hr hy
    simp only [outDim] at hy
    have hu := hz.step l E (fun e => deltaOf [l] e.1 e.2) (fun e => e.1)
    have := output_deriv hu l.activation y (by rw [hy]; simp [velFn]) hr
    simp only [lastAct, steps, netFn]
    refine this.congr_deriv ?_
    rw [affineFn_step_zero, hy]
    simp only [along, add_zero]
    rw [← vel_sum]
    apply Finset.sum_congr rfl
    intro i hi
    rw [deltaOf, getD_zipWith _ _ _ (by rw [act_length, affine_length, hy]) _ (by rw [hy]; exact Finset.mem_range.1 hi)]
  | cons l' ls ih =>
    intro l E z v y hz hs hr hy
    obtain ⟨hs1, hs2, hs3⟩ := hs
    obtain ⟨hr1, hr2⟩ := hr
    have hu := hz.step l E (fun e => deltaOf (l :: l' :: ls) e.1 e.2) (fun e => e.1)
    have hact := hu.act l.activation (by rw [affineFn_step_zero]; exact hr1)
    have hlen : (List.zipWith (fun x y => x * y) (actDer l.activation
        (affineFn (stepL 0 l E (fun e => deltaOf (l :: l' :: ls) e.1 e.2) (fun e => e.1)) (z 0)))
        (velFn l E (fun e => deltaOf (l :: l' :: ls) e.1 e.2) (fun e => e.1) (z 0) v)).length = l.nrow := by
      rw [affineFn_step_zero]
      simp [actDer_length, affine_length, velFn]
    have := ih l' (E.map fun e => (fwd l e.1, e.2)) _ _ y hact (by rw [hlen]; exact hs3) (by rw [affineFn_step_zero]; exact hr2) hy
    simp only [lastAct] at this ⊢
    have e0 : ∀ t, netFn (steps t (l :: l' :: ls) E) (z t) =
      netFn (steps t (l' :: ls) (E.map fun e => (fwd l e.1, e.2)))
        (actFn l.activation (affineFn (stepL t l E (fun e => deltaOf (l :: l' :: ls) e.1 e.2) (fun e => e.1)) (z t))) := fun t => rfl
    simp only [e0]
    refine this.congr_deriv ?_
    rw [affineFn_step_zero]
    have e1 : along (l :: l' :: ls) E (z 0) y = (∑ i ∈ Finset.range l.nrow, (deltaOf (l :: l' :: ls) (z 0) y).getD i 0 *
      (∑ j ∈ Finset.range l.ncol, gW E (fun e => deltaOf (l :: l' :: ls) e.1 e.2) (fun e => e.1) i j * (z 0).getD j 0 +
        gB E (fun e => deltaOf (l :: l' :: ls) e.1 e.2) i)) +
      along (l' :: ls) (E.map fun e => (fwd l e.1, e.2)) (fwd l (z 0)) y := rfl
    rw [e1, ← sub_sub, ← vel_sum]
    congr 1
    obtain ⟨_, hc, _⟩ := hs3
    rw [hc]
    have hal : (actDer l.activation (affineFn l (z 0))).length = l.nrow := by rw [actDer_length, affine_length]
    apply Finset.sum_congr rfl
    intro j hj
    have hj := Finset.mem_range.1 hj
    rw [getD_zipWith _ _ _ (by rw [hal]; simp [velFn]) _ (by simp [velFn, hj]),
      show deltaOf (l :: l' :: ls) (z 0) y = List.zipWith (fun a b => a * b) (actDer l.activation (affineFn l (z 0)))
        (backW l' (deltaOf (l' :: ls) (actFn l.activation (affineFn l (z 0))) y)) from rfl,
      getD_zipWith (fun a b => a * b) (actDer l.activation (affineFn l (z 0))) _ (by rw [hal]; simp [backW, hc]) _
        (by simp [backW, hc, hj])]
    ring

/-- The squared norm of the gradient the code computes. -/
noncomputable def gradSq : List Layer → List (List ℝ × List ℝ) → ℝ
  | [], _ => 0
  | l :: post, E =>
    (∑ i ∈ Finset.range l.nrow,
      (∑ j ∈ Finset.range l.ncol, gW E (fun e => deltaOf (l :: post) e.1 e.2) (fun e => e.1) i j ^ 2 +
        gB E (fun e => deltaOf (l :: post) e.1 e.2) i ^ 2)) +
      gradSq post (E.map fun e => (fwd l e.1, e.2))

theorem gradSq_nonneg (ls : List Layer) (E : List (List ℝ × List ℝ)) : 0 ≤ gradSq ls E := by
  induction ls generalizing E with
  | nil => exact le_rfl
  | cons l ls ih =>
    have := ih (E.map fun e => (fwd l e.1, e.2))
    simp only [gradSq]
    have h2 : 0 ≤ ∑ i ∈ Finset.range l.nrow,
      (∑ j ∈ Finset.range l.ncol, gW E (fun e => deltaOf (l :: ls) e.1 e.2) (fun e => e.1) i j ^ 2 +
        gB E (fun e => deltaOf (l :: ls) e.1 e.2) i ^ 2) := by
      apply Finset.sum_nonneg; intro i _
      have : 0 ≤ ∑ j ∈ Finset.range l.ncol, gW E (fun e => deltaOf (l :: ls) e.1 e.2) (fun e => e.1) i j ^ 2 :=
        Finset.sum_nonneg fun j _ => sq_nonneg _
      positivity
    linarith

theorem list_sum_finset {α : Type*} (E : List α) (s : Finset Nat) (f : α → Nat → ℝ) :
    (E.map fun e => ∑ i ∈ s, f e i).sum = ∑ i ∈ s, (E.map fun e => f e i).sum := by
  induction E with
  | nil => simp
  | cons e E ih => simp [ih, Finset.sum_add_distrib]

theorem along_layer (r c : Nat) {α : Type*} (E E0 : List α) (δ ζ : α → List ℝ) :
    (E.map fun e => ∑ i ∈ Finset.range r, (δ e).getD i 0 * (∑ j ∈ Finset.range c, gW E0 δ ζ i j * (ζ e).getD j 0 + gB E0 δ i)).sum =
      ∑ i ∈ Finset.range r, (∑ j ∈ Finset.range c, gW E0 δ ζ i j * gW E δ ζ i j + gB E0 δ i * gB E δ i) := by
  rw [list_sum_finset]
  apply Finset.sum_congr rfl
  intro i _
  simp only [mul_add, Finset.mul_sum]
  rw [List.sum_map_add, list_sum_finset]
  congr 1
  · apply Finset.sum_congr rfl
    intro j _
    rw [gW.eq_def E, ← List.sum_map_mul_left]
    congr 1
    apply List.map_congr_left
    intro e _
    ring
  · rw [gB.eq_def E, ← List.sum_map_mul_left]
    congr 1
    apply List.map_congr_left
    intro e _
    ring

theorem along_sum (ls : List Layer) (E : List (List ℝ × List ℝ)) : (E.map fun e => along ls E e.1 e.2).sum = gradSq ls E := by
  suffices h : ∀ (ls : List Layer) (E : List (List ℝ × List ℝ)), (E.map fun e => along ls E e.1 e.2).sum = gradSq ls E from h ls E
  intro ls
  induction ls with
  | nil => intro E; simp [along, gradSq]
  | cons l ls ih =>
    intro E
    simp only [along, gradSq]
    rw [List.sum_map_add, along_layer l.nrow l.ncol E E (fun e => deltaOf (l :: ls) e.1 e.2) (fun e => e.1)]
    congr 1
    · apply Finset.sum_congr rfl; intro i _
      simp only [sq]
    · rw [← ih, List.map_map]; rfl

/-- The batch loss along the training step. -/
theorem deriv_batch (ls : List Layer) (hne : ls ≠ []) (d : Nat) (hs : Shaped ls d) (E : List (List ℝ × List ℝ))
    (hE : ∀ e ∈ E, e.1.length = d ∧ e.2.length = outDim ls d ∧ Regular ls e.1 e.2) :
    HasDerivAt (fun t => (E.map fun e => outputLoss (lastAct ls) (netFn (steps t ls E) e.1) e.2).sum) (-(gradSq ls E)) 0 := by
  obtain ⟨l, post, rfl⟩ := List.exists_cons_of_ne_nil hne
  rw [← along_sum]
  have key : ∀ e ∈ E, HasDerivAt (fun t => outputLoss (lastAct (l :: post)) (netFn (steps t (l :: post) E) e.1) e.2)
      (-(along (l :: post) E e.1 e.2)) 0 := by
    intro e he
    obtain ⟨h1, h2, h3⟩ := hE e he
    have hc : Cv (fun _ => e.1) (List.replicate d 0) := by
      refine ⟨fun t => by simp [h1], fun i => ?_⟩
      have : (List.replicate d (0 : ℝ)).getD i 0 = 0 := by
        rw [List.getD_eq_getElem?_getD, List.getElem?_replicate]; split <;> rfl
      rw [this]; exact hasDerivAt_const _ _
    have := deriv_step post l E _ _ e.2 hc (by simpa using hs) h3 h2
    refine this.congr_deriv ?_
    have : ∀ i, (List.replicate d (0 : ℝ)).getD i 0 = 0 := by
      intro i; rw [List.getD_eq_getElem?_getD, List.getElem?_replicate]; split <;> rfl
    simp only [this, mul_zero, Finset.sum_const_zero, zero_sub]
  suffices h : ∀ E' : List (List ℝ × List ℝ), (∀ e ∈ E', e ∈ E) →
      HasDerivAt (fun t => (E'.map fun e => outputLoss (lastAct (l :: post)) (netFn (steps t (l :: post) E) e.1) e.2).sum)
        (-(E'.map fun e => along (l :: post) E e.1 e.2).sum) 0 from h E fun _ h => h
  intro E'
  induction E' with
  | nil => intro _; simpa using hasDerivAt_const (0 : ℝ) (0 : ℝ)
  | cons e E' ih =>
    intro h
    simp only [List.map_cons, List.sum_cons, neg_add]
    exact (key e (h e List.mem_cons_self)).add (ih fun e he => h e (List.mem_cons_of_mem _ he))

/-- A positive derivative in the direction of the step makes the batch loss smaller for all small rates. -/
theorem decreases {f : ℝ → ℝ} {g : ℝ} (h : HasDerivAt f (-g) 0) (hg : 0 < g) :
    ∃ ρ > 0, ∀ t, 0 < t → t < ρ → f t < f 0 := by
  have hs := h.tendsto_slope
  have hev : ∀ᶠ t in nhdsWithin (0 : ℝ) {0}ᶜ, slope f 0 t < 0 := hs (Iio_mem_nhds (by linarith))
  rw [eventually_nhdsWithin_iff, Metric.eventually_nhds_iff] at hev
  obtain ⟨ρ, hρ, h⟩ := hev
  refine ⟨ρ, hρ, fun t h1 h2 => ?_⟩
  have := h (show dist t 0 < ρ by rw [Real.dist_eq, sub_zero, abs_of_pos h1]; exact h2) h1.ne'
  rw [slope_def_field, sub_zero] at this
  have := (div_neg_iff.1 this)
  rcases this with h | h
  · linarith [h.2]
  · linarith [h.1]

/-- A non-zero derivative makes the gradient non-zero. -/
theorem gradSq_pos (pre : List Layer) (l : Layer) (post : List Layer) (E : List (List ℝ × List ℝ)) (i : Nat) (hi : i < l.nrow)
    (h : (∃ j < l.ncol, gW E (fun e => deltaOf (l :: post) (netFn pre e.1) e.2) (fun e => netFn pre e.1) i j ≠ 0) ∨
      gB E (fun e => deltaOf (l :: post) (netFn pre e.1) e.2) i ≠ 0) : 0 < gradSq (pre ++ l :: post) E := by
  induction pre generalizing E with
  | nil =>
    have h0 := gradSq_nonneg post (E.map fun e => (fwd l e.1, e.2))
    simp only [List.nil_append, gradSq]
    simp only [netFn] at h
    have h2 : 0 < ∑ i ∈ Finset.range l.nrow,
      (∑ j ∈ Finset.range l.ncol, gW E (fun e => deltaOf (l :: post) e.1 e.2) (fun e => e.1) i j ^ 2 +
        gB E (fun e => deltaOf (l :: post) e.1 e.2) i ^ 2) := by
      have hnn : ∀ i, 0 ≤ ∑ j ∈ Finset.range l.ncol, gW E (fun e => deltaOf (l :: post) e.1 e.2) (fun e => e.1) i j ^ 2 :=
        fun i => Finset.sum_nonneg fun j _ => sq_nonneg _
      refine Finset.sum_pos' (fun i _ => add_nonneg (hnn i) (sq_nonneg _)) ⟨i, Finset.mem_range.2 hi, ?_⟩
      rcases h with ⟨j, hj, h⟩ | h
      · have : 0 < ∑ j ∈ Finset.range l.ncol, gW E (fun e => deltaOf (l :: post) e.1 e.2) (fun e => e.1) i j ^ 2 :=
          Finset.sum_pos' (fun j _ => sq_nonneg _) ⟨j, Finset.mem_range.2 hj, by positivity⟩
        positivity
      · have := hnn i
        positivity
    linarith
  | cons q pre ih =>
    have h0 : 0 < gradSq (pre ++ l :: post) (E.map fun e => (fwd q e.1, e.2)) := by
      apply ih
      simp only [gW, gB, List.map_map] at h ⊢
      exact h
    simp only [List.cons_append, gradSq]
    have h2 : 0 ≤ ∑ i ∈ Finset.range q.nrow,
      (∑ j ∈ Finset.range q.ncol, gW E (fun e => deltaOf (q :: (pre ++ l :: post)) e.1 e.2) (fun e => e.1) i j ^ 2 +
        gB E (fun e => deltaOf (q :: (pre ++ l :: post)) e.1 e.2) i ^ 2) := by
      apply Finset.sum_nonneg; intro i _
      have : 0 ≤ ∑ j ∈ Finset.range q.ncol, gW E (fun e => deltaOf (q :: (pre ++ l :: post)) e.1 e.2) (fun e => e.1) i j ^ 2 :=
        Finset.sum_nonneg fun j _ => sq_nonneg _
      positivity
    linarith

end Miniboosts.NN
