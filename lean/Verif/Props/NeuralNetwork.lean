import Verif.Lemmas.NNDescent
import Verif.Lemmas.BestSplit

/-! # Neural networks: activations (C54), labels (C55), training (C77, C78) -/

namespace Miniboosts.Props

open Real Spec NN

/-! ## C54: activations and evaluation -/

/-- The softmax activation returns a probability vector, with `p_i` proportional to `e^{η x_i}`. -/
theorem nn_softmax (η : ℝ) (x : List ℝ) (hx : x ≠ []) :
    ∃ p, (Activation.softMax η).eval x = .ok p ∧ p.length = x.length ∧ (∀ a ∈ p, 0 < a) ∧ p.sum = 1 ∧
      ∀ i < x.length, p.getD i 0 = exp (η * x.getD i 0) / ∑ k ∈ Finset.range x.length, exp (η * x.getD k 0) := by
  refine ⟨_, eval_ok _ _ hx, act_length _ _, ?_⟩
  have hZ : ((x.map fun a => η * a).map exp).sum = ∑ k ∈ Finset.range x.length, exp (η * x.getD k 0) := by
    rw [List.map_map, LP.sum_getD, List.length_map]
    apply Finset.sum_congr rfl
    intro k hk
    exact getD_map (exp ∘ fun a => η * a) _ _ (Finset.mem_range.1 hk)
  have hpos : 0 < ∑ k ∈ Finset.range x.length, exp (η * x.getD k 0) :=
    Finset.sum_pos (fun k _ => exp_pos _) ⟨0, Finset.mem_range.2 (List.length_pos_iff.2 hx)⟩
  have hp : actFn (.softMax η) x = x.map fun a => exp (η * a) / ∑ k ∈ Finset.range x.length, exp (η * x.getD k 0) := by
    simp only [actFn, softmax, List.map_map, ← hZ]; rfl
  rw [hp]
  refine ⟨?_, ?_, fun i hi => by rw [getD_map _ _ _ hi]⟩
  · intro a ha
    obtain ⟨b, _, rfl⟩ := List.mem_map.1 ha
    exact div_pos (exp_pos _) hpos
  · have : (x.map fun a => exp (η * a) / ∑ k ∈ Finset.range x.length, exp (η * x.getD k 0)).sum =
        (x.map fun a => exp (η * a)).sum / ∑ k ∈ Finset.range x.length, exp (η * x.getD k 0) := by
      simp only [div_eq_mul_inv]
      rw [List.sum_map_mul_right]
    rw [this, ← hZ, List.map_map]
    exact div_self (by rw [← hZ, List.map_map] at hpos; exact hpos.ne')

/-- The softmax of an empty vector panics. -/
theorem nn_softmax_empty (η : ℝ) : ∃ e, (Activation.softMax η).eval [] = .error e := by
  have h : ¬ ∃ d, projectCapped 1 ([] : List ℝ) = .ok d := by
    rw [project_ok_iff]; norm_num
  cases hh : (Activation.softMax η).eval [] with
  | error e => exact ⟨e, rfl⟩
  | ok p => exact absurd ⟨p, hh⟩ h

/-- Sigmoid, ReLU and the identity act coordinate by coordinate; the sigmoid has values in `(0, 1)`. -/
theorem nn_pointwise_activations (η θ : ℝ) (x : List ℝ) :
    (Activation.sigmoid η).eval x = .ok (x.map fun a => 1 / (1 + exp (-η * a))) ∧
    (∀ a : ℝ, 0 < 1 / (1 + exp (-η * a)) ∧ 1 / (1 + exp (-η * a)) < 1) ∧
    (Activation.reLu θ).eval x = .ok (x.map fun a => if a ≤ θ then 0 else a) ∧ Activation.id.eval x = .ok x := by
  refine ⟨rfl, fun a => ⟨by positivity, ?_⟩, rfl, rfl⟩
  rw [div_lt_one (by positivity)]
  linarith [exp_pos (-η * a)]

/-- The activation is not a sigmoid with a slope, and no coordinate is at the kink of a ReLU. -/
def DiffOk : Activation → List ℝ → Prop
  | .sigmoid η, _ => η = 0
  | .reLu θ, u => ∀ a ∈ u, a ≠ θ
  | _, _ => True

theorem getD_setAdd (x : List ℝ) (i k : Nat) (t : ℝ) (hi : i < x.length) :
    (x.set i (x.getD i 0 + t)).getD k 0 = x.getD k 0 + if k = i then t else 0 := by
  by_cases h : k = i
  · subst h
    rw [List.getD_eq_getElem?_getD (l := List.set _ _ _), List.getElem?_set_self hi, Option.getD_some, if_pos rfl]
  · rw [List.getD_eq_getElem?_getD (l := List.set _ _ _), List.getElem?_set_ne (by omega), ← List.getD_eq_getElem?_getD,
      if_neg h, add_zero]

theorem hasDeriv_setAdd (x : List ℝ) (i k : Nat) (hi : i < x.length) :
    HasDerivAt (fun t => (x.set i (x.getD i 0 + t)).getD k 0) (if k = i then 1 else 0) (0 : ℝ) := by
  simp only [getD_setAdd x i k _ hi]
  refine HasDerivAt.const_add _ ?_
  by_cases h : k = i
  · simp only [h, if_true]; exact hasDerivAt_id _
  · simp only [h, if_false]; exact hasDerivAt_const _ _

/-- `diff` returns, for every coordinate, the derivative of that output coordinate with respect to the same input
coordinate.  Missing (false): the sigmoid, see `nn_sigmoid_derivative_wrong`. -/
theorem nn_activation_derivative_partial (a : Activation) (x : List ℝ) (hx : x ≠ []) (ha : DiffOk a x) :
    ∃ ds, a.diff x = .ok ds ∧ ds.length = x.length ∧ ∀ i < x.length,
      HasDerivAt (fun t => (actFn a (x.set i (x.getD i 0 + t))).getD i 0) (ds.getD i 0) 0 := by
  refine ⟨_, diff_ok a x hx, actDer_length _ _, fun i hi => ?_⟩
  have hlen : ∀ t, (x.set i (x.getD i 0 + t)).length = x.length := fun t => by simp
  have hd : ∀ k, HasDerivAt (fun t => (x.set i (x.getD i 0 + t)).getD k 0) (if k = i then 1 else 0) (0 : ℝ) :=
    fun k => hasDeriv_setAdd x i k hi
  have h0 : ∀ k, (x.set i (x.getD i 0 + 0)).getD k 0 = x.getD k 0 := by
    intro k; rw [getD_setAdd x i k 0 hi]; simp
  cases a with
  | id =>
    have : (actDer .id x).getD i 0 = 1 := by
      rw [List.getD_eq_getElem _ _ (by rw [actDer_length]; exact hi)]; simp [actDer]
    rw [this]
    simpa [actFn] using hd i
  | reLu θ =>
    have e : ∀ t, (actFn (.reLu θ) (x.set i (x.getD i 0 + t))).getD i 0 =
        (fun a => if a ≤ θ then (0 : ℝ) else a) ((x.set i (x.getD i 0 + t)).getD i 0) :=
      fun t => getD_map _ _ _ (by rw [hlen]; exact hi)
    simp only [e]
    have e2 : (actDer (.reLu θ) x).getD i 0 = if x.getD i 0 < θ then 0 else 1 := getD_map _ _ _ hi
    rw [e2]
    have hne : x.getD i 0 ≠ θ := by
      apply ha
      rw [List.getD_eq_getElem _ _ hi]
      exact List.getElem_mem _
    have := HasDerivAt.comp (h₂ := fun a => if a ≤ θ then (0 : ℝ) else a)
      (h := fun t => (x.set i (x.getD i 0 + t)).getD i 0) (0 : ℝ)
      (by rw [h0 i]; exact relu_hasDeriv θ _ hne) (hd i)
    exact this.congr_deriv (by simp)
  | sigmoid η =>
    have hη : η = 0 := ha
    subst hη
    have e : ∀ t, (actFn (.sigmoid 0) (x.set i (x.getD i 0 + t))).getD i 0 = 1 / (1 + 1) := by
      intro t
      have := getD_map (fun a => 1 / (1 + exp (-0 * a))) (x.set i (x.getD i 0 + t)) i (by rw [hlen]; exact hi)
      simp only [actFn, this]
      norm_num
    have e2 : (actDer (.sigmoid 0) x).getD i 0 = 0 := by
      have := getD_map (fun a => 0 * exp (-0 * a) / (1 + exp (-0 * a))) x i hi
      simp only [actDer, this]
      norm_num
    simp only [e, e2]
    exact hasDerivAt_const _ _
  | softMax η =>
    have hpos : ∀ t, 0 < ∑ k ∈ Finset.range x.length, exp (η * (x.set i (x.getD i 0 + t)).getD k 0) := fun t =>
      Finset.sum_pos (fun k _ => exp_pos _) ⟨0, Finset.mem_range.2 (List.length_pos_iff.2 hx)⟩
    have hp : ∀ u : List ℝ, u.length = x.length → (actFn (.softMax η) u).getD i 0 =
        exp (η * u.getD i 0) / ∑ k ∈ Finset.range x.length, exp (η * u.getD k 0) := by
      intro u hu
      have hne : u ≠ [] := by rw [← List.length_pos_iff, hu]; exact List.length_pos_iff.2 hx
      obtain ⟨p, p1, _, _, _, p5⟩ := nn_softmax η u hne
      rw [eval_ok _ _ hne] at p1
      injection p1 with p1
      rw [p1, p5 i (by rw [hu]; exact hi), hu]
    have e2 : (actDer (.softMax η) x).getD i 0 =
        η * (actFn (.softMax η) x).getD i 0 * (1 - (actFn (.softMax η) x).getD i 0) :=
      getD_map (fun p => η * p * (1 - p)) _ _ (by rw [act_length]; exact hi)
    rw [e2, hp x rfl]
    simp only [hp _ (hlen _)]
    have d1 := ((hd i).const_mul η).exp
    have d2 : HasDerivAt (fun t => ∑ k ∈ Finset.range x.length, exp (η * (x.set i (x.getD i 0 + t)).getD k 0))
        (∑ k ∈ Finset.range x.length, exp (η * (x.set i (x.getD i 0 + 0)).getD k 0) * (η * if k = i then 1 else 0)) 0 := by
      apply HasDerivAt.fun_sum
      intro k _
      exact ((hd k).const_mul η).exp
    refine (d1.div d2 (hpos 0).ne').congr_deriv ?_
    have hZ := hpos 0
    simp only [h0] at hZ ⊢
    have hs : ∑ k ∈ Finset.range x.length, exp (η * x.getD k 0) * (η * if k = i then 1 else 0) = exp (η * x.getD i 0) * η := by
      rw [Finset.sum_eq_single i]
      · simp
      · intro k _ hne; simp [hne]
      · intro h; exact absurd (Finset.mem_range.2 hi) h
    rw [hs, if_pos trivial]
    generalize (∑ k ∈ Finset.range x.length, exp (η * x.getD k 0)) = Z at hZ ⊢
    generalize exp (η * x.getD i 0) = w
    field_simp

/-- Non-vacuity: a ReLU off its kink. -/
example : DiffOk (.reLu 0) [1, -2] ∧ ∃ ds, (Activation.reLu 0).diff [1, -2] = .ok ds ∧ ds = [1, 0] := by
  refine ⟨by intro a ha; fin_cases ha <;> norm_num, _, rfl, ?_⟩
  simp [Activation.reluDiff]

/-- What `diff` computes for the sigmoid with a slope is, at every point, **not** the derivative: the true derivative
is smaller by the factor `1 / (1 + e^{-ηa})`. -/
theorem nn_sigmoid_derivative_wrong (η : ℝ) (hη : η ≠ 0) (x : List ℝ) (i : Nat) (hi : i < x.length) :
    ∃ ds, (Activation.sigmoid η).diff x = .ok ds ∧
      HasDerivAt (fun a => 1 / (1 + exp (-η * a))) (ds.getD i 0 * (1 / (1 + exp (-η * x.getD i 0)))) (x.getD i 0) ∧
      ds.getD i 0 * (1 / (1 + exp (-η * x.getD i 0))) ≠ ds.getD i 0 := by
  refine ⟨_, rfl, ?_, ?_⟩
  · have e : (Activation.sigmoidDiff η x).getD i 0 = η * exp (-η * x.getD i 0) / (1 + exp (-η * x.getD i 0)) :=
      getD_map (fun a => η * exp (-η * a) / (1 + exp (-η * a))) _ _ hi
    rw [e]
    set a := x.getD i 0
    have hpos : 0 < 1 + exp (-η * a) := by positivity
    have d := ((((hasDerivAt_id a).const_mul (-η)).exp).const_add 1).inv hpos.ne'
    simp only [one_div]
    refine d.congr_deriv ?_
    simp only [id]
    field_simp
  · have e : (Activation.sigmoidDiff η x).getD i 0 = η * exp (-η * x.getD i 0) / (1 + exp (-η * x.getD i 0)) :=
      getD_map (fun a => η * exp (-η * a) / (1 + exp (-η * a))) _ _ hi
    rw [e]
    set a := x.getD i 0
    have hpos := exp_pos (-η * a)
    have hc : η * exp (-η * a) / (1 + exp (-η * a)) ≠ 0 := by
      apply div_ne_zero (mul_ne_zero hη hpos.ne') (by positivity)
    intro h
    have h1 : 1 / (1 + exp (-η * a)) = 1 := mul_left_cancel₀ hc (by rw [h, mul_one])
    rw [div_eq_one_iff_eq (by positivity)] at h1
    linarith

/-- Evaluating a network whose layers fit together does not panic and is the composition of the layers
`x ↦ f(W x + b)`; the output has as many entries as the last layer has rows. -/
theorem nn_eval_is_composition (f : NNHypothesis) (x : List ℝ) (h : Shaped f.layers x.length) :
    f.eval x = .ok (netFn f.layers x) ∧ (netFn f.layers x).length = outDim f.layers x.length :=
  ⟨evalLayers_ok _ _ h, netFn_length _ _ _ rfl⟩

/-- A network created by the library has layers that fit together, as many as activations, with the announced
dimensions. -/
theorem nn_newLayers_shaped (noise : Nat → Nat → Nat → ℝ) (noiseBias : Nat → Nat → ℝ) (acts : List Activation) :
    ∀ (dims : List Nat) (l d : Nat), dims.length = acts.length → (∀ n ∈ dims, 0 < n) →
      Shaped (NNHypothesis.newLayers noise noiseBias l d dims acts) d ∧
      outDim (NNHypothesis.newLayers noise noiseBias l d dims acts) d = (d :: dims).getLast (by simp) ∧
      (NNHypothesis.newLayers noise noiseBias l d dims acts).map (fun q => q.activation) = acts := by
  induction acts with
  | nil =>
    intro dims l d h _
    have : dims = [] := List.length_eq_zero_iff.1 (by simpa using h)
    subst this
    exact ⟨trivial, rfl, rfl⟩
  | cons a acts ih =>
    intro dims l d h hp
    cases dims with
    | nil => simp at h
    | cons n dims =>
      obtain ⟨h1, h2, h3⟩ := ih dims (l + 1) n (by simpa using h) (fun m hm => hp m (List.mem_cons_of_mem _ hm))
      refine ⟨⟨⟨hp n List.mem_cons_self, by simp [Layer.new], ?_, by simp [Layer.new]⟩, rfl, h1⟩, ?_, ?_⟩
      · intro r hr
        obtain ⟨i, _, rfl⟩ := List.mem_map.1 hr
        simp [Layer.new]
      · simp only [NNHypothesis.newLayers, outDim]
        rw [show (Layer.new (noise l) (noiseBias l) n d a).nrow = n from rfl, h2]
        exact (List.getLast_cons (a := d) (l := n :: dims) (by simp)).symm
      · simp only [NNHypothesis.newLayers, List.map_cons, h3]
        rfl

/-- Non-vacuity: a 2-3-2 network. -/
example (noise : Nat → Nat → Nat → ℝ) (noiseBias : Nat → Nat → ℝ) :
    Shaped (NNHypothesis.newLayers noise noiseBias 0 2 [3, 2] [.reLu 0, .softMax 1]) 2 :=
  (nn_newLayers_shaped noise noiseBias _ _ 0 2 rfl (by decide)).1

/-- A binary classifier whose last layer is a softmax with two outputs answers every row with a confidence whose
absolute value is at least 1/2 and less than 1, positive exactly when the second output is at least the first. -/
theorem nn_binary_confidence (f : NNHypothesis) (sample : Sample ℝ) (row : Nat) (x : List ℝ) (y : ℝ) (pre : List Layer)
    (l : Layer) (η : ℝ) (ht : f.task = .binary) (hx : sample.at' row = .ok (x, y)) (hf : f.layers = pre ++ [l])
    (hs : Shaped f.layers x.length) (hl : l.activation = .softMax η) (hn : l.nrow = 2) :
    ∃ c p q, f.confidence sample row = .ok c ∧ netFn f.layers x = [p, q] ∧ 1 / 2 ≤ |c| ∧ |c| < 1 ∧ (0 < c ↔ p ≤ q) := by
  have he := nn_eval_is_composition f x hs
  rw [hf, netFn_snoc, fwd, hl] at he
  have hlen : (affineFn l (netFn pre x)).length = 2 := by rw [affine_length, hn]
  have hne : affineFn l (netFn pre x) ≠ [] := by intro h; rw [h] at hlen; simp at hlen
  obtain ⟨ps, p1, p2, p3, p4, _⟩ := nn_softmax η _ hne
  rw [eval_ok _ _ hne] at p1
  injection p1 with p1
  rw [p1] at he
  rw [hlen] at p2
  obtain ⟨p, q, rfl⟩ := List.length_eq_two.1 p2
  have hp : 0 < p := p3 p (by simp)
  have hq : 0 < q := p3 q (by simp)
  have hsum : p + q = 1 := by simpa using p4
  refine ⟨if q < p then -p else q, p, q, ?_, ?_, ?_⟩
  · simp only [NNHypothesis.confidence, hx, he.1, ht, Task.binarize]
  · rw [hf, netFn_snoc, fwd, hl, p1]
  · split
    · rename_i h
      rw [abs_neg, abs_of_pos hp]
      refine ⟨by linarith, by linarith, ?_⟩
      constructor
      · intro h2; linarith
      · intro h2; linarith
    · rename_i h
      rw [abs_of_pos hq]
      refine ⟨by linarith, by linarith, ?_⟩
      constructor
      · intro h2; linarith
      · intro h2; linarith

/-! ## C55: labels -/

theorem set_replicate_eq (n k : Nat) (hk : k < n) :
    (List.replicate n (0 : ℝ)).set k 1 = (List.range n).map fun i => if i = k then 1 else 0 := by
  apply List.ext_getElem
  · simp
  · intro i h1 h2
    simp only [List.getElem_set, List.getElem_replicate, List.getElem_map, List.getElem_range]
    by_cases h : k = i
    · subst h; simp
    · rw [if_neg h, if_neg (fun h2 => h h2.symm)]

/-- The code's target vector is the intended encoding. -/
theorem nn_vectorize_encodes (y : ℝ) (n : Nat) (v : List ℝ) (h : Encodes y n v) :
    Task.vectorize y n = .ok v ∧ v.length = n := by
  rcases h with ⟨rfl, rfl⟩ | ⟨hn, k, hk, hy, rfl⟩
  · exact ⟨rfl, rfl⟩
  · refine ⟨?_, by simp⟩
    rw [Task.vectorize, if_neg hn]
    have hkk : (if y ≤ 0 then 0 else ⌊y⌋.toNat) = k := by
      rcases hy with rfl | ⟨rfl, rfl⟩
      · rcases Nat.eq_zero_or_pos k with rfl | h
        · simp
        · rw [if_neg (by push Not; exact_mod_cast h), Int.floor_natCast, Int.toNat_natCast]
      · rw [if_pos (by norm_num)]
    simp only [hkk]
    rw [if_pos hk, set_replicate_eq n k hk]

/-- Binary labels survive encoding into two outputs and decoding.  Missing (false): a single output, see
`nn_scalar_roundtrip_false`. -/
theorem nn_binary_roundtrip_partial (y : ℝ) (hy : y = 1 ∨ y = -1) :
    ∃ v, Task.vectorize y 2 = .ok v ∧ Task.binarize v = .ok y := by
  rcases hy with rfl | rfl
  · refine ⟨[0, 1], (nn_vectorize_encodes 1 2 _ (.inr ⟨by norm_num, 1, by norm_num, .inl (by norm_num), ?_⟩)).1, ?_⟩
    · simp [List.range_succ]
    · simp [Task.binarize]
  · refine ⟨[1, 0], (nn_vectorize_encodes (-1) 2 _ (.inr ⟨by norm_num, 0, by norm_num, .inr ⟨rfl, rfl⟩, ?_⟩)).1, ?_⟩
    · simp [List.range_succ]
    · simp [Task.binarize]

/-- With a single output, decoding an encoded label never gives the label back (unless it is 1/3): the label `+1` is
decoded as `-1`. -/
theorem nn_scalar_roundtrip_false :
    (∀ y : ℝ, y ≠ 1 / 3 → ∃ v c, Task.vectorize y 1 = .ok v ∧ Task.binarize v = .ok c ∧ c ≠ y) ∧
      ∃ v, Task.vectorize (1 : ℝ) 1 = .ok v ∧ Task.binarize v = .ok (-1) := by
  refine ⟨fun y hy => ⟨[y], 1 - 2 * y, rfl, rfl, fun h => hy (by linarith)⟩, [1], rfl, ?_⟩
  simp only [Task.binarize]
  norm_num

/-- Decoding for several classes returns the index of a largest output. -/
theorem nn_discretize_argmax (y : List ℝ) (n : Nat) (hn : y.length = n) (hpos : 0 < n) :
    ∃ k < n, Task.discretize y n = .ok (k : ℝ) ∧ ∀ i < n, y.getD i 0 ≤ y.getD k 0 := by
  have hne : (y.mapIdx fun i a => (i, a)) ≠ [] := by
    rw [← List.length_pos_iff, List.length_mapIdx, hn]; exact hpos
  obtain ⟨p, p1, p2, p3⟩ := maxBy_spec (fun p : Nat × ℝ => p.2) hne
  rw [List.mem_mapIdx] at p2
  obtain ⟨k, hk, rfl⟩ := p2
  refine ⟨k, by omega, ?_, fun i hi => ?_⟩
  · simp only [Task.discretize, hn]
    rw [if_neg (by simp), p1]
  · have hi' : i < y.length := by omega
    have := p3 (i, y[i]) (by rw [List.mem_mapIdx]; exact ⟨i, hi', rfl⟩)
    rw [List.getD_eq_getElem _ _ hi', List.getD_eq_getElem _ _ hk]
    exact this

/-- Class labels `0, …, n-1` survive encoding and decoding, for every number of classes. -/
theorem nn_multiclass_roundtrip (n k : Nat) (hk : k < n) :
    ∃ v, Task.vectorize (k : ℝ) n = .ok v ∧ Task.discretize v n = .ok (k : ℝ) := by
  by_cases hn : n = 1
  · subst hn
    have : k = 0 := by omega
    subst this
    exact ⟨[((0 : ℕ) : ℝ)], rfl, by simp [Task.discretize, Criterion.maxBy]⟩
  · have henc : Encodes (k : ℝ) n ((List.range n).map fun i => if i = k then 1 else 0) := .inr ⟨hn, k, hk, .inl rfl, rfl⟩
    obtain ⟨h1, h2⟩ := nn_vectorize_encodes _ _ _ henc
    refine ⟨_, h1, ?_⟩
    obtain ⟨k', hk', h3, h4⟩ := nn_discretize_argmax _ n h2 (by omega)
    have := h4 k hk
    rw [getD_range_map _ _ _ hk, getD_range_map _ _ _ hk', if_pos rfl] at this
    have : k' = k := by
      by_contra hne
      rw [if_neg hne] at this
      linarith
    rw [h3, this]

/-- A label that is not below the number of classes panics. -/
theorem nn_label_out_of_range (y : ℝ) (n : Nat) (hn : n ≠ 1) (h : (n : ℝ) ≤ y) : Task.vectorize y n = .error .outOfRange := by
  rw [Task.vectorize, if_neg hn]
  have : ¬ (if y ≤ 0 then 0 else ⌊y⌋.toNat) < n := by
    rcases Nat.eq_zero_or_pos n with rfl | hp
    · omega
    · have hy : ¬ y ≤ 0 := by
        have : (0 : ℝ) < n := by exact_mod_cast hp
        linarith
      rw [if_neg hy]
      have : (n : ℤ) ≤ ⌊y⌋ := Int.le_floor.2 (by exact_mod_cast h)
      omega
  simp only [if_neg this]

/-- The inherited `predict` (the sign of the confidence) is useless for a classifier with several classes: the
confidence is the class index, so the prediction is always `+1`. -/
theorem nn_multiclass_confidence_nonneg (f : NNHypothesis) (sample : Sample ℝ) (row n : Nat) (ht : f.task = .multiClass n)
    (c : ℝ) (h : f.confidence sample row = .ok c) : 0 ≤ c := by
  simp only [NNHypothesis.confidence, ht] at h
  split at h
  · simp at h
  · split at h
    · simp at h
    · simp only [Task.discretize] at h
      split at h
      · simp at h
      · split at h
        · simp at h
        · injection h with h
          rw [← h]
          exact Nat.cast_nonneg _

/-! ## C77: a training step is a gradient step -/

theorem lastAct_eq (ls : List Layer) (out : Layer) (h : ls.getLast? = some out) : lastAct ls = out.activation := by
  induction ls with
  | nil => simp at h
  | cons l ls ih =>
    cases ls with
    | nil => simp only [List.getLast?_singleton, Option.some.injEq] at h; subst h; rfl
    | cons l' ls => exact ih (by rw [List.getLast?_cons_cons] at h; exact h)

theorem reads_of_batch {sample : Sample ℝ} {n : Nat} {rows : List Nat} {E : List (List ℝ × List ℝ)}
    (h : BatchOf sample n rows E) : List.Forall₂ (Reads sample n) rows E ∧ ∀ e ∈ E, e.2.length = n := by
  unfold BatchOf at h
  induction h with
  | nil => exact ⟨.nil, by simp⟩
  | @cons i e rows E hr _ ih =>
    obtain ⟨y, h1, h2⟩ := hr
    obtain ⟨h3, h4⟩ := nn_vectorize_encodes _ _ _ h2
    refine ⟨.cons ⟨y, h1, h3⟩ ih.1, ?_⟩
    intro e' he'
    rcases List.mem_cons.1 he' with rfl | he'
    · exact h4
    · exact ih.2 e' he'

theorem hasDeriv_list_sum {α : Type*} (E : List α) (f : α → ℝ → ℝ) (g : α → ℝ) (h : ∀ e ∈ E, HasDerivAt (f e) (g e) 0) :
    HasDerivAt (fun t => (E.map fun e => f e t).sum) (E.map g).sum 0 := by
  induction E with
  | nil => simpa using hasDerivAt_const (0 : ℝ) (0 : ℝ)
  | cons e E ih =>
    simp only [List.map_cons, List.sum_cons]
    exact (h e List.mem_cons_self).add (ih fun e he => h e (List.mem_cons_of_mem _ he))

/-- A training step on a non-empty batch does not panic, whatever the activations: every layer keeps its shape and its
activation. -/
theorem nn_train_ok (f : NNHypothesis) (rate : ℝ) (loss : NNLoss) (sample : Sample ℝ) (d : Nat) (hne : f.layers ≠ [])
    (hs : Shaped f.layers d) (rows : List Nat) (E : List (List ℝ × List ℝ)) (hrows : rows ≠ [])
    (hE : BatchOf sample (outDim f.layers d) rows E) (hd : ∀ e ∈ E, e.1.length = d) :
    ∃ f', f.train rate loss sample rows = .ok f' ∧ f'.task = f.task ∧ Shaped f'.layers d ∧
      outDim f'.layers d = outDim f.layers d ∧ f'.layers.map (fun l => l.activation) = f.layers.map (fun l => l.activation) := by
  obtain ⟨h1, h2⟩ := reads_of_batch hE
  have hE0 : E ≠ [] := by
    rintro rfl
    cases hE
    exact hrows rfl
  refine ⟨_, train_ok f rate loss sample d hne hs h1 hE0 hd h2, rfl, steps_shaped rate _ _ _ hs, steps_outDim _ _ _ _, ?_⟩
  simp only
  generalize f.layers = ls
  clear h1 h2 hE hd hE0 hs hne
  induction ls generalizing E with
  | nil => rfl
  | cons l ls ih => simp only [steps, List.map_cons, ih]; rfl

/-- Training replaces every weight and every bias `w` by `w - rate · ∂L/∂w`, where `L` is the summed loss of the batch
(squared error for the identity at the output, cross entropy for softmax and sigmoid) and the derivative is taken at
the network before the step.
Missing (false): sigmoid and softmax in hidden layers, whose derivative the code gets wrong. -/
theorem nn_train_is_gradient_step_partial (f : NNHypothesis) (rate : ℝ) (loss : NNLoss) (sample : Sample ℝ) (d : Nat)
    (out : Layer) (hout : f.layers.getLast? = some out) (hs : Shaped f.layers d) (rows : List Nat)
    (E : List (List ℝ × List ℝ)) (hrows : rows ≠ []) (hE : BatchOf sample (outDim f.layers d) rows E)
    (hd : ∀ e ∈ E, e.1.length = d) (hreg : ∀ e ∈ E, Regular f.layers e.1 e.2) :
    ∃ f', f.train rate loss sample rows = .ok f' ∧ f'.task = f.task ∧ f'.layers.length = f.layers.length ∧
      ∀ pre l post, f.layers = pre ++ l :: post → ∃ l', f'.layers[pre.length]? = some l' ∧ ShapedLayer l' ∧
        l'.nrow = l.nrow ∧ l'.ncol = l.ncol ∧ l'.activation = l.activation ∧
        (∀ i < l.nrow, ∀ j < l.ncol, ∃ g,
          HasDerivAt (fun t => batchLoss out.activation (pre ++ bumpWeight l i j t :: post) E) g 0 ∧
          l'.matrix.entry i j = l.matrix.entry i j - rate * g) ∧
        ∀ i < l.nrow, ∃ g,
          HasDerivAt (fun t => batchLoss out.activation (pre ++ bumpBias l i t :: post) E) g 0 ∧
          l'.bias.getD i 0 = l.bias.getD i 0 - rate * g := by
  have hne : f.layers ≠ [] := by intro h; rw [h] at hout; simp at hout
  obtain ⟨h1, h2⟩ := reads_of_batch hE
  have hE0 : E ≠ [] := by
    rintro rfl
    cases hE
    exact hrows rfl
  refine ⟨_, train_ok f rate loss sample d hne hs h1 hE0 hd h2, rfl, steps_length _ _ _, ?_⟩
  intro pre l post hf
  have hla := lastAct_eq _ _ hout
  have hs' : Shaped (pre ++ l :: post) d := by rw [← hf]; exact hs
  have hsl : ShapedLayer l := ((shaped_append _ _ _).1 hs').2.1
  rw [hf] at hreg h2 hla ⊢
  refine ⟨_, steps_get rate pre l post E, stepL_shaped rate hsl _ _ _, rfl, rfl, rfl, ?_, ?_⟩
  · intro i hi j hj
    refine ⟨_, ?_, stepL_entry rate l E _ _ i j hi hj⟩
    apply hasDeriv_list_sum
    intro e he
    have := deriv_weight pre l post e.1 e.2 (by rw [hd e he]; exact hs') (hreg e he)
      (by rw [h2 e he, hd e he]) i j hi hj
    rw [hla] at this
    exact this
  · intro i hi
    refine ⟨_, ?_, stepL_bias rate l E _ (fun e => netFn pre e.1) i hi⟩
    apply hasDeriv_list_sum
    intro e he
    have := deriv_bias pre l post e.1 e.2 (by rw [hd e he]; exact hs') (hreg e he)
      (by rw [h2 e he, hd e he]) i hi
    rw [hla] at this
    exact this

/-- If the batch loss has a non-zero derivative in some weight or bias, then for every small enough positive learning
rate a training step makes the batch loss strictly smaller.
Missing (as for `nn_train_is_gradient_step_partial`): sigmoid and softmax in hidden layers. -/
theorem nn_train_descends_partial (f : NNHypothesis) (loss : NNLoss) (sample : Sample ℝ) (d : Nat)
    (out : Layer) (hout : f.layers.getLast? = some out) (hs : Shaped f.layers d) (rows : List Nat)
    (E : List (List ℝ × List ℝ)) (hrows : rows ≠ []) (hE : BatchOf sample (outDim f.layers d) rows E)
    (hd : ∀ e ∈ E, e.1.length = d) (hreg : ∀ e ∈ E, Regular f.layers e.1 e.2)
    (pre : List Layer) (l : Layer) (post : List Layer) (hf : f.layers = pre ++ l :: post) (i : Nat) (hi : i < l.nrow)
    (g : ℝ) (hg : g ≠ 0)
    (hder : (∃ j < l.ncol, HasDerivAt (fun t => batchLoss out.activation (pre ++ bumpWeight l i j t :: post) E) g 0) ∨
      HasDerivAt (fun t => batchLoss out.activation (pre ++ bumpBias l i t :: post) E) g 0) :
    ∃ ρ > 0, ∀ rate, 0 < rate → rate < ρ → ∃ f', f.train rate loss sample rows = .ok f' ∧
      batchLoss out.activation f'.layers E < batchLoss out.activation f.layers E := by
  have hne : f.layers ≠ [] := by intro h; rw [h] at hout; simp at hout
  obtain ⟨h1, h2⟩ := reads_of_batch hE
  have hE0 : E ≠ [] := by
    rintro rfl
    cases hE
    exact hrows rfl
  have hla := lastAct_eq _ _ hout
  have hpos : 0 < gradSq f.layers E := by
    have hs' : Shaped (pre ++ l :: post) d := by rw [← hf]; exact hs
    rw [hf] at hreg h2 hla ⊢
    refine gradSq_pos pre l post E i hi ?_
    rcases hder with ⟨j, hj, hder⟩ | hder
    · left
      refine ⟨j, hj, ?_⟩
      have : HasDerivAt (fun t => batchLoss out.activation (pre ++ bumpWeight l i j t :: post) E)
          (gW E (fun e => deltaOf (l :: post) (netFn pre e.1) e.2) (fun e => netFn pre e.1) i j) 0 := by
        apply hasDeriv_list_sum
        intro e he
        have := deriv_weight pre l post e.1 e.2 (by rw [hd e he]; exact hs') (hreg e he)
          (by rw [h2 e he, hd e he]) i j hi hj
        rw [hla] at this
        exact this
      rw [← hder.unique this]; exact hg
    · right
      have : HasDerivAt (fun t => batchLoss out.activation (pre ++ bumpBias l i t :: post) E)
          (gB E (fun e => deltaOf (l :: post) (netFn pre e.1) e.2) i) 0 := by
        apply hasDeriv_list_sum
        intro e he
        have := deriv_bias pre l post e.1 e.2 (by rw [hd e he]; exact hs') (hreg e he)
          (by rw [h2 e he, hd e he]) i hi
        rw [hla] at this
        exact this
      rw [← hder.unique this]; exact hg
  have hb := deriv_batch f.layers hne d hs E (fun e he => ⟨hd e he, h2 e he, hreg e he⟩)
  obtain ⟨ρ, hρ, h⟩ := decreases hb hpos
  refine ⟨ρ, hρ, fun rate r1 r2 => ⟨_, train_ok f rate loss sample d hne hs h1 hE0 hd h2, ?_⟩⟩
  have := h rate r1 r2
  simp only [netFn_step_zero, hla] at this
  exact this

/-- A sample with one row `1` and the label `1`. -/
def exNNSample : Sample ℝ :=
  { nameToIndex := [("x", 0)], features := [.dense ⟨"x", [1]⟩], target := [1], nSample := 1, nFeature := 1 }

/-- A ReLU layer followed by a softmax layer with two outputs. -/
def exNNLayers : List Layer := [⟨1, 1, [[1]], [0], .reLu 0⟩, ⟨2, 1, [[1], [-1]], [0, 0], .softMax 1⟩]

/-- Non-vacuity of `nn_train_is_gradient_step_partial`. -/
example : Shaped exNNLayers 1 ∧ BatchOf exNNSample (outDim exNNLayers 1) [0] [([1], [0, 1])] ∧ Regular exNNLayers [1] [0, 1] := by
  refine ⟨⟨⟨by decide, rfl, by simp, rfl⟩, rfl, ⟨by decide, rfl, by simp, rfl⟩, rfl, trivial⟩, ?_, ?_⟩
  · refine .cons ⟨1, rfl, .inr ⟨by decide, 1, by decide, .inl (by norm_num), ?_⟩⟩ .nil
    simp [exNNLayers, outDim, List.range_succ]
  · refine ⟨?_, ⟨one_ne_zero, by norm_num⟩⟩
    intro a ha
    simp [affineFn, Mat.entry] at ha
    rw [ha]; norm_num

/-- Non-vacuity of `nn_train_descends_partial`: a regression network `x ↦ x` with the row `1` and the target `0`. -/
example : HasDerivAt (fun t => batchLoss .id ([] ++ bumpBias ⟨1, 1, [[1]], [0], .id⟩ 0 t :: []) [([1], [0])]) 1 0 := by
  have e : ∀ t, batchLoss .id ([] ++ bumpBias ⟨1, 1, [[1]], [0], .id⟩ 0 t :: []) [([1], [0])] = (1 + t) ^ 2 / 2 := by
    intro t
    simp [batchLoss, outputLoss, netFn, bumpBias, actFn, affineFn, Mat.entry]
  simp only [e]
  have := ((((hasDerivAt_id (0 : ℝ)).const_add 1).fun_pow 2).div_const 2)
  refine this.congr_deriv ?_
  norm_num

/-- A training step on an empty batch panics. -/
theorem nn_train_empty_panics (f : NNHypothesis) (rate : ℝ) (loss : NNLoss) (sample : Sample ℝ) :
    ∃ e, f.train rate loss sample [] = .error e := by
  by_cases h : f.layers = []
  · exact ⟨.arith, by simp [NNHypothesis.train, h]⟩
  · obtain ⟨pre, l, hf⟩ : ∃ pre l, f.layers = pre ++ [l] := ⟨_, _, (List.dropLast_append_getLast h).symm⟩
    refine ⟨.outOfRange, ?_⟩
    simp [NNHypothesis.train, NNHypothesis.outputDim, hf, NNHypothesis.batchPass, NNHypothesis.backLoop, Mat.product]

/-! ## C78: the weak learner -/

/-- `while size > n { size /= 2 }`: the mini-batch size is the first of 128, 64, 32, … that is not larger than the
number of examples. -/
theorem nn_minibatch (n s : Nat) :
    ∃ k, NeuralNetwork.halve n s = s / 2 ^ k ∧ s / 2 ^ k ≤ n ∧ ∀ i < k, n < s / 2 ^ i := by
  induction s using Nat.strong_induction_on with
  | _ s ih =>
    rw [NeuralNetwork.halve]
    by_cases h : n < s
    · rw [if_pos h]
      obtain ⟨k, k1, k2, k3⟩ := ih (s / 2) (by omega)
      have e : ∀ i, s / 2 / 2 ^ i = s / 2 ^ (i + 1) := fun i => by rw [Nat.div_div_eq_div_mul, pow_succ, mul_comm]
      refine ⟨k + 1, by rw [k1, e], by rw [← e]; exact k2, fun i hi => ?_⟩
      cases i with
      | zero => simpa using h
      | succ i => rw [← e]; exact k3 i (by omega)
    · rw [if_neg h]
      exact ⟨0, by simp, by simpa using h, by simp⟩

/-- The default mini-batch is never larger than the sample and is empty only for the empty sample. -/
theorem nn_default_minibatch (n d : Nat) :
    (NeuralNetwork.init n d).minibatchSize ≤ n ∧ ((NeuralNetwork.init n d).minibatchSize = 0 ↔ n = 0) := by
  obtain ⟨k, k1, k2, k3⟩ := nn_minibatch n 128
  have e : (NeuralNetwork.init n d).minibatchSize = NeuralNetwork.halve n 128 := rfl
  rw [e, k1]
  refine ⟨k2, ⟨fun h => ?_, fun h => by omega⟩⟩
  by_contra hn
  have hk : 7 < k := by
    by_contra hk
    have : 2 ^ k ≤ 2 ^ 7 := Nat.pow_le_pow_right (by norm_num) (by omega)
    have : 0 < 128 / 2 ^ k := Nat.div_pos (by omega) (by positivity)
    omega
  have := k3 7 hk
  norm_num at this
  exact hn this

theorem iterate_ok (rate : ℝ) (loss : NNLoss) (sample : Sample ℝ) (d : Nat) (batch : List Nat)
    (E : List (List ℝ × List ℝ)) (hb : batch ≠ []) (hd : ∀ e ∈ E, e.1.length = d) (m : Nat) (n : Nat) : ∀ f : NNHypothesis,
    f.layers ≠ [] → Shaped f.layers d → outDim f.layers d = m → BatchOf sample m batch E →
    ∃ f', NeuralNetwork.iterate rate loss sample batch n f = .ok f' ∧ f'.task = f.task ∧ Shaped f'.layers d ∧
      outDim f'.layers d = m ∧ f'.layers.map (fun l => l.activation) = f.layers.map (fun l => l.activation) := by
  induction n with
  | zero => intro f _ h1 h2 _; exact ⟨f, rfl, rfl, h1, h2, rfl⟩
  | succ n ih =>
    intro f h0 h1 h2 h3
    obtain ⟨f1, e1, e2, e3, e4, e5⟩ := nn_train_ok f rate loss sample d h0 h1 batch E hb (by rw [h2]; exact h3) hd
    have hne : f1.layers ≠ [] := by
      intro h
      rw [h] at e5
      exact h0 (List.map_eq_nil_iff.1 e5.symm)
    obtain ⟨f2, g1, g2, g3, g4, g5⟩ := ih f1 hne e3 (by rw [e4, h2]) h3
    exact ⟨f2, by rw [NeuralNetwork.iterate, e1]; exact g1, by rw [g2, e2], g3, g4, by rw [g5, e5]⟩

theorem epochs_ok (rate : ℝ) (loss : NNLoss) (sample : Sample ℝ) (d m nIter : Nat) (batches : List (Option (List Nat)))
    (hb : ∀ o ∈ batches, ∃ b E, o = some b ∧ b ≠ [] ∧ BatchOf sample m b E ∧ ∀ e ∈ E, e.1.length = d) : ∀ f : NNHypothesis,
    f.layers ≠ [] → Shaped f.layers d → outDim f.layers d = m →
    ∃ f', NeuralNetwork.epochs rate loss sample nIter batches f = .ok f' ∧ f'.task = f.task ∧ Shaped f'.layers d ∧
      outDim f'.layers d = m ∧ f'.layers.map (fun l => l.activation) = f.layers.map (fun l => l.activation) := by
  induction batches with
  | nil => intro f _ h1 h2; exact ⟨f, rfl, rfl, h1, h2, rfl⟩
  | cons o rest ih =>
    intro f h0 h1 h2
    obtain ⟨b, E, rfl, hb1, hb2, hb3⟩ := hb o List.mem_cons_self
    obtain ⟨f1, e1, e2, e3, e4, e5⟩ := iterate_ok rate loss sample d b E hb1 hb3 m nIter f h0 h1 h2 hb2
    have hne : f1.layers ≠ [] := by
      intro h
      rw [h] at e5
      exact h0 (List.map_eq_nil_iff.1 e5.symm)
    obtain ⟨f2, g1, g2, g3, g4, g5⟩ := ih (fun o ho => hb o (List.mem_cons_of_mem _ ho)) f1 hne e3 e4
    exact ⟨f2, by rw [NeuralNetwork.epochs, e1]; exact g1, by rw [g2, e2], g3, g4, by rw [g5, e5]⟩

/-- A learner configured with at least one layer, all of positive width, trained on a sample of `n` rows whose labels
fit the output width, returns a network of the configured shape and activations, whatever random numbers and
mini-batches are drawn, provided the batches are non-empty lists of rows. -/
theorem nn_produce_ok (nn : NeuralNetwork) (noise : Nat → Nat → Nat → ℝ) (noiseBias : Nat → Nat → ℝ)
    (draws : Nat → Option (List Nat)) (sample : Sample ℝ) (d n : Nat) (dims : List Nat)
    (hdim : nn.dimensions = d :: dims) (hne : dims ≠ []) (hlen : dims.length = nn.activations.length)
    (hpos : ∀ m ∈ dims, 0 < m)
    (hrow : ∀ i < n, ∃ x y v, sample.at' i = .ok (x, y) ∧ x.length = d ∧ Encodes y (dims.getLast hne) v)
    (hdraw : ∀ e, ∃ b, draws e = some b ∧ b ≠ [] ∧ ∀ i ∈ b, i < n) :
    ∃ f, nn.produce noise noiseBias draws sample = .ok f ∧ f.task = nn.task ∧ Shaped f.layers d ∧
      outDim f.layers d = dims.getLast hne ∧ f.layers.map (fun l => l.activation) = nn.activations := by
  obtain ⟨s1, s2, s3⟩ := nn_newLayers_shaped noise noiseBias nn.activations dims 0 d hlen hpos
  rw [List.getLast_cons hne] at s2
  have hL : NNHypothesis.newLayers noise noiseBias 0 d dims nn.activations ≠ [] := by
    intro h
    rw [h] at s3
    have : nn.activations = [] := s3.symm
    rw [this] at hlen
    exact hne (List.length_eq_zero_iff.1 (by simpa using hlen))
  have hbatch : ∀ b : List Nat, (∀ i ∈ b, i < n) → ∃ E, BatchOf sample (dims.getLast hne) b E ∧ ∀ e ∈ E, e.1.length = d := by
    intro b
    induction b with
    | nil => intro _; exact ⟨[], .nil, by simp⟩
    | cons i b ih =>
      intro h
      obtain ⟨E, h1, h2⟩ := ih fun i hi => h i (List.mem_cons_of_mem _ hi)
      obtain ⟨x, y, v, h3, h4, h5⟩ := hrow i (h i List.mem_cons_self)
      refine ⟨(x, v) :: E, .cons ⟨y, h3, h5⟩ h1, ?_⟩
      intro e he
      rcases List.mem_cons.1 he with rfl | he
      · exact h4
      · exact h2 e he
  obtain ⟨f, f1, f2, f3, f4, f5⟩ := epochs_ok (nn.learningRate / (nn.minibatchSize : ℝ)) nn.lossFunc sample d
    (dims.getLast hne) nn.nIter ((List.range nn.nEpoch).map fun e => draws (e + 1)) (by
      intro o ho
      obtain ⟨e, _, rfl⟩ := List.mem_map.1 ho
      obtain ⟨b, b1, b2, b3⟩ := hdraw (e + 1)
      obtain ⟨E, h1, h2⟩ := hbatch b b3
      exact ⟨b, E, b1, b2, h1, h2⟩)
    { task := nn.task, layers := NNHypothesis.newLayers noise noiseBias 0 d dims nn.activations } hL s1 s2
  refine ⟨f, ?_, f2, f3, f4, by rw [f5, s3]⟩
  simp only [NeuralNetwork.produce, NNHypothesis.new, hdim]
  exact f1

/-- The builder: `append` adds one dimension and one activation, so a learner built from `init` by at least one
`append` satisfies the shape hypotheses of `nn_produce_ok`. -/
theorem nn_builder (n d : Nat) (layers : List (Nat × Activation)) :
    let nn := layers.foldl (fun nn p => nn.append p.1 p.2) (NeuralNetwork.init n d)
    nn.dimensions = d :: layers.map Prod.fst ∧ nn.activations = layers.map Prod.snd ∧ nn.task = .binary ∧
      nn.lossFunc = .crossEntropy := by
  suffices h : ∀ nn0 : NeuralNetwork,
      let nn := layers.foldl (fun nn p => nn.append p.1 p.2) nn0
      nn.dimensions = nn0.dimensions ++ layers.map Prod.fst ∧ nn.activations = nn0.activations ++ layers.map Prod.snd ∧
        nn.task = nn0.task ∧ nn.lossFunc = nn0.lossFunc from h _
  induction layers with
  | nil => intro nn0; simp
  | cons p layers ih =>
    intro nn0
    obtain ⟨h1, h2, h3, h4⟩ := ih (nn0.append p.1 p.2)
    refine ⟨?_, ?_, h3, h4⟩
    · rw [List.foldl_cons, h1]; simp [NeuralNetwork.append]
    · rw [List.foldl_cons, h2]; simp [NeuralNetwork.append]

/-- Without any layer, training panics as soon as there is an epoch with an iteration. -/
theorem nn_no_layer_panics (nn : NeuralNetwork) (noise : Nat → Nat → Nat → ℝ) (noiseBias : Nat → Nat → ℝ)
    (draws : Nat → Option (List Nat)) (sample : Sample ℝ) (d : Nat) (hdim : nn.dimensions = [d])
    (he : 0 < nn.nEpoch) (hi : 0 < nn.nIter) : ∃ e, nn.produce noise noiseBias draws sample = .error e := by
  obtain ⟨k, hk⟩ : ∃ k, nn.nEpoch = k + 1 := ⟨nn.nEpoch - 1, by omega⟩
  obtain ⟨m, hm⟩ : ∃ m, nn.nIter = m + 1 := ⟨nn.nIter - 1, by omega⟩
  simp only [NeuralNetwork.produce, NNHypothesis.new, hdim, hk, hm, List.range_succ_eq_map, List.map_cons]
  cases draws (0 + 1) with
  | none => exact ⟨_, rfl⟩
  | some b =>
    refine ⟨.arith, ?_⟩
    simp [NeuralNetwork.epochs, NeuralNetwork.iterate, NNHypothesis.train, NNHypothesis.newLayers]

end Miniboosts.Props
