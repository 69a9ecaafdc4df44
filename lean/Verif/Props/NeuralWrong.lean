import Verif.Props.NeuralNetwork

/-! # C77: training is not gradient descent with a sigmoid or a softmax in a hidden layer -/

namespace Miniboosts.Props

open Miniboosts Spec Real NN

/-- `x ↦ σ(x)` as a network with two layers; the hidden layer is a sigmoid. -/
def exSigmoidLayers : List Layer := [⟨1, 1, [[1]], [0], .sigmoid 1⟩, ⟨1, 1, [[1]], [0], .id⟩]

/-- `x ↦ p₁ + p₂ + 1` as a network with two layers; the hidden layer is a softmax with two outputs. -/
def exSoftmaxLayers : List Layer := [⟨2, 1, [[0], [0]], [0, 0], .softMax 1⟩, ⟨1, 2, [[1, 1]], [1], .id⟩]

theorem exSigmoid_loss (t : ℝ) : batchLoss .id ([] ++ bumpBias ⟨1, 1, [[1]], [0], .sigmoid 1⟩ 0 t :: [⟨1, 1, [[1]], [0], .id⟩]) [([1], [1])] =
    (1 / (1 + exp (-(1 + t))) - 1) ^ 2 / 2 := by
  simp [batchLoss, outputLoss, netFn, bumpBias, actFn, affineFn, Mat.entry]

theorem exSoftmax_loss (t : ℝ) : batchLoss .id ([] ++ bumpBias ⟨2, 1, [[0], [0]], [0, 0], .softMax 1⟩ 0 t :: [⟨1, 2, [[1, 1]], [1], .id⟩]) [([1], [1])] =
    1 / 2 := by
  have h : exp t + 1 ≠ 0 := by positivity
  simp [batchLoss, outputLoss, netFn, bumpBias, actFn, affineFn, Mat.entry, Spec.softmax, List.range_succ, Finset.sum_range_succ]
  field_simp

/-- C77 is false of a hidden sigmoid: for the regression network `x ↦ σ(x)`, one row `x = 1` with the target `1` and every learning rate other than 0,
the loss has a derivative in the bias of the hidden unit, and the trained bias is not the old one minus `rate` times that derivative. -/
theorem nn_hidden_sigmoid_not_gradient (rate : ℝ) (hrate : rate ≠ 0) (loss : NNLoss) :
    ∃ f' l', NNHypothesis.train ⟨.regression, exSigmoidLayers⟩ rate loss exNNSample [0] = .ok f' ∧ f'.layers[0]? = some l' ∧
      ∃ g, HasDerivAt (fun t => batchLoss .id ([] ++ bumpBias ⟨1, 1, [[1]], [0], .sigmoid 1⟩ 0 t :: [⟨1, 1, [[1]], [0], .id⟩]) [([1], [1])]) g 0 ∧
        l'.bias.getD 0 0 ≠ 0 - rate * g := by
  have hs : Shaped exSigmoidLayers 1 := ⟨⟨by decide, rfl, by simp, rfl⟩, rfl, ⟨by decide, rfl, by simp, rfl⟩, rfl, trivial⟩
  have hE : BatchOf exNNSample (outDim exSigmoidLayers 1) [0] [([1], [1])] := .cons ⟨1, rfl, .inl ⟨rfl, rfl⟩⟩ .nil
  obtain ⟨h1, h2⟩ := reads_of_batch hE
  have ht := train_ok ⟨.regression, exSigmoidLayers⟩ rate loss exNNSample 1 (by simp [exSigmoidLayers]) hs h1 (by simp) (by simp) h2
  refine ⟨_, _, ht, steps_get rate [] _ _ _, ?_⟩
  set s := 1 / (1 + exp (-1 : ℝ)) with hsdef
  have he : 0 < exp (-1 : ℝ) := exp_pos _
  have hs1 : s < 1 := by rw [hsdef, div_lt_one (by positivity)]; linarith
  have hs0 : 0 < s := by positivity
  refine ⟨(s - 1) * (s * (1 - s)), ?_, ?_⟩
  · simp only [exSigmoid_loss]
    have d1 : HasDerivAt (fun t : ℝ => exp (-(1 + t))) (exp (-(1 + 0)) * (-1)) 0 := by
      have := (((hasDerivAt_id (0 : ℝ)).const_add 1).neg).exp
      simpa using this
    have d2 := (((((hasDerivAt_const (0 : ℝ) (1 : ℝ)).div (d1.const_add 1) (by positivity)).sub_const 1).fun_pow 2).div_const 2)
    refine d2.congr_deriv ?_
    rw [hsdef]
    have : 1 + exp (-1 : ℝ) ≠ 0 := by positivity
    norm_num
    field_simp
    ring
  · rw [stepL_bias _ _ _ _ _ 0 (by norm_num)]
    have hB : gB [(([1] : List ℝ), ([1] : List ℝ))] (fun e => deltaOf [⟨1, 1, [[1]], [0], .sigmoid 1⟩, ⟨1, 1, [[1]], [0], .id⟩] (netFn [] e.1) e.2) 0 =
        (s - 1) * (1 - s) := by
      have : 1 + exp (-1 : ℝ) ≠ 0 := by positivity
      simp [gB, deltaOf, netFn, actFn, affineFn, actDer, backW, Mat.entry]
      rw [hsdef]
      field_simp
      ring
    rw [hB]
    simp only [List.getD_cons_zero]
    intro h
    have h3 : rate * ((s - 1) * (1 - s) * (1 - s)) = 0 := by linarith
    have h4 : (s - 1) * (1 - s) * (1 - s) ≠ 0 := by
      apply mul_ne_zero (mul_ne_zero _ _) <;> intro h <;> linarith
    exact (mul_ne_zero hrate h4) h3

/-- C77 is false of a hidden softmax: the output of this network does not depend on the biases of the hidden layer, so the loss has the derivative 0,
but training changes them. -/
theorem nn_hidden_softmax_not_gradient (rate : ℝ) (hrate : rate ≠ 0) (loss : NNLoss) :
    ∃ f' l', NNHypothesis.train ⟨.regression, exSoftmaxLayers⟩ rate loss exNNSample [0] = .ok f' ∧ f'.layers[0]? = some l' ∧
      HasDerivAt (fun t => batchLoss .id ([] ++ bumpBias ⟨2, 1, [[0], [0]], [0, 0], .softMax 1⟩ 0 t :: [⟨1, 2, [[1, 1]], [1], .id⟩]) [([1], [1])]) 0 0 ∧
        l'.bias.getD 0 0 ≠ 0 - rate * 0 := by
  have hs : Shaped exSoftmaxLayers 1 := ⟨⟨by decide, rfl, by simp, rfl⟩, rfl, ⟨by decide, rfl, by simp, rfl⟩, rfl, trivial⟩
  have hE : BatchOf exNNSample (outDim exSoftmaxLayers 1) [0] [([1], [1])] := .cons ⟨1, rfl, .inl ⟨rfl, rfl⟩⟩ .nil
  obtain ⟨h1, h2⟩ := reads_of_batch hE
  have ht := train_ok ⟨.regression, exSoftmaxLayers⟩ rate loss exNNSample 1 (by simp [exSoftmaxLayers]) hs h1 (by simp) (by simp) h2
  refine ⟨_, _, ht, steps_get rate [] _ _ _, ?_, ?_⟩
  · simp only [exSoftmax_loss]
    exact hasDerivAt_const _ _
  · rw [stepL_bias _ _ _ _ _ 0 (by norm_num)]
    have hB : gB [(([1] : List ℝ), ([1] : List ℝ))] (fun e => deltaOf [⟨2, 1, [[0], [0]], [0, 0], .softMax 1⟩, ⟨1, 2, [[1, 1]], [1], .id⟩] (netFn [] e.1) e.2) 0 =
        1 / 4 := by
      simp [gB, deltaOf, netFn, actFn, affineFn, actDer, backW, Mat.entry, Spec.softmax, List.range_succ, Finset.sum_range_succ]
      norm_num
    rw [hB]
    simp only [List.getD_cons_zero]
    intro h
    apply hrate
    linarith

end Miniboosts.Props
