import Verif.Spec.Basic
import Verif.Spec.Float

/-! # What is said about the objective functions in `f64` (C129) -/

namespace Miniboosts.Spec

/-- The soft margin of the margins `ms`: the least average of the margins under a distribution with entries at most `1/ν`. -/
def IsSoftMargin (nu : ℝ) (ms : List ℝ) (V : ℝ) : Prop :=
  IsLeast {x | ∃ d : List ℝ, d.length = ms.length ∧ IsCapped nu d ∧ x = (List.zipWith (fun w m => w * m) d ms).sum} V

/-- Every confidence on the sample is a finite `f64` of absolute value at most two. -/
def FiniteConf {H X : Type*} [Classifier H X F64] (S : Examples X ℝ) (h : H) : Prop := ∀ e ∈ S, ∃ c : ℝ, conf h e.1 = F64.fin c ∧ |c| ≤ 2 ∧ Double c

end Miniboosts.Spec
