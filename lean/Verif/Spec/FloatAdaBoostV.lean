import Verif.Spec.Float
import Verif.Model.FloatAdaBoostV

/-! # What is said about AdaBoostV in `f64` (C112) -/

namespace Miniboosts

open F64

namespace AdaBoostVF

variable {H X : Type*} [Classifier H X F64]

/-- Some execution of `run`, started with the booster `s`, reaches the call of `boost` for iteration `it` with the state `st`. -/
inductive Reach (L : Libm) (S : Examples X ℝ) (wl : WeakLearner F64 H) (s : AdaBoostVF H) : Nat → AdaBoostVF H → Prop
  | start {s₀} (h : (booster L S).preprocess s wl = .ok s₀) : Reach L S wl s 1 s₀
  | next {it s₁ out} (h : Reach L S wl s it s₁) (hb : (booster L S).boost s₁ wl it (.ok out)) (hf : out.flow = .cont) : Reach L S wl s (it + 1) out.state

/-- In the rounds that a run may reach, the learner's hypothesis answers with numbers in `[-1, 1]` and has an edge in `[lo, hi]` (as long as
the weights are sound). -/
structure Fair (L : Libm) (S : Examples X ℝ) (wl : WeakLearner F64 H) (s : AdaBoostVF H) (lo hi : ℝ) : Prop where
  conf : ∀ it st, Reach L S wl s it st → it ≤ st.maxIter → SoundWeights S.length st.dist →
    ∀ e ∈ S, ∃ c : ℝ, conf (wl it st.dist) e.1 = fin c ∧ |c| ≤ 1
  edge : ∀ it st, Reach L S wl s it st → it ≤ st.maxIter → SoundWeights S.length st.dist →
    lo ≤ exactEdge S st.dist (wl it st.dist) ∧ exactEdge S st.dist (wl it st.dist) ≤ hi

/-- A learner that is fair for all weights is fair in every run. -/
theorem Fair.of_learner {L : Libm} {S : Examples X ℝ} {wl : WeakLearner F64 H} {s : AdaBoostVF H} {lo hi : ℝ} (h : FairLearner S wl lo hi) :
    Fair L S wl s lo hi :=
  ⟨fun it _ _ _ hd => h.conf it _ hd, fun it _ _ _ hd => h.edge it _ hd⟩

/-- The number of rounds: `force_quit_at`, or the limit that the code computes from the tolerance. -/
noncomputable def limit {H : Type*} (L : Libm) (S : Examples X ℝ) (s : AdaBoostVF H) : ℕ :=
  match s.forceQuitAt with
  | some it => it
  | none => maxLoop L S s

end AdaBoostVF

end Miniboosts
