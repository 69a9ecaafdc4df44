import Verif.Model.ParBoost

/-! Specification for C131: the states earlier runs leave behind, for boosters whose rounds may have several results. -/

namespace Miniboosts.Spec

variable {σ K H O : Type*}

/-- `s'` is a state of a run on a booster object in state `s`, after `n` calls of `boost`. -/
inductive ParReach (B : ParBooster σ K H O) (wl : WeakLearner K H) (s : σ) : Nat → σ → Prop
  | start {s₀} (h : B.preprocess s wl = .ok s₀) : ParReach B wl s 0 s₀
  | step {n s₁ out} (h : ParReach B wl s n s₁) (hb : B.boost s₁ wl (n + 1) (.ok out)) : ParReach B wl s (n + 1) out.state

/-- `s'` is a state after any number of earlier runs, finished or interrupted between two rounds, each with a weak learner of its own. -/
inductive ParUsed (B : ParBooster σ K H O) (s : σ) : σ → Prop
  | fresh : ParUsed B s s
  | again {s₁ s₂ : σ} (wl : WeakLearner K H) (n : Nat) : ParUsed B s s₁ → ParReach B wl s₁ n s₂ → ParUsed B s s₂

end Miniboosts.Spec
