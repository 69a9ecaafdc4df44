import Verif.Model.Core

/-! Specification for C52: the states earlier runs leave behind. -/

namespace Miniboosts.Spec

variable {σ K H O : Type*}

/-- `s'` is a state in which a call of `run` on a booster object in state `s` may leave the object: a state between two calls of
`boost` (for a run that was interrupted there), or the state after the call of `boost` that ended the loop. -/
inductive LeftBehind (B : Booster σ K H O) (s s' : σ) : Prop
  | interrupted (wl : WeakLearner K H) (n : Nat) (qs : List (List K)) (h : B.Reachable wl s n qs s')
  | finished (wl : WeakLearner K H) (n : Nat) (qs : List (List K)) (s₁ : σ) (out : BoostOut σ K) (k : Nat)
      (h : B.Reachable wl s n qs s₁) (hb : B.boost s₁ wl (n + 1) = .ok out) (hf : out.flow = .brk k) (he : s' = out.state)

/-- `s'` is a state after any number of earlier runs, each with a weak learner of its own. -/
inductive Used (B : Booster σ K H O) (s : σ) : σ → Prop
  | fresh : Used B s s
  | again {s₁ s₂ : σ} : Used B s s₁ → LeftBehind B s₁ s₂ → Used B s s₂

end Miniboosts.Spec
