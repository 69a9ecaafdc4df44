import Verif.Spec.Logger

/-! # Specification vocabulary for logged runs (C102) -/

namespace Miniboosts.Spec

variable {σ K H O T : Type*}

/-- Nothing outside the booster disturbs the logged run: the file can be written, the time limit is not exceeded, the print interval is not zero,
and objective and loss can be computed. -/
structure Undisturbed (L : Logger σ K H O T) (w : World) : Prop where
  interval : L.round ≠ 0
  create : w.createOk = true
  header : w.headerOk = true
  write : ∀ k, w.writeOk k = true
  time : ∀ k, timeUpTo w.elapsed k ≤ L.timeLimit
  objective : ∀ t f, ∃ v, L.objective t f = .ok v
  loss : ∀ t f, ∃ v, L.loss t f = .ok v

/-- How an unlogged run ends, in the vocabulary of logged runs. -/
def plainOutcome : Except Panic (O × List (List K)) → LogOutcome O K
  | .error e => .panic e
  | .ok p => .ok p.1 p.2

/-- The logged run ends exactly as `Booster::run` does, for every number of rounds one waits: same hypothesis, same weight vectors handed to the weak
learner, same panic, or both still running. -/
def Transparent (L : Logger σ K H O T) (w : World) (wl : WeakLearner K H) (s : σ) : Prop :=
  ∀ fuel, (L.run w wl fuel s).map LogRun.outcome = (L.booster.run wl fuel s).map plainOutcome

end Miniboosts.Spec
