import Verif.Model.Logger

/-! # Specification vocabulary for logging -/

namespace Miniboosts.Spec

variable {σ K H O T : Type*}

/-- The successive results of calling `boost` with iterations `k, k+1, …`, each on the state left by the one before, each but the
last returning `Continue`. -/
inductive Calls (B : Booster σ K H O) (wl : WeakLearner K H) : σ → Nat → List (BoostOut σ K) → Prop
  | nil (s : σ) (k : Nat) : Calls B wl s k []
  | cons {s : σ} {k : Nat} {out : BoostOut σ K} {outs : List (BoostOut σ K)} (call : B.boost s wl k = .ok out)
      (goesOn : outs ≠ [] → out.flow = .cont) (rest : Calls B wl out.state (k + 1) outs) : Calls B wl s k (out :: outs)

/-- Milliseconds spent in the calls `1, …, k`. -/
def timeUpTo (elapsed : Nat → Nat) : Nat → Nat
  | 0 => 0
  | k + 1 => timeUpTo elapsed k + elapsed (k + 1)

/-- The line describes the state: objective and loss on the training sample and loss on the test sample, of the current hypothesis. -/
def Describes (current : σ → Except Panic O) (objective loss : T → O → Except Panic K) (train test : T) (s : σ) (l : LogLine K) : Prop :=
  ∃ f, current s = .ok f ∧ objective train f = .ok l.obj ∧ loss train f = .ok l.train ∧ loss test f = .ok l.test

/-- The lines of the file are those of the calls, in order, with the time accumulated so far. -/
def LogOf (L : Logger σ K H O T) (elapsed : Nat → Nat) (outs : List (BoostOut σ K)) (lines : List (LogLine K)) : Prop :=
  lines.length = outs.length ∧
  ∀ k, ∀ l, lines[k]? = some l → l.time = timeUpTo elapsed (k + 1) ∧
    ∃ out, outs[k]? = some out ∧ Describes L.current L.objective L.loss L.train L.test out.state l

end Miniboosts.Spec
