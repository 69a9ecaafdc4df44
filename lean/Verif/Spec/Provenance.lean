/-
Specification for C101: where the hypotheses of a returned combined hypothesis come from.
-/
import Verif.Model.Core

namespace Miniboosts

/-- The hypotheses the weak learner produced during a run, in the order of its calls: `qs` are the weight vectors it was handed, the `i`-th
call (1-based) was `wl i qs[i-1]`. -/
def answers {K H : Type*} (wl : WeakLearner K H) (qs : List (List K)) : List H :=
  qs.mapIdx fun i d => wl (i + 1) d

/-- Every hypothesis of `hs` is one of the weak learner's answers of this run, taken in the order of the calls, each answer at most once. -/
def FromRun {K H : Type*} (wl : WeakLearner K H) (qs : List (List K)) (hs : List H) : Prop :=
  hs.Sublist (answers wl qs)

end Miniboosts
