import Verif.Model.Core
import Mathlib.Algebra.BigOperators.Group.Finset.Basic
import Mathlib.Data.Finset.Prod
import Mathlib.Data.Finset.Card

/-! # Specification of graph-separation boosting

The examples are the vertices of a graph; two examples with different labels are joined as long as
every hypothesis obtained so far gives them the same prediction. -/

namespace Miniboosts.Spec

variable {K H X : Type*}

/-- Examples number `i` and `j` have different labels, and all of `hs` predict the same on both. -/
def Unseparated (pred : H → X → Int) (S : List (X × K)) (hs : List H) (i j : Nat) : Prop :=
  ∃ a b, S[i]? = some a ∧ S[j]? = some b ∧ a.2 ≠ b.2 ∧ ∀ h ∈ hs, pred h a.1 = pred h b.1

open Classical in
/-- The examples not yet separated from example number `i`. -/
noncomputable def neighbours (pred : H → X → Int) (S : List (X × K)) (hs : List H) (i : Nat) : Finset Nat :=
  (Finset.range S.length).filter (Unseparated pred S hs i)

open Classical in
/-- The number of pairs of examples not yet separated. -/
noncomputable def openPairs (pred : H → X → Int) (S : List (X × K)) (hs : List H) : Nat :=
  ((Finset.range S.length ×ˢ Finset.range S.length).filter
    fun p => p.1 < p.2 ∧ Unseparated pred S hs p.1 p.2).card

/-- The weighted error `Σ_i d_i [pred(x_i) ≠ y_i]`. -/
def weightedError [Field K] [DecidableEq K] (S : List (X × K)) (d : List K) (pred : X → Int) : K :=
  ((List.zip S d).map fun p => if (pred p.1.1 : K) = p.1.2 then 0 else p.2).sum

end Miniboosts.Spec
