import Verif.Model.Config

/-! # Specification of configuration chains: the last value given for a parameter counts -/

namespace Miniboosts.Spec

/-- The last value that the calls `cs` give to the parameter selected by `sel`, or `d` when no call sets it. -/
def lastOf {C α : Type*} (sel : C → Option α) (cs : List C) (d : α) : α := (cs.filterMap sel).getLast?.getD d

/-- The value a call gives to the tolerance. -/
def limitTol : LimitCall → Option ℝ
  | .tolerance t => some t
  | .forceQuitAt _ => none

/-- The value a call gives to the round limit. -/
def limitQuit : LimitCall → Option (Option Nat)
  | .tolerance _ => none
  | .forceQuitAt n => some (some n)

/-- The value a call gives to `ν`. -/
def nuNu : NuCall → Option ℝ
  | .nu v => some v
  | .tolerance _ => none

/-- The value a call gives to the tolerance. -/
def nuTol : NuCall → Option ℝ
  | .nu _ => none
  | .tolerance t => some t

/-- The value a call gives to `ν`. -/
def fwNu : FwCall → Option ℝ
  | .nu v => some v
  | _ => none

/-- The value a call gives to the tolerance. -/
def fwTol : FwCall → Option ℝ
  | .tolerance t => some t
  | _ => none

/-- The value a call gives to the Frank-Wolfe strategy. -/
def fwStrategy : FwCall → Option FWType
  | .strategy f => some f
  | _ => none

/-- The value a call gives to the tolerance. -/
def smoothTol : SmoothCall → Option ℝ
  | .tolerance t => some t
  | .gamma _ => none

/-- The value a call gives to `γ`. -/
def smoothGamma : SmoothCall → Option ℝ
  | .tolerance _ => none
  | .gamma g => some g

end Miniboosts.Spec
