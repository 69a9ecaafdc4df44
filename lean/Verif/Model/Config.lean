import Verif.Model.AdaBoostV
import Verif.Model.MadaBoost
import Verif.Model.SmoothBoost
import Verif.Model.LPBoost
import Verif.Model.ERLPBoost
import Verif.Model.SoftBoost
import Verif.Model.CERLPBoost
import Verif.Model.MLPBoost

/-! # Chains of configuration calls, e.g. `Booster::init(&sample).nu(5.0).tolerance(0.1)`

Every booster is configured by methods that take `self` and return `Self`; a user writes any chain of them.  A call is a
value of one of the types below, a chain is a list of calls. -/

namespace Miniboosts

variable {H X : Type*}

/-- A chain `b.m₁(..).m₂(..)…`: the calls are made from left to right and a panic ends the program.  Models the method
chains of the documentation, e.g. `src/booster/lpboost/lpboost_algorithm.rs:91-93`. -/
def configure {C σ : Type*} (call : σ → C → Except Panic σ) : σ → List C → Except Panic σ
  | s, [] => .ok s
  | s, c :: cs =>
    match call s c with
    | .error e => .error e
    | .ok s => configure call s cs

/-- The setters of AdaBoost, AdaBoostV and MadaBoost: `tolerance` and `force_quit_at`
(`src/booster/adaboost/adaboost_algorithm.rs:168-182`, `src/booster/adaboostv/adaboostv_algorithm.rs:174-215`,
`src/booster/madaboost/madaboost_algorithm.rs:166-180`). -/
inductive LimitCall where
  | tolerance (t : ℝ)
  | forceQuitAt (n : Nat)

/-- The setters of LPBoost, ERLPBoost and SoftBoost: `nu` and `tolerance`
(`src/booster/lpboost/lpboost_algorithm.rs:186-217`, `src/booster/erlpboost/erlpboost_algorithm.rs:209-235`,
`src/booster/softboost/softboost_algorithm.rs:182-198`). -/
inductive NuCall where
  | nu (v : ℝ)
  | tolerance (t : ℝ)

/-- The setters of CERLPBoost and MLPBoost: `nu`, `tolerance` and the Frank-Wolfe strategy
(`src/booster/cerlpboost/cerlpboost_algorithm.rs:177-243`, `src/booster/mlpboost/mlpboost_algorithm.rs:227-253`). -/
inductive FwCall where
  | nu (v : ℝ)
  | tolerance (t : ℝ)
  | strategy (f : FWType)

/-- The setters of SmoothBoost: `tolerance` and `gamma`
(`src/booster/smoothboost/smoothboost_algorithm.rs:161-182`). -/
inductive SmoothCall where
  | tolerance (t : ℝ)
  | gamma (g : ℝ)

/-- `AdaBoost::tolerance` / `AdaBoost::force_quit_at`, `src/booster/adaboost/adaboost_algorithm.rs:168-182`. -/
def AdaBoost.call (s : AdaBoost H) : LimitCall → Except Panic (AdaBoost H)
  | .tolerance t => .ok (s.setTolerance t)
  | .forceQuitAt n => .ok (s.setForceQuitAt n)

/-- `AdaBoostV::tolerance` / `AdaBoostV::force_quit_at`,
`src/booster/adaboostv/adaboostv_algorithm.rs:174-178, 212-215`. -/
def AdaBoostV.call (s : AdaBoostV H) : LimitCall → Except Panic (AdaBoostV H)
  | .tolerance t => .ok (s.setTolerance t)
  | .forceQuitAt n => .ok (s.setForceQuitAt n)

/-- `MadaBoost::tolerance` / `MadaBoost::force_quit_at`, `src/booster/madaboost/madaboost_algorithm.rs:166-180`. -/
def MadaBoost.call (s : MadaBoost H) : LimitCall → Except Panic (MadaBoost H)
  | .tolerance t => .ok (s.setTolerance t)
  | .forceQuitAt n => .ok (s.setForceQuitAt n)

/-- `LPBoost::nu` / `LPBoost::tolerance`, `src/booster/lpboost/lpboost_algorithm.rs:186-191, 214-217`. -/
noncomputable def LPBoost.call (s : LPBoost ℝ H) : NuCall → Except Panic (LPBoost ℝ H)
  | .nu v => s.setNu v
  | .tolerance t => .ok (s.setTolerance t)

/-- `ERLPBoost::nu` / `ERLPBoost::tolerance`, `src/booster/erlpboost/erlpboost_algorithm.rs:209-215, 232-235`. -/
noncomputable def ERLPBoost.call (s : ERLPBoost H) : NuCall → Except Panic (ERLPBoost H)
  | .nu v => s.setNu v
  | .tolerance t => .ok (s.setTolerance t)

/-- `SoftBoost::nu` / `SoftBoost::tolerance`, `src/booster/softboost/softboost_algorithm.rs:182-198`. -/
noncomputable def SoftBoost.call (S : Examples X ℝ) (s : SoftBoost H) : NuCall → Except Panic (SoftBoost H)
  | .nu v => SoftBoost.setNu S s v
  | .tolerance t => .ok (s.setTolerance t)

/-- `CERLPBoost::nu` / `tolerance` / `fw_type` (and `variant`),
`src/booster/cerlpboost/cerlpboost_algorithm.rs:177-204, 240-243`. -/
noncomputable def CERLPBoost.call (S : Examples X ℝ) (s : CERLPBoost H) : FwCall → Except Panic (CERLPBoost H)
  | .nu v => CERLPBoost.setNu S s v
  | .tolerance t => .ok (s.setTolerance t)
  | .strategy f => .ok (s.setFwType f)

/-- `MLPBoost::nu` / `tolerance` / `frank_wolfe`, `src/booster/mlpboost/mlpboost_algorithm.rs:227-253`. -/
noncomputable def MLPBoost.call (s : MLPBoost H) : FwCall → Except Panic (MLPBoost H)
  | .nu v => s.setNu v
  | .tolerance t => .ok (s.setTolerance t)
  | .strategy f => .ok (s.setFwType f)

/-- `SmoothBoost::tolerance` / `SmoothBoost::gamma`, `src/booster/smoothboost/smoothboost_algorithm.rs:161-182`. -/
noncomputable def SmoothBoost.call (s : SmoothBoost H) : SmoothCall → Except Panic (SmoothBoost H)
  | .tolerance t => .ok (s.setTolerance t)
  | .gamma g => s.setGamma g

end Miniboosts
