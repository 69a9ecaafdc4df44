import Verif.Model.Projection

/-! # `src/common/frank_wolfe.rs` -/

namespace Miniboosts

open Real

variable {H X : Type*}

/-- `FWType`, `src/common/frank_wolfe.rs:18-33`. -/
inductive FWType where
  | classic
  | shortStep
  | lineSearch
  | blendedPairwise
  deriving DecidableEq, Repr

/-- `FrankWolfe`, `src/common/frank_wolfe.rs:49-53`; `new` (58-60) is the constructor, and the setters `eta`,
`nu`, `fw_type` (64-66, 70-72, 87-89) are record updates. -/
structure FrankWolfe where
  eta : ℝ
  nu : ℝ
  fwType : FWType

/-- `interior_point`, `src/common/frank_wolfe.rs:419-433`. -/
noncomputable def interiorPoint (stepSize : ℝ) (newBasis : Nat) (base : List ℝ) : Except Panic (List ℝ) :=
  match checkStepsize stepSize with
  | .error e => .error e
  | .ok () => .ok (base.mapIdx fun j b => b + stepSize * (if j = newBasis then 1 - b else -b))

/-- `SUB_TOLERANCE`, `src/common/frank_wolfe.rs:12`. -/
noncomputable def subTolerance : ℝ := 1 / 10 ^ 9

/-- The bisection loop `while ub - lb > SUB_TOLERANCE { .. }`, `src/common/frank_wolfe.rs:238-259` and
`376-397`; `dot step` is the inner product computed inside.  `fuel` bounds the number of rounds; running out
of it is reported as `none` (`bisect_some` proves that this does not happen for intervals of length at
most 1 and `fuel = 31`). -/
noncomputable def bisect (dot : ℝ → Except Panic ℝ) : Nat → ℝ → ℝ → Except Panic (Option (ℝ × ℝ))
  | 0, lb, ub => if subTolerance < ub - lb then .ok none else .ok (some (lb, ub))
  | fuel + 1, lb, ub =>
    if subTolerance < ub - lb then
      let stepSize := (lb + ub) / 2
      match dot stepSize with
      | .error e => .error e
      | .ok v =>
        if v < 0 then bisect dot fuel stepSize ub
        else if 0 < v then bisect dot fuel lb stepSize
        else .ok (some (lb, ub))
    else .ok (some (lb, ub))

namespace FrankWolfe

/-- `FrankWolfe::classic`, `src/common/frank_wolfe.rs:125-137`. -/
noncomputable def classic (iteration pos : Nat) (weights : List ℝ) : Except Panic (List ℝ) :=
  interiorPoint (2 / ((iteration : ℝ) + 1)) pos weights

/-- The step size of `short_step`, `src/common/frank_wolfe.rs:162-179`.  `denom` starts at `f64::MIN` in the
code and at 0 here, which is the same as soon as there is an example.  A quotient `0/0` is NaN, which fails
the assertion of `interior_point`; a non-zero number divided by zero is an infinity, clamped to 0 or 1. -/
noncomputable def shortStepSize (eta : ℝ) (newMargins oldMargins dist : List ℝ) : Except Panic ℝ :=
  let diffs := List.zip (List.zipWith (fun ae aw => ae - aw) newMargins oldMargins) dist
  let numer := (diffs.map fun p => p.2 * p.1).sum
  let denom := (diffs.map fun p => |p.1|).foldl max 0
  let q := eta * denom ^ 2
  if q = 0 then
    if numer = 0 then .error .assertion else if 0 < numer then .ok 1 else .ok 0
  else .ok (max 0 (min 1 (numer / q)))

/-- `FrankWolfe::short_step`, `src/common/frank_wolfe.rs:140-184`. -/
noncomputable def shortStep [Classifier H X ℝ] (fw : FrankWolfe) (S : Examples X ℝ) (dist : List ℝ)
    (hs : List H) (pos : Nat) (weights : List ℝ) : Except Panic (List ℝ) :=
  if hs.length = 1 then .ok [1]
  else
    match hs[pos]? with
    | none => .error .outOfRange
    | some h =>
      match shortStepSize fw.eta (margins S h) (weightedMargins S weights hs) dist with
      | .error e => .error e
      | .ok step => interiorPoint step pos weights

/-- The gradient used by both line searches, `src/common/frank_wolfe.rs:241-250, 379-388`. -/
noncomputable def gradAt (fw : FrankWolfe) (base dir : List ℝ) (step : ℝ) : Except Panic ℝ :=
  match expDistributionFromMargins fw.eta fw.nu (List.zipWith (fun b d => b + step * d) base dir) with
  | .error e => .error e
  | .ok dist => .ok (innerProduct dist dir)

/-- `FrankWolfe::line_search`, `src/common/frank_wolfe.rs:187-266`. -/
noncomputable def lineSearch [Classifier H X ℝ] (fw : FrankWolfe) (S : Examples X ℝ) (hs : List H) (pos : Nat)
    (weights : List ℝ) : Except Panic (List ℝ) :=
  let dir := weights.mapIdx fun j w => if j = pos then 1 - w else -w
  let dirMargins := weightedMargins S dir hs
  let baseMargins := weightedMargins S weights hs
  match expDistribution fw.eta fw.nu S dir hs with
  | .error e => .error e
  | .ok dist =>
    if innerProduct dist dirMargins ≤ 0 then
      if pos < weights.length then .ok ((List.replicate weights.length 0).set pos 1) else .error .outOfRange
    else
      match bisect (gradAt fw baseMargins dirMargins) 31 0 1 with
      | .error e => .error e
      | .ok none => .error .arith
      | .ok (some (lb, ub)) => interiorPoint ((lb + ub) / 2) pos weights

/-- The loop variables of `blended_pairwise`, `src/common/frank_wolfe.rs:280-285`. -/
structure Scan where
  worstEdge : ℝ
  localBest : ℝ
  globalBest : ℝ
  posWorst : Nat
  posLocal : Nat
  posGlobal : Nat

/-- The loop body, `src/common/frank_wolfe.rs:297-313`. -/
noncomputable def scanStep (pos : Nat) (st : Scan) (je : Nat × ℝ) : Scan :=
  let (j, edge) := je
  let st := if j ≠ pos ∧ st.localBest < edge then { st with localBest := edge, posLocal := j } else st
  let st := if st.globalBest < edge then { st with globalBest := edge, posGlobal := j } else st
  if edge < st.worstEdge then { st with worstEdge := edge, posWorst := j } else st

/-- The scan over the hypotheses with positive weight, `src/common/frank_wolfe.rs:280-322`. -/
noncomputable def scan [Classifier H X ℝ] (S : Examples X ℝ) (dist : List ℝ) (hs : List H) (pos : Nat)
    (weights : List ℝ) : Scan :=
  let cands := (List.zip weights hs).zipIdx.filterMap fun p =>
    if p.1.1 ≤ 0 then none else some (p.2, edge S dist p.1.2)
  let st := cands.foldl (scanStep pos)
    { worstEdge := 2, localBest := -2, globalBest := -2, posWorst := hs.length, posLocal := hs.length,
      posGlobal := pos }
  if st.posGlobal + 1 ≠ hs.length then
    { st with localBest := st.globalBest, posLocal := st.posGlobal }
  else st

/-- `FrankWolfe::blended_pairwise`, `src/common/frank_wolfe.rs:269-415`.  Note line 360: `exp_distribution` is
called with the margins in the place of the hypothesis weights; the model does the same. -/
noncomputable def blendedPairwise [Classifier H X ℝ] (fw : FrankWolfe) (S : Examples X ℝ) (dist : List ℝ)
    (hs : List H) (pos : Nat) (weights : List ℝ) : Except Panic (List ℝ) :=
  let st := scan S dist hs pos weights
  let currentEdge := weightedEdge S dist weights hs
  if st.globalBest - currentEdge ≤ st.localBest - st.worstEdge then
    match weights[st.posWorst]?, hs[st.posLocal]?, hs[st.posWorst]? with
    | some maxStep, some hl, some hw =>
      let dirMargins := List.zipWith (fun a b => a - b) (margins S hl) (margins S hw)
      let baseMargins := weightedMargins S weights hs
      let ms := List.zipWith (fun dir cur => cur + maxStep * dir) dirMargins baseMargins
      match expDistribution fw.eta fw.nu S ms hs with
      | .error e => .error e
      | .ok dist' =>
        if innerProduct dist' dirMargins ≤ 0 then
          if pos < weights.length then .ok ((weights.set pos maxStep).set st.posWorst 0)
          else .error .outOfRange
        else
          match bisect (gradAt fw baseMargins dirMargins) 31 0 maxStep with
          | .error e => .error e
          | .ok none => .error .arith
          | .ok (some (lb, ub)) =>
            if st.posLocal < weights.length then
              .ok ((weights.modify st.posLocal (· + (lb + ub) / 2)).modify st.posWorst (· - (lb + ub) / 2))
            else .error .outOfRange
    | _, _, _ => .error .outOfRange
  else lineSearch fw S hs pos weights

/-- `FrankWolfe::next_iterate`, `src/common/frank_wolfe.rs:93-122`. -/
noncomputable def nextIterate [Classifier H X ℝ] (fw : FrankWolfe) (iteration : Nat) (S : Examples X ℝ)
    (dist : List ℝ) (hs : List H) (pos : Nat) (weights : List ℝ) : Except Panic (List ℝ) :=
  if pos < hs.length then
    match fw.fwType with
    | .classic => classic iteration pos weights
    | .shortStep => shortStep fw S dist hs pos weights
    | .lineSearch => lineSearch fw S hs pos weights
    | .blendedPairwise => blendedPairwise fw S dist hs pos weights
  else .error .assertion

end FrankWolfe

end Miniboosts
