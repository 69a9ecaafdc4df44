import Verif.Model.FloatCERLP
import Verif.Model.MLPBoost

/-! # MLPBoost in `f64`: `src/booster/mlpboost/mlpboost_algorithm.rs` -/

namespace Miniboosts

namespace F64

open Classical in
/-- `utils::entropy`, `src/common/utils.rs:266-272`. -/
noncomputable def entropy (L : Libm) (dist : List F64) : F64 := (dist.map fun d => if d = fin 0 then fin 0 else mul d (ln L d)).foldl add (fin 0)

/-- `utils::entropy_from_uni_distribution`, `src/common/utils.rs:255-261`. -/
noncomputable def entropyFromUni (L : Libm) (dist : List F64) : F64 := add (entropy L dist) (ln L (rnd (dist.length : ℝ)))

end F64

/-- The fields of `MLPBoost`, `src/booster/mlpboost/mlpboost_algorithm.rs:143-182`.  Simplification: of the LP model (`secondary`) only the weights of its last solution are kept; the
hypotheses it has been given are those of the booster.  `primary` has the same `eta` whenever it is read. -/
structure MLPBoostF (H : Type*) where
  halfTolerance : F64
  nSample : Nat
  nu : F64
  eta : F64
  fwType : FWType
  lpWeights : List F64
  weights : List F64
  hypotheses : List H
  terminated : Nat
  maxIter : Nat
  gamma : F64

namespace MLPBoostF

open F64

variable {H X : Type*}

/-- `MLPBoost::init`, `src/booster/mlpboost/mlpboost_algorithm.rs:190-220`. -/
noncomputable def init (L : Libm) (S : Examples X ℝ) : Except Panic (MLPBoostF H) :=
  if S.length = 0 then .error .assertion
  else .ok { halfTolerance := rnd (5 / 1000), nSample := S.length, nu := fin 1, eta := div (ln L (div (rnd (S.length : ℝ)) (fin 1))) (rnd (5 / 1000)), fwType := .shortStep,
             lpWeights := [], weights := [], hypotheses := [], terminated := 2 ^ 64 - 1, maxIter := 2 ^ 64 - 1, gamma := fin 1 }

open Classical in
/-- `MLPBoost::nu`, `src/booster/mlpboost/mlpboost_algorithm.rs:227-233`. -/
noncomputable def setNu (s : MLPBoostF H) (nu : F64) : Except Panic (MLPBoostF H) :=
  if Le (fin 1) nu ∧ Le nu (rnd (s.nSample : ℝ)) then .ok { s with nu := nu } else .error .assertion

/-- `MLPBoost::frank_wolfe`, `src/booster/mlpboost/mlpboost_algorithm.rs:240-243`. -/
def setFwType (s : MLPBoostF H) (t : FWType) : MLPBoostF H := { s with fwType := t }

/-- `MLPBoost::tolerance`, `src/booster/mlpboost/mlpboost_algorithm.rs:250-253`. -/
noncomputable def setTolerance (s : MLPBoostF H) (tolerance : F64) : MLPBoostF H := { s with halfTolerance := div tolerance (fin 2) }

/-- `MLPBoost::max_loop`, `src/booster/mlpboost/mlpboost_algorithm.rs:298-301`; `powi(2)` is one multiplication. -/
noncomputable def maxLoop (L : Libm) (s : MLPBoostF H) : Nat :=
  ceilUsize (div (mul (fin 8) (ln L (div (rnd (s.nSample : ℝ)) s.nu))) (mul s.halfTolerance s.halfTolerance))

/-- `MLPBoost::objval`, `src/booster/mlpboost/mlpboost_algorithm.rs:338-352`. -/
noncomputable def objval [Classifier H X F64] (L : Libm) (S : Examples X ℝ) (eta nu : F64) (hs : List H) (weights : List F64) : Except Panic F64 :=
  match F64.expDistributionFromMargins L eta nu (F64.weightedMargins S weights hs) with
  | .error e => .error e
  | .ok dist => .ok (add (edgeOf (F64.weightedMargins S weights hs) dist) (div (F64.entropyFromUni L dist) eta))

open Classical in
/-- `MLPBoost::better_weight`, `src/booster/mlpboost/mlpboost_algorithm.rs:359-366`. -/
noncomputable def betterWeight [Classifier H X F64] (L : Libm) (S : Examples X ℝ) (eta nu : F64) (hs : List H) (w1 w2 : List F64) : Except Panic (List F64) :=
  match objval L S eta nu hs w1 with
  | .error e => .error e
  | .ok v1 =>
    match objval L S eta nu hs w2 with
    | .error e => .error e
    | .ok v2 => .ok (if Le v2 v1 then w1 else w2)

/-- `Booster::preprocess` of MLPBoost, `src/booster/mlpboost/mlpboost_algorithm.rs:397-417`, with `eta` and `init_params`, lines 260-291. -/
noncomputable def preprocess (L : Libm) (S : Examples X ℝ) (s : MLPBoostF H) : Except Panic (MLPBoostF H) :=
  match checkBinary S with
  | .error e => .error e
  | .ok () =>
    let s := { s with nSample := S.length, eta := div (ln L (div (rnd (S.length : ℝ)) s.nu)) s.halfTolerance, lpWeights := [] }
    .ok { s with maxIter := maxLoop L s, terminated := maxLoop L s, hypotheses := [], weights := [], gamma := fin 1 }

/-- The LP solver with the random perturbations, as seen by the booster (`LPModel::update`, `src/booster/mlpboost/perturbed_lp_model.rs:99-142`): an arbitrary function of the
regularisation parameter, the cap and the hypotheses given so far. -/
abbrev Lp (H : Type*) := F64 → F64 → List H → Except Panic (List F64)

open Classical in
/-- `Booster::boost` of MLPBoost, `src/booster/mlpboost/mlpboost_algorithm.rs:420-515`.  `PartialEq` on hypotheses is `BEq`. -/
noncomputable def boost [Classifier H X F64] [BEq H] (L : Libm) (other : FWType → Nat → List F64 → List H → Nat → List F64 → Except Panic (List F64)) (lp : Lp H)
    (S : Examples X ℝ) (s : MLPBoostF H) (wl : WeakLearner F64 H) (iteration : Nat) : Except Panic (BoostOut (MLPBoostF H) F64) :=
  if s.maxIter < iteration then .ok { state := s, flow := .brk s.maxIter, queries := [] }
  else
    match F64.expDistributionFromMargins L s.eta s.nu (F64.weightedMargins S s.weights s.hypotheses) with
    | .error e => .error e
    | .ok dist =>
      let h := wl iteration dist
      let g := minNum s.gamma (edgeOf (F64.margins S h) dist)
      if iteration = 1 then
        match lp s.eta (div (fin 1) s.nu) (s.hypotheses ++ [h]) with
        | .error e => .error e
        | .ok seco => .ok { state := { s with gamma := g, hypotheses := s.hypotheses ++ [h], weights := s.weights ++ [fin 1], lpWeights := seco }, flow := .cont, queries := [dist] }
      else
        match objval L S s.eta s.nu s.hypotheses s.weights with
        | .error e => .error e
        | .ok v =>
          if Le (sub g v) s.halfTolerance then
            .ok { state := { s with gamma := g, terminated := iteration }, flow := .brk iteration, queries := [dist] }
          else
            let pos := s.hypotheses.findIdx (fun f => f == h)
            let hs := if pos = s.hypotheses.length then s.hypotheses ++ [h] else s.hypotheses
            let ws := if pos = s.hypotheses.length then s.weights ++ [fin 0] else s.weights
            match nextIterate other s.fwType s.eta iteration S dist hs pos ws with
            | .error e => .error e
            | .ok prim =>
              match (if pos = s.hypotheses.length then lp s.eta (div (fin 1) s.nu) hs else .ok s.lpWeights) with
              | .error e => .error e
              | .ok seco =>
                match betterWeight L S s.eta s.nu hs prim seco with
                | .error e => .error e
                | .ok w =>
                  match checkCapped w (fin 1) with
                  | .error e => .error e
                  | .ok () => .ok { state := { s with gamma := g, hypotheses := hs, weights := w, lpWeights := seco }, flow := .cont, queries := [dist] }

/-- `impl Booster for MLPBoost`, `src/booster/mlpboost/mlpboost_algorithm.rs:370-526`, in `f64`; `postprocess` is lines 518-525. -/
noncomputable def booster [Classifier H X F64] [BEq H] (L : Libm) (other : FWType → Nat → List F64 → List H → Nat → List F64 → Except Panic (List F64)) (lp : Lp H)
    (S : Examples X ℝ) : Booster (MLPBoostF H) F64 H (WeightedMajority F64 H) where
  preprocess s _ := preprocess L S s
  boost := boost L other lp S
  postprocess s := fromSlices s.weights s.hypotheses

end MLPBoostF

end Miniboosts
