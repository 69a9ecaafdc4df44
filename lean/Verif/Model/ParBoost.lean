import Verif.Model.AdaBoostV
import Verif.Model.GBM
import Verif.Model.MadaBoost
import Verif.Model.Rayon
import Verif.Model.SmoothBoost

/-! # The boosters with rayon's parallelism

For every booster that uses parallel iterators, the relation between a state and the results one call of `boost` may have, for some
division of the work and some interleaving of the updates. -/

namespace Miniboosts

open Real

variable {H X K : Type*}

/-- A booster whose `boost` may have several results. -/
structure ParBooster (σ K H O : Type*) where
  preprocess : σ → WeakLearner K H → Except Panic σ
  boost : σ → WeakLearner K H → Nat → Except Panic (BoostOut σ K) → Prop
  postprocess : σ → Except Panic O

namespace ParBooster

variable {σ O : Type*}

/-- `(1..).try_for_each(|iter| self.boost(weak_learner, iter))`, `src/booster/core.rs:54-56`: the possible results. -/
inductive Loop (B : ParBooster σ K H O) (wl : WeakLearner K H) : σ → Nat → Except Panic (σ × List (List K)) → Prop
  | panic {s it e} (h : B.boost s wl it (.error e)) : Loop B wl s it (.error e)
  | stop {s it out k} (h : B.boost s wl it (.ok out)) (hf : out.flow = .brk k) : Loop B wl s it (.ok (out.state, out.queries))
  | next {s it out r} (h : B.boost s wl it (.ok out)) (hf : out.flow = .cont) (hr : Loop B wl out.state (it + 1) r) :
      Loop B wl s it (r.map fun p => (p.1, out.queries ++ p.2))

/-- `Booster::run`, `src/booster/core.rs:46-58`: the possible results. -/
inductive Runs (B : ParBooster σ K H O) (wl : WeakLearner K H) (s : σ) : Except Panic (O × List (List K)) → Prop
  | pre {e} (h : B.preprocess s wl = .error e) : Runs B wl s (.error e)
  | loop {s₀ e} (h : B.preprocess s wl = .ok s₀) (hl : Loop B wl s₀ 1 (.error e)) : Runs B wl s (.error e)
  | post {s₀ s₁ qs e} (h : B.preprocess s wl = .ok s₀) (hl : Loop B wl s₀ 1 (.ok (s₁, qs))) (hp : B.postprocess s₁ = .error e) :
      Runs B wl s (.error e)
  | ok {s₀ s₁ qs o} (h : B.preprocess s wl = .ok s₀) (hl : Loop B wl s₀ 1 (.ok (s₁, qs))) (hp : B.postprocess s₁ = .ok o) :
      Runs B wl s (.ok (o, qs))

end ParBooster

/-- The results of `utils::inner_product`, `src/common/utils.rs:277-282`. -/
def ParInner (v1 v2 : List ℝ) (r : ℝ) : Prop :=
  ∃ t : Split ℝ, t.items = List.zipWith (fun a b => a * b) v1 v2 ∧ r = t.sum (fun a b => a + b) 0

/-- `v.par_iter_mut().zip(w).for_each(|(a, b)| *a = f(*a, b))`: the possible results. -/
def ParUpdate {α β : Type*} (f : α → β → α) (v : List α) (w : List β) (r : List α) : Prop :=
  ∃ evs, Ev.Interleaving (min v.length w.length) evs ∧ r = Ev.forEach (fun i a => match w[i]? with | some b => f a b | none => a) evs v

/-- `v.par_iter_mut().for_each(|a| *a = f(*a))`: the possible results. -/
def ParMap {α : Type*} (f : α → α) (v r : List α) : Prop :=
  ∃ evs, Ev.Interleaving v.length evs ∧ r = Ev.forEach (fun _ a => f a) evs v

/-- The normaliser computed from the indices in the order `idx`, e.g. `src/booster/adaboost/adaboost_algorithm.rs:223-232`. -/
noncomputable def normalizerOf (v : List ℝ) : List Nat → Option ℝ
  | [] => none
  | i :: is => some (is.foldl (fun a j => logAddExp a (v.getD j 0)) (v.getD i 0))

/-- The reweighting in the logarithmic domain, `src/booster/adaboost/adaboost_algorithm.rs:209-239` and
`src/booster/adaboostv/adaboostv_algorithm.rs:246-274`: the possible results. -/
def ParReweight (dist margins : List ℝ) (weight : ℝ) (r : Except Panic (List ℝ)) : Prop :=
  ∃ logDist idx, ParUpdate (fun d p => log d - weight * p) dist margins logDist ∧ SortedIndices logDist idx ∧
    match normalizerOf logDist idx with
    | none => r = .error .outOfRange
    | some z => ∃ new, ParMap (fun d => exp (d - z)) logDist new ∧ r = .ok new

/-- `AdaBoost::boost`, `src/booster/adaboost/adaboost_algorithm.rs:299-339`: the possible results. -/
def AdaBoost.ParBoost [Classifier H X ℝ] (S : Examples X ℝ) (s : AdaBoost H) (wl : WeakLearner ℝ H) (iteration : Nat)
    (r : Except Panic (BoostOut (AdaBoost H) ℝ)) : Prop :=
  if s.maxIter < iteration then r = .ok { state := s, flow := .brk s.maxIter, queries := [] }
  else
    let h := wl iteration s.dist
    ∃ edge, ParInner (margins S h) s.dist edge ∧
      if 1 ≤ |edge| then
        r = .ok { state := { s with terminated := iteration, weights := [signum edge], hypotheses := [h] },
                  flow := .brk iteration, queries := [s.dist] }
      else
        ∃ d, ParReweight s.dist (margins S h) (hypWeight edge) d ∧
          r = d.map fun dist' => { state := { s with dist := dist', weights := s.weights ++ [hypWeight edge], hypotheses := s.hypotheses ++ [h] }
                                   flow := .cont, queries := [s.dist] }

/-- AdaBoost with rayon's parallelism. -/
noncomputable def AdaBoost.parBooster [Classifier H X ℝ] (S : Examples X ℝ) : ParBooster (AdaBoost H) ℝ H (WeightedMajority ℝ H) where
  preprocess s _ := AdaBoost.preprocess S s
  boost := AdaBoost.ParBoost S
  postprocess := AdaBoost.postprocess

/-- `AdaBoostV::boost`, `src/booster/adaboostv/adaboostv_algorithm.rs:228-277, 334-373`: the possible results. -/
def AdaBoostV.ParBoost [Classifier H X ℝ] (S : Examples X ℝ) (s : AdaBoostV H) (wl : WeakLearner ℝ H) (iteration : Nat)
    (r : Except Panic (BoostOut (AdaBoostV H) ℝ)) : Prop :=
  if s.maxIter < iteration then r = .ok { state := s, flow := .brk s.maxIter, queries := [] }
  else
    let h := wl iteration s.dist
    ∃ edge, ParInner (margins S h) s.dist edge ∧
      if 1 ≤ |edge| then
        r = .ok { state := { s with terminated := iteration, weights := [AdaBoost.signum edge], hypotheses := [h] },
                  flow := .brk iteration, queries := [s.dist] }
      else
        let gamma := min edge s.gamma
        let rho := gamma - s.tolerance
        if -1 < rho ∧ rho < 1 then
          let weight := log ((1 + edge) / (1 - edge)) / 2 - log ((1 + rho) / (1 - rho)) / 2
          ∃ d, ParReweight s.dist (margins S h) weight d ∧
            r = d.map fun dist' => { state := { s with gamma := gamma, rho := rho, dist := dist', weights := s.weights ++ [weight], hypotheses := s.hypotheses ++ [h] }
                                     flow := .cont, queries := [s.dist] }
        else r = .error .nonFinite

/-- AdaBoostV with rayon's parallelism. -/
noncomputable def AdaBoostV.parBooster [Classifier H X ℝ] (S : Examples X ℝ) : ParBooster (AdaBoostV H) ℝ H (WeightedMajority ℝ H) where
  preprocess s _ := AdaBoostV.preprocess S s
  boost := AdaBoostV.ParBoost S
  postprocess := AdaBoostV.postprocess

/-- `MadaBoost::beta2distribution`, `src/booster/madaboost/madaboost_algorithm.rs:221-257`: the possible results. -/
def MadaBoost.ParDist (betas : List ℝ) (r : Except Panic (List ℝ)) : Prop :=
  ∃ idx, SortedIndices (betas.map fun b => min b 1) idx ∧
    r = match normalizerOf (betas.map fun b => min b 1) idx with
      | none => .error .outOfRange
      | some z => .ok ((betas.map fun b => min b 1).map fun b => exp (b - z))

/-- `MadaBoost::boost`, `src/booster/madaboost/madaboost_algorithm.rs:193-218, 314-355`: the possible results. -/
def MadaBoost.ParBoost [Classifier H X ℝ] (S : Examples X ℝ) (s : MadaBoost H) (wl : WeakLearner ℝ H) (iteration : Nat)
    (r : Except Panic (BoostOut (MadaBoost H) ℝ)) : Prop :=
  if s.maxIter < iteration then r = .ok { state := s, flow := .brk s.maxIter, queries := [] }
  else
    ∃ d, MadaBoost.ParDist s.betas d ∧
      match d with
      | .error e => r = .error e
      | .ok dist =>
        let h := wl iteration dist
        ∃ edge, ParInner (margins S h) dist edge ∧
          if 1 ≤ |edge| then
            r = .ok { state := { s with terminated := iteration, alphas := [AdaBoost.signum edge], hypotheses := [h] },
                      flow := .brk iteration, queries := [dist] }
          else
            let eps := 1 / 2 * (1 - edge)
            if 0 ≤ eps ∧ eps < 1 then
              let eps2 := √(1 / 2 * eps)
              let beta := √(eps2 / (1 - eps2))
              ∃ betas', ParUpdate (fun b yh => b + yh * beta) s.betas (margins S h) betas' ∧
                r = .ok { state := { s with betas := betas', alphas := s.alphas ++ [log (1 / beta)], hypotheses := s.hypotheses ++ [h] }
                          flow := .cont, queries := [dist] }
            else r = .error .assertion

/-- MadaBoost with rayon's parallelism. -/
noncomputable def MadaBoost.parBooster [Classifier H X ℝ] (S : Examples X ℝ) : ParBooster (MadaBoost H) ℝ H (WeightedMajority ℝ H) where
  preprocess s _ := MadaBoost.preprocess S s
  boost := MadaBoost.ParBoost S
  postprocess := MadaBoost.postprocess

/-- `SmoothBoost::boost`, `src/booster/smoothboost/smoothboost_algorithm.rs:276-338`: the possible results (only the last loop is
parallel). -/
def SmoothBoost.ParBoost [Classifier H X ℝ] (S : Examples X ℝ) (s : SmoothBoost H) (wl : WeakLearner ℝ H) (iteration : Nat)
    (r : Except Panic (BoostOut (SmoothBoost H) ℝ)) : Prop :=
  if s.maxIter < iteration then r = .ok { state := s, flow := .brk s.maxIter, queries := [] }
  else
    let s := { s with current := iteration }
    let sum := s.m.sum
    if sum < (s.nSample : ℝ) * s.kappa then
      if iteration = 0 then r = .error .arith
      else r = .ok { state := { s with terminated := iteration - 1 }, flow := .brk iteration, queries := [] }
    else
      let dist := s.m.map fun mj => mj / sum
      let h := wl iteration dist
      let n' := updateZip (fun nj yh => nj + yh - s.theta) s.n (margins S h)
      ∃ m', ParUpdate (fun _ nj => if nj ≤ 0 then 1 else (1 - s.gamma) ^ (nj * (1 / 2))) s.m n' m' ∧
        r = .ok { state := { s with hypotheses := s.hypotheses ++ [h], n := n', m := m' }, flow := .cont, queries := [dist] }

/-- SmoothBoost with rayon's parallelism. -/
noncomputable def SmoothBoost.parBooster [Classifier H X ℝ] (S : Examples X ℝ) : ParBooster (SmoothBoost H) ℝ H (WeightedMajority ℝ H) where
  preprocess s _ := SmoothBoost.preprocess S s
  boost := SmoothBoost.ParBoost S
  postprocess := SmoothBoost.postprocess

/-- `GBM::boost`, `src/booster/gradient_boost/gbm.rs:222-260`: the possible results. -/
def GBM.ParBoost [Field K] [LinearOrder K] [Regressor H X K] (best : List K → List K → Except Panic K) (S : Examples X K) (s : GBM K H)
    (wl : WeakLearner K H) (iteration : Nat) (r : Except Panic (BoostOut (GBM K H) K)) : Prop :=
  if s.maxIter < iteration then r = .ok { state := s, flow := .brk s.maxIter, queries := [] }
  else
    let h := wl iteration s.predictions
    let predictions := GBM.regressAll h (S.map Prod.fst)
    match best (S.map Prod.snd) predictions with
    | .error e => r = .error e
    | .ok coef =>
      if coef = 0 then
        r = .ok { state := { s with terminated := iteration }, flow := .brk iteration, queries := [s.predictions] }
      else
        ∃ p', ParUpdate (fun p q => p + coef * q) s.predictions predictions p' ∧
          r = .ok { state := { s with weights := s.weights ++ [coef], hypotheses := s.hypotheses ++ [h], predictions := p' }
                    flow := .cont, queries := [s.predictions] }

/-- GBM with rayon's parallelism. -/
def GBM.parBooster [Field K] [LinearOrder K] [Regressor H X K] (best : List K → List K → Except Panic K) (S : Examples X K) :
    ParBooster (GBM K H) K H (WeightedMajority K H) where
  preprocess s _ := GBM.preprocess S s
  boost := GBM.ParBoost best S
  postprocess := GBM.postprocess

end Miniboosts
