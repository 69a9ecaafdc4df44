import Verif.Model.ParBoost
import Mathlib.Algebra.Ring.Int.Parity
import Mathlib.Data.Int.Log

/-! # `f64`, and AdaBoost computed with it

The rest of the model computes exactly.  Here `f64` is the binary64 format of IEEE 754 with rounding to nearest, ties to even,
subnormal numbers, overflow to infinity, infinities and NaN.  The two zeros are identified (no modelled function tells them apart except by
dividing by them; such a quotient is given the sign of the dividend).  `exp` and `ln` are those of the platform: the rounding of some
approximation with relative error at most `2⁻⁵⁰`. -/

namespace Miniboosts

open Real

/-- The values of `f64`. -/
inductive F64 where
  | nan
  | inf (neg : Bool)
  | fin (x : ℝ)

namespace F64

/-- The integer nearest to `y`, the even one of two. -/
noncomputable def roundEven (y : ℝ) : ℤ :=
  if Int.fract y < 1 / 2 then ⌊y⌋ else if 1 / 2 < Int.fract y then ⌊y⌋ + 1 else if Even ⌊y⌋ then ⌊y⌋ else ⌊y⌋ + 1

/-- The exponent of the last place: 53 significant bits, but not below `2⁻¹⁰⁷⁴`. -/
noncomputable def ulpExp (x : ℝ) : ℤ := max (Int.log 2 |x| - 52) (-1074)

/-- Rounding to 53 bits without an upper limit for the exponent. -/
noncomputable def round (x : ℝ) : ℝ := roundEven (x / 2 ^ ulpExp x) * 2 ^ ulpExp x

/-- Rounding to binary64. -/
noncomputable def rnd (x : ℝ) : F64 := if 2 ^ (1024 : ℕ) ≤ |round x| then inf (decide (x < 0)) else fin (round x)

/-- `a + b`. -/
noncomputable def add : F64 → F64 → F64
  | fin a, fin b => rnd (a + b)
  | fin _, inf s => inf s
  | inf s, fin _ => inf s
  | inf s, inf t => if s = t then inf s else nan
  | _, _ => nan

/-- `-a`. -/
noncomputable def neg : F64 → F64
  | fin a => fin (-a)
  | inf s => inf (!s)
  | nan => nan

/-- `a - b`. -/
noncomputable def sub (a b : F64) : F64 := add a (neg b)

/-- `a * b`. -/
noncomputable def mul : F64 → F64 → F64
  | fin a, fin b => rnd (a * b)
  | fin a, inf s => if a = 0 then nan else inf (xor s (decide (a < 0)))
  | inf s, fin b => if b = 0 then nan else inf (xor s (decide (b < 0)))
  | inf s, inf t => inf (xor s t)
  | _, _ => nan

/-- `a / b`. -/
noncomputable def div : F64 → F64 → F64
  | fin a, fin b => if b = 0 then (if a = 0 then nan else inf (decide (a < 0))) else rnd (a / b)
  | fin _, inf _ => fin 0
  | inf s, fin b => inf (xor s (decide (b < 0)))
  | inf _, inf _ => nan
  | _, _ => nan

/-- `a.abs()`. -/
noncomputable def abs : F64 → F64
  | fin a => fin |a|
  | inf _ => inf false
  | nan => nan

/-- `a <= b`; false when one of them is NaN. -/
def Le : F64 → F64 → Prop
  | fin a, fin b => a ≤ b
  | inf s, inf t => s = true ∨ t = false
  | inf s, fin _ => s = true
  | fin _, inf t => t = false
  | _, _ => False

/-- `a < b`; false when one of them is NaN. -/
def Lt : F64 → F64 → Prop
  | fin a, fin b => a < b
  | inf s, inf t => s = true ∧ t = false
  | inf s, fin _ => s = true
  | fin _, inf t => t = false
  | _, _ => False

/-- A number other than NaN and the infinities. -/
def IsFin : F64 → Prop
  | fin _ => True
  | _ => False

/-- The value, zero for NaN and the infinities. -/
noncomputable def val : F64 → ℝ
  | fin a => a
  | _ => 0

/-- `f64::exp` and `f64::ln` of the platform, before the final rounding. -/
structure Libm where
  expA : ℝ → ℝ
  lnA : ℝ → ℝ
  exp_err : ∀ x, |expA x - Real.exp x| ≤ 2 ^ (-50 : ℤ) * Real.exp x
  ln_err : ∀ x, 0 < x → |lnA x - Real.log x| ≤ 2 ^ (-50 : ℤ) * |Real.log x|

/-- `a.exp()`. -/
noncomputable def exp (L : Libm) : F64 → F64
  | fin a => rnd (L.expA a)
  | inf s => if s then fin 0 else inf false
  | nan => nan

/-- `a.ln()`. -/
noncomputable def ln (L : Libm) : F64 → F64
  | fin a => if 0 < a then rnd (L.lnA a) else if a = 0 then inf true else nan
  | inf s => if s then nan else inf false
  | nan => nan

/-- The results of `utils::inner_product`, `src/common/utils.rs:277-282`, for every division of the work. -/
def Inner (v1 v2 : List F64) (r : F64) : Prop := ∃ t : Split F64, t.items = List.zipWith mul v1 v2 ∧ r = t.sum add (fin 0)

/-- `((1.0 + edge) / (1.0 - edge)).ln() / 2.0`, `src/booster/adaboost/adaboost_algorithm.rs:206`. -/
noncomputable def hypWeight (L : Libm) (edge : F64) : F64 := div (ln L (div (add (fin 1) edge) (sub (fin 1) edge))) (fin 2)

open Classical in
/-- One step of the normaliser loop, `src/booster/adaboost/adaboost_algorithm.rs:224-231`. -/
noncomputable def logAddExp (L : Libm) (a b : F64) : F64 :=
  if Lt a b then add b (ln L (add (fin 1) (exp L (sub a b)))) else add a (ln L (add (fin 1) (exp L (sub b a))))

/-- The normaliser loop over the entries in the order `idx`, `src/booster/adaboost/adaboost_algorithm.rs:223-232`. -/
noncomputable def normalizer (L : Libm) (v : List F64) : List Nat → Option F64
  | [] => none
  | i :: is => some (is.foldl (fun a j => logAddExp L a (v.getD j nan)) (v.getD i nan))

/-- What `indices.sort_unstable_by(|&i, &j| v[i].partial_cmp(&v[j]).unwrap())` may leave in `indices`. -/
def SortedIdx (v : List F64) (idx : List Nat) : Prop :=
  idx.Perm (List.range v.length) ∧ idx.Pairwise fun i j => ∀ a b, v[i]? = some a → v[j]? = some b → Le a b

open Classical in
/-- The reweighting, `src/booster/adaboost/adaboost_algorithm.rs:209-239`: the possible results.  Sorting at least two entries compares every
entry with another one, and the comparison with a NaN panics. -/
def Reweight (L : Libm) (dist margins : List F64) (weight : F64) (r : Except Panic (List F64)) : Prop :=
  ∃ logDist, ParUpdate (fun d p => sub (ln L d) (mul weight p)) dist margins logDist ∧
    if 2 ≤ logDist.length ∧ nan ∈ logDist then r = .error .unwrapNone
    else ∃ idx, SortedIdx logDist idx ∧
      match normalizer L logDist idx with
      | none => r = .error .outOfRange
      | some z => ∃ new, ParMap (fun d => exp L (sub d z)) logDist new ∧ r = .ok new

open Classical in
/-- `utils::normalize`, `src/common/utils.rs:287-296`. -/
noncomputable def normalize (items : List F64) : Except Panic (List F64) :=
  let z := (items.map abs).foldl add (fin 0)
  if z = fin 0 then .error .assertion else .ok (items.map fun a => div a z)

open Classical in
/-- `WeightedMajority::from_slices`, `src/hypothesis/weighted_majority.rs:25-41`. -/
noncomputable def fromSlices {H : Type*} (weights : List F64) (hs : List H) : Except Panic (WeightedMajority F64 H) :=
  let kept := (weights.zip hs).filter fun p => decide (Lt (fin 0) p.1)
  (normalize (kept.map Prod.fst)).map fun ws => { weights := ws, hypotheses := kept.map Prod.snd }

/-- `<WeightedMajority as Classifier>::confidence`, `src/hypothesis/weighted_majority.rs:72-78`. -/
noncomputable def weightedConf {H X : Type*} [Classifier H X F64] (f : WeightedMajority F64 H) (x : X) : F64 :=
  (List.zipWith (fun w h => mul w (conf h x)) f.weights f.hypotheses).foldl add (fin 0)

open Classical in
/-- `Classifier::predict`, `src/hypothesis/hypothesis_traits.rs:15-18`. -/
noncomputable def predict {H X : Type*} [Classifier H X F64] (f : WeightedMajority F64 H) (x : X) : Int :=
  if Le (fin 0) (weightedConf f x) then 1 else -1

/-- `utils::margins_of_hypothesis`, `src/common/utils.rs:35-45`; the labels are finite. -/
noncomputable def margins {H X : Type*} [Classifier H X F64] (S : Examples X ℝ) (h : H) : List F64 :=
  S.map fun e => mul (fin e.2) (conf h e.1)

end F64

/-- The fields of `AdaBoost`, `src/booster/adaboost/adaboost_algorithm.rs:89-121`. -/
structure AdaBoostF (H : Type*) where
  dist : List F64
  tolerance : ℝ
  weights : List F64
  hypotheses : List H
  maxIter : Nat
  forceQuitAt : Option Nat
  terminated : Nat

namespace AdaBoostF

open F64

variable {H X : Type*}

/-- `AdaBoost::init`, `src/booster/adaboost/adaboost_algorithm.rs:129-145`; the tolerance is only used for the limit. -/
noncomputable def init (S : Examples X ℝ) : AdaBoostF H :=
  { dist := [], tolerance := 1 / ((S.length : ℝ) + 1), weights := [], hypotheses := [], maxIter := 2 ^ 64 - 1, forceQuitAt := none,
    terminated := 2 ^ 64 - 1 }

/-- `AdaBoost::preprocess`, `src/booster/adaboost/adaboost_algorithm.rs:275-296`.  Simplification: the limit is computed exactly. -/
noncomputable def preprocess (S : Examples X ℝ) (s : AdaBoostF H) : Except Panic (AdaBoostF H) :=
  match checkBinary S with
  | .error e => .error e
  | .ok () =>
    .ok { s with
      dist := List.replicate S.length (div (fin 1) (fin S.length))
      weights := []
      hypotheses := []
      maxIter := match s.forceQuitAt with
        | some it => it
        | none => ⌊log (S.length : ℝ) / s.tolerance ^ 2⌋₊ }

open Classical in
/-- `edge.signum()`; the edge is not NaN where it is used. -/
noncomputable def signum (x : F64) : F64 := if Le (fin 0) x then fin 1 else fin (-1)

/-- `AdaBoost::boost`, `src/booster/adaboost/adaboost_algorithm.rs:299-339`: the possible results. -/
def Boost [Classifier H X F64] (L : Libm) (S : Examples X ℝ) (s : AdaBoostF H) (wl : WeakLearner F64 H) (iteration : Nat)
    (r : Except Panic (BoostOut (AdaBoostF H) F64)) : Prop :=
  if s.maxIter < iteration then r = .ok { state := s, flow := .brk s.maxIter, queries := [] }
  else
    let h := wl iteration s.dist
    ∃ edge, Inner (F64.margins S h) s.dist edge ∧
      ((Le (fin 1) edge.abs ∧
        r = .ok { state := { s with terminated := iteration, weights := [signum edge], hypotheses := [h] },
                  flow := .brk iteration, queries := [s.dist] }) ∨
      (¬ Le (fin 1) edge.abs ∧
        ∃ d, Reweight L s.dist (F64.margins S h) (hypWeight L edge) d ∧
          r = d.map fun dist' => { state := { s with dist := dist', weights := s.weights ++ [hypWeight L edge], hypotheses := s.hypotheses ++ [h] }
                                   flow := .cont, queries := [s.dist] }))

/-- AdaBoost computed with `f64`. -/
noncomputable def booster [Classifier H X F64] (L : Libm) (S : Examples X ℝ) : ParBooster (AdaBoostF H) F64 H (WeightedMajority F64 H) where
  preprocess s _ := preprocess S s
  boost := Boost L S
  postprocess s := fromSlices s.weights s.hypotheses

end AdaBoostF

end Miniboosts
