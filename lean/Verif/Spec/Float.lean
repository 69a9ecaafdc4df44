import Verif.Model.Float

/-! # What is said about AdaBoost in `f64` (C91, C92) -/

namespace Miniboosts

open F64

/-- A finite binary64 number (of moderate size: the limit for large exponents is left out). -/
def Double (x : ℝ) : Prop := ∃ k j : ℤ, |k| < 2 ^ 53 ∧ -1074 ≤ j ∧ x = (k : ℝ) * 2 ^ j

/-- Weights for a tree learner: one finite non-negative `f64` per row, at least one positive, with a sum of at most `3/2`. -/
structure TreeWeights (n : Nat) (w : List ℝ) : Prop where
  length : w.length = n
  double : ∀ x ∈ w, Double x
  nonneg : ∀ x ∈ w, 0 ≤ x
  some_pos : ∃ x ∈ w, 0 < x
  sum : w.sum ≤ 3 / 2

/-- The weights given to a learner are sound: one per example, `f64` numbers (no NaN, no infinity), none below the smallest positive
one, and their sum is one up to `2.5e-7`. -/
def SoundWeights (n : Nat) (d : List F64) : Prop :=
  ∃ xs : List ℝ, d = xs.map fin ∧ xs.length = n ∧ (∀ x ∈ xs, (2 : ℝ) ^ (-1074 : ℤ) ≤ x) ∧ |xs.sum - 1| ≤ 25 / 10 ^ 8 ∧ ∀ x ∈ xs, Double x

/-- The edge `∑ᵢ dᵢ yᵢ h(xᵢ)` of a hypothesis for the weights `d`, without any rounding. -/
noncomputable def exactEdge {H X : Type*} [Classifier H X F64] (S : Examples X ℝ) (d : List F64) (h : H) : ℝ :=
  (List.zipWith (fun w e => w.val * (e.2 * (conf h e.1).val)) d S).sum

/-- For sound weights the learner's hypothesis answers with numbers in `[-1, 1]` and has an edge in `[lo, hi]`. -/
structure FairLearner {H X : Type*} [Classifier H X F64] (S : Examples X ℝ) (wl : WeakLearner F64 H) (lo hi : ℝ) : Prop where
  conf : ∀ it d, SoundWeights S.length d → ∀ e ∈ S, ∃ c : ℝ, conf (wl it d) e.1 = fin c ∧ |c| ≤ 1
  edge : ∀ it d, SoundWeights S.length d → lo ≤ exactEdge S d (wl it d) ∧ exactEdge S d (wl it d) ≤ hi

/-- `FloatReach L S wl s it st`: some execution of `run`, started with the booster `s`, reaches the call of `boost` for iteration `it` with
the state `st`. -/
inductive FloatReach {H X : Type*} [Classifier H X F64] (L : Libm) (S : Examples X ℝ) (wl : WeakLearner F64 H) (s : AdaBoostF H) :
    Nat → AdaBoostF H → Prop
  | start {s₀} (h : (AdaBoostF.booster L S).preprocess s wl = .ok s₀) : FloatReach L S wl s 1 s₀
  | next {it s₁ out} (h : FloatReach L S wl s it s₁) (hb : (AdaBoostF.booster L S).boost s₁ wl it (.ok out)) (hf : out.flow = .cont) :
      FloatReach L S wl s (it + 1) out.state

/-- In the rounds that a run may reach, the learner's hypothesis answers with numbers in `[-1, 1]` and has an edge in `[lo, hi]` (as long as
the weights are sound). -/
structure FairRun {H X : Type*} [Classifier H X F64] (L : Libm) (S : Examples X ℝ) (wl : WeakLearner F64 H) (s : AdaBoostF H) (lo hi : ℝ) :
    Prop where
  conf : ∀ it st, FloatReach L S wl s it st → it ≤ st.maxIter → SoundWeights S.length st.dist →
    ∀ e ∈ S, ∃ c : ℝ, conf (wl it st.dist) e.1 = fin c ∧ |c| ≤ 1
  edge : ∀ it st, FloatReach L S wl s it st → it ≤ st.maxIter → SoundWeights S.length st.dist →
    lo ≤ exactEdge S st.dist (wl it st.dist) ∧ exactEdge S st.dist (wl it st.dist) ≤ hi

/-- A learner that is fair for all weights is fair in every run. -/
theorem FairLearner.run {H X : Type*} [Classifier H X F64] {L : Libm} {S : Examples X ℝ} {wl : WeakLearner F64 H} {s : AdaBoostF H} {lo hi : ℝ}
    (h : FairLearner S wl lo hi) : FairRun L S wl s lo hi :=
  ⟨fun it _ _ _ hd => h.conf it _ hd, fun it _ _ _ hd => h.edge it _ hd⟩

/-- The number of training examples that the returned classifier gets wrong. -/
noncomputable def floatMistakes {H X : Type*} [Classifier H X F64] (S : Examples X ℝ) (f : WeightedMajority F64 H) : ℕ :=
  S.countP fun e => decide ((F64.predict f e.1 : ℝ) ≠ e.2)

/-- The number of rounds: `force_quit_at`, or the limit from the tolerance. -/
noncomputable def floatLimit {H X : Type*} (S : Examples X ℝ) (s : AdaBoostF H) : ℕ :=
  match s.forceQuitAt with
  | some it => it
  | none => ⌊Real.log (S.length : ℝ) / s.tolerance ^ 2⌋₊

end Miniboosts
