import Verif.Spec.Conic
import Verif.Spec.Entropy

/-! # The programs of the entropy-regularised boosting algorithms, as the papers state them -/

namespace Miniboosts.Spec

open Real

variable {H X : Type*} [Classifier H X ℝ]

/-- The second-order Taylor expansion at `c` of the negative entropy `Σ_i d_i ln d_i`. -/
noncomputable def entropyTaylor (c d : List ℝ) : ℝ :=
  ((List.zip c d).map fun p =>
    p.1 * log p.1 + (log p.1 + 1) * (p.2 - p.1) + (p.2 - p.1) ^ 2 / (2 * p.1)).sum

/-- The edge of `g` under `d`, plus the relative entropy of `d` to the uniform distribution over `η`
(`Σ_i d_i ln d_i + ln n`, with `0 ln 0 = 0`). -/
noncomputable def smoothedEdge (S : List (X × ℝ)) (η : ℝ) (d : List ℝ) (g : X → ℝ) : ℝ :=
  edge S d g + ((d.map fun p => p * log p).sum + log (d.length : ℝ)) / η

/-- The dimensions of the parts of a program agree and its constraint matrix is well formed. -/
def Consistent (p : Program ℝ) : Prop :=
  p.A.WellFormed ∧ p.q.length = p.A.nCols ∧ p.P.nCols = p.A.nCols ∧ p.b.length = p.A.nRows ∧
    (Program.isEq p.cones).length = p.A.nRows

/-- `p` asks for: minimise over `(γ, d)`, up to a constant, `γ` plus `1/η` times the expansion at `c` of the negative
entropy of `d`, where `d` ranges over the probability vectors with entries at most `1/ν`, and no hypothesis of
`hs` may have an edge above `γ`. -/
def ErlpProgram (S : List (X × ℝ)) (hs : List H) (ν η : ℝ) (c : List ℝ) (p : Program ℝ) : Prop :=
  Consistent p ∧ p.A.nCols = 1 + S.length ∧ ∃ const : ℝ, ∀ (γ : ℝ) (d : List ℝ),
    (p.Feasible (γ :: d) ↔ d.length = S.length ∧ IsCapped ν d ∧ ∀ h ∈ hs, edge S d (conf h) ≤ γ) ∧
    (d.length = S.length → p.objective (γ :: d) = γ + entropyTaylor c d / η + const)

/-- `p` asks for: minimise, up to a constant, the expansion at `c` of the negative entropy of `d`, where `d` ranges
over the probability vectors with entries at most `1/ν`, and no hypothesis of `hs` may have an edge above `g`. -/
def SoftProgram (S : List (X × ℝ)) (hs : List H) (ν g : ℝ) (c : List ℝ) (p : Program ℝ) : Prop :=
  Consistent p ∧ p.A.nCols = S.length ∧ ∃ const : ℝ, ∀ d : List ℝ,
    (p.Feasible d ↔ d.length = S.length ∧ IsCapped ν d ∧ ∀ h ∈ hs, edge S d (conf h) ≤ g) ∧
    (d.length = S.length → p.objective d = entropyTaylor c d + const)

/-- `f` has soft margin at least `ρ` on `S`: under every distribution capped at `1/ν` its edge is at least `ρ`. -/
def SoftMarginGe (S : List (X × ℝ)) (ν : ℝ) (f : X → ℝ) (ρ : ℝ) : Prop :=
  ∀ d : List ℝ, d.length = S.length → IsCapped ν d → ρ ≤ edge S d f

/-- `p` asks for: minimise over `(γ, d)` the sum `γ + Σ_i b_i d_i`, where `d` ranges over the probability vectors with
entries at most `1/ν`, and no hypothesis of `hs` may have an edge above `γ`. -/
def PerturbedProgram (S : List (X × ℝ)) (hs : List H) (ν : ℝ) (b : Nat → ℝ) (p : Program ℝ) : Prop :=
  Consistent p ∧ p.A.nCols = 1 + S.length ∧ ∀ (γ : ℝ) (d : List ℝ),
    (p.Feasible (γ :: d) ↔ d.length = S.length ∧ IsCapped ν d ∧ ∀ h ∈ hs, edge S d (conf h) ≤ γ) ∧
    (d.length = S.length → p.objective (γ :: d) = γ + (d.mapIdx fun i x => b i * x).sum)

/-- `(d, w)` solves the program of `ErlpProgram` around `c`: `d` is a distribution capped at `1/ν`, `w` a convex
combination of `hs`, and they are a saddle point of the edge plus `1/η` times the expanded negative entropy. -/
def ErlpSolution (S : List (X × ℝ)) (hs : List H) (ν η : ℝ) (c d w : List ℝ) : Prop :=
  d.length = S.length ∧ IsCapped ν d ∧ w.length = hs.length ∧ IsProb w ∧
    ∀ h ∈ hs, ∀ d' : List ℝ, d'.length = S.length → IsCapped ν d' →
      edge S d (conf h) + entropyTaylor c d / η ≤
        edge S d' (fun x => vote conf (List.zip w hs) x) + entropyTaylor c d' / η

/-- `v` is the smoothed soft margin of `f`: the least smoothed edge over the distributions capped at `1/ν`. -/
def IsSmoothedMargin (S : List (X × ℝ)) (ν η : ℝ) (f : X → ℝ) (v : ℝ) : Prop :=
  (∃ d : List ℝ, d.length = S.length ∧ IsCapped ν d ∧ smoothedEdge S η d f = v) ∧
    ∀ d : List ℝ, d.length = S.length → IsCapped ν d → v ≤ smoothedEdge S η d f

end Miniboosts.Spec
