import Verif.Spec.Basic
import Mathlib.Topology.Sion
import Mathlib.Analysis.Convex.StdSimplex
import Mathlib.Analysis.Convex.Function
import Mathlib.Topology.Algebra.Monoid

/-! # The minimax theorem for capped distributions over the examples

Used to show that the programs handed to the solver have solutions. -/

namespace Miniboosts

open Finset

/-- The capped simplex. -/
def cappedSet (n : Nat) (c : ℝ) : Set (Fin n → ℝ) := {d | d ∈ stdSimplex ℝ (Fin n) ∧ ∀ i, d i ≤ c}

theorem cappedSet_convex (n : Nat) (c : ℝ) : Convex ℝ (cappedSet n c) := by
  intro x hx y hy a b ha hb hab
  refine ⟨convex_stdSimplex ℝ (Fin n) hx.1 hy.1 ha hb hab, fun i => ?_⟩
  have h1 := hx.2 i
  have h2 := hy.2 i
  simp only [Pi.add_apply, Pi.smul_apply, smul_eq_mul]
  calc a * x i + b * y i ≤ a * c + b * c :=
        add_le_add (mul_le_mul_of_nonneg_left h1 ha) (mul_le_mul_of_nonneg_left h2 hb)
    _ = c := by rw [← add_mul, hab, one_mul]

theorem cappedSet_compact (n : Nat) (c : ℝ) : IsCompact (cappedSet n c) := by
  have h : cappedSet n c = stdSimplex ℝ (Fin n) ∩ {d | ∀ i, d i ≤ c} := rfl
  rw [h]
  apply (isCompact_stdSimplex ℝ (Fin n)).inter_right
  rw [Set.ofPred_forall]
  exact isClosed_iInter fun i => isClosed_le (continuous_apply i) continuous_const

theorem cappedSet_nonempty (n : Nat) (c : ℝ) (hn : 0 < n) (hc : 1 ≤ (n : ℝ) * c) : (cappedSet n c).Nonempty := by
  have hn' : (0 : ℝ) < n := by exact_mod_cast hn
  refine ⟨fun _ => 1 / (n : ℝ), ⟨fun i => by positivity, ?_⟩, fun i => ?_⟩
  · simp [hn'.ne']
  · rw [div_le_iff₀ hn']; linarith

/-- A saddle point of `Σ_i d_i M_ik w_k + Σ_i φ_i(d_i)` over capped distributions `d` and convex weights `w`. -/
theorem saddle_fin (n m : Nat) (hn : 0 < n) (hm : 0 < m) (c : ℝ) (hc : 1 ≤ (n : ℝ) * c)
    (M : Fin n → Fin m → ℝ) (φ : Fin n → ℝ → ℝ) (hφ : ∀ i, ConvexOn ℝ (Set.Icc 0 1) (φ i))
    (hφc : ∀ i, ContinuousOn (φ i) (Set.Icc 0 1)) :
    ∃ d ∈ cappedSet n c, ∃ w ∈ stdSimplex ℝ (Fin m),
      ∀ d' ∈ cappedSet n c, ∀ w' ∈ stdSimplex ℝ (Fin m),
        ∑ i, d i * (∑ k, w' k * M i k) + ∑ i, φ i (d i) ≤
          ∑ i, d' i * (∑ k, w k * M i k) + ∑ i, φ i (d' i) := by
  have hIcc : ∀ d ∈ cappedSet n c, ∀ i, d i ∈ Set.Icc (0 : ℝ) 1 :=
    fun d hd i => mem_Icc_of_mem_stdSimplex hd.1 i
  have : Nonempty (Fin m) := ⟨⟨0, hm⟩⟩
  have := Sion.exists_isSaddlePointOn (X := cappedSet n c) (Y := stdSimplex ℝ (Fin m))
    (f := fun d w => ∑ i, d i * (∑ k, w k * M i k) + ∑ i, φ i (d i))
    (cappedSet_nonempty n c hn hc) (cappedSet_convex n c) (cappedSet_compact n c)
    (by
      intro w _
      apply ContinuousOn.lowerSemicontinuousOn
      apply ContinuousOn.add
      · fun_prop
      · apply continuousOn_finset_sum
        intro i _
        exact (hφc i).comp (continuous_apply i).continuousOn (fun d hd => hIcc d hd i))
    (by
      intro w _
      apply ConvexOn.quasiconvexOn
      refine ⟨cappedSet_convex n c, ?_⟩
      intro x hx y hy a b ha hb hab
      simp only [Pi.add_apply, Pi.smul_apply, smul_eq_mul, mul_add, Finset.mul_sum]
      have h1 : ∀ i, φ i (a * x i + b * y i) ≤ a * φ i (x i) + b * φ i (y i) := by
        intro i
        have := (hφ i).2 (hIcc x hx i) (hIcc y hy i) ha hb hab
        simpa using this
      have h2 := Finset.sum_le_sum (s := Finset.univ) fun i _ => h1 i
      rw [Finset.sum_add_distrib] at h2
      have h3 : ∑ i, ∑ k, (a * x i + b * y i) * (w k * M i k) =
          ∑ i, ∑ k, a * (x i * (w k * M i k)) + ∑ i, ∑ k, b * (y i * (w k * M i k)) := by
        rw [← Finset.sum_add_distrib]
        apply Finset.sum_congr rfl; intro i _
        rw [← Finset.sum_add_distrib]
        apply Finset.sum_congr rfl; intro k _; ring
      rw [h3]
      linarith)
    (convex_stdSimplex ℝ (Fin m)) ⟨_, single_mem_stdSimplex ℝ (Classical.arbitrary (Fin m))⟩
    (isCompact_stdSimplex ℝ (Fin m))
    (by
      intro d _
      apply ContinuousOn.upperSemicontinuousOn
      fun_prop)
    (by
      intro d _
      apply ConcaveOn.quasiconcaveOn
      refine ⟨convex_stdSimplex ℝ (Fin m), ?_⟩
      intro x hx y hy a b ha hb hab
      simp only [Pi.add_apply, Pi.smul_apply, smul_eq_mul, mul_add, Finset.mul_sum]
      have h3 : ∑ i, ∑ k, d i * ((a * x k + b * y k) * M i k) =
          ∑ i, ∑ k, a * (d i * (x k * M i k)) + ∑ i, ∑ k, b * (d i * (y k * M i k)) := by
        rw [← Finset.sum_add_distrib]
        apply Finset.sum_congr rfl; intro i _
        rw [← Finset.sum_add_distrib]
        apply Finset.sum_congr rfl; intro k _; ring
      have h4 : ∑ i, φ i (d i) = ∑ i, a * φ i (d i) + ∑ i, b * φ i (d i) := by
        rw [← Finset.sum_add_distrib]
        apply Finset.sum_congr rfl; intro i _
        rw [← add_mul, hab, one_mul]
      rw [h3]; linarith)
  obtain ⟨d, hd, w, hw, h⟩ := this
  exact ⟨d, hd, w, hw, h⟩

variable {X : Type*}

theorem edge_ofFn (S : List (X × ℝ)) (d : Fin S.length → ℝ) (f : X → ℝ) :
    Spec.edge S (List.ofFn d) f = ∑ i, d i * ((S.get i).2 * f (S.get i).1) := by
  unfold Spec.edge
  rw [show List.zip S (List.ofFn d) = List.ofFn fun i => (S.get i, d i) from ?_, List.map_ofFn, List.sum_ofFn]
  · rfl
  · apply List.ext_getElem
    · simp
    · intro i h1 h2
      simp

/-- The penalty `Σ_i φ_i(d_i)`. -/
def penalty (φ : Nat → ℝ → ℝ) (d : List ℝ) : ℝ := (d.zipIdx.map fun p => φ p.2 p.1).sum

theorem penalty_ofFn (φ : Nat → ℝ → ℝ) {n : Nat} (d : Fin n → ℝ) :
    penalty φ (List.ofFn d) = ∑ i : Fin n, φ i (d i) := by
  unfold penalty
  rw [show (List.ofFn d).zipIdx = List.ofFn fun i : Fin n => (d i, (i : Nat)) from ?_, List.map_ofFn, List.sum_ofFn]
  · rfl
  · apply List.ext_getElem
    · simp
    · intro i h1 h2
      simp

theorem vote_ofFn (fs : List (X → ℝ)) (w : Fin fs.length → ℝ) (x : X) :
    (List.zipWith (fun w f => w * f x) (List.ofFn w) fs).sum = ∑ k, w k * fs.get k x := by
  rw [show List.zipWith (fun w f => w * f x) (List.ofFn w) fs = List.ofFn fun k => w k * fs.get k x from ?_,
    List.sum_ofFn]
  apply List.ext_getElem
  · simp
  · intro i h1 h2
    simp

/-- The same in terms of lists: a capped distribution `d` and convex weights `w` on the functions `fs`, and a
value `γ`, such that under `d` no function has a penalised edge above `γ`, and under no capped distribution the
`w`-vote has a penalised edge below `γ`. -/
theorem saddle_list (S : List (X × ℝ)) (hS : S ≠ []) (fs : List (X → ℝ)) (hfs : fs ≠ []) (c : ℝ)
    (hc : 1 ≤ (S.length : ℝ) * c) (φ : Nat → ℝ → ℝ) (hφ : ∀ i, ConvexOn ℝ (Set.Icc 0 1) (φ i))
    (hφc : ∀ i, ContinuousOn (φ i) (Set.Icc 0 1)) :
    ∃ d w : List ℝ, ∃ γ : ℝ, d.length = S.length ∧ Spec.IsProb d ∧ (∀ p ∈ d, p ≤ c) ∧ w.length = fs.length ∧
      Spec.IsProb w ∧ (∀ f ∈ fs, Spec.edge S d f + penalty φ d ≤ γ) ∧
      ∀ d' : List ℝ, d'.length = S.length → Spec.IsProb d' → (∀ p ∈ d', p ≤ c) →
        γ ≤ Spec.edge S d' (fun x => (List.zipWith (fun w f => w * f x) w fs).sum) + penalty φ d' := by
  obtain ⟨d, hd, w, hw, h⟩ := saddle_fin S.length fs.length (List.length_pos_iff.2 hS) (List.length_pos_iff.2 hfs) c hc
    (fun i k => (S.get i).2 * fs.get k (S.get i).1) (fun i => φ i) (fun i => hφ i) (fun i => hφc i)
  have key : ∀ (d : Fin S.length → ℝ) (w : Fin fs.length → ℝ),
      ∑ i, d i * (∑ k, w k * ((S.get i).2 * fs.get k (S.get i).1)) + ∑ i : Fin S.length, φ i (d i) =
        Spec.edge S (List.ofFn d) (fun x => (List.zipWith (fun w f => w * f x) (List.ofFn w) fs).sum) +
          penalty φ (List.ofFn d) := by
    intro d w
    rw [edge_ofFn, penalty_ofFn]
    congr 1
    apply Finset.sum_congr rfl; intro i _
    rw [vote_ofFn, Finset.mul_sum, Finset.mul_sum, Finset.mul_sum]
    apply Finset.sum_congr rfl; intro k _; ring
  have hmem : ∀ {n : Nat} (v : Fin n → ℝ), v ∈ stdSimplex ℝ (Fin n) → Spec.IsProb (List.ofFn v) := by
    intro n v hv
    refine ⟨fun p hp => ?_, by rw [List.sum_ofFn]; exact hv.2⟩
    obtain ⟨i, rfl⟩ := List.mem_ofFn.1 hp
    exact hv.1 i
  refine ⟨List.ofFn d, List.ofFn w, ∑ i, d i * (∑ k, w k * ((S.get i).2 * fs.get k (S.get i).1)) +
    ∑ i : Fin S.length, φ i (d i), by simp, hmem d hd.1, ?_, by simp, hmem w hw, ?_, ?_⟩
  · intro p hp
    obtain ⟨i, rfl⟩ := List.mem_ofFn.1 hp
    exact hd.2 i
  · intro f hf
    obtain ⟨k, rfl⟩ := List.mem_iff_get.1 hf
    have h1 := h d hd _ (single_mem_stdSimplex ℝ k)
    rw [edge_ofFn, penalty_ofFn]
    refine le_trans (le_of_eq ?_) h1
    congr 1
    apply Finset.sum_congr rfl; intro i _
    congr 1
    rw [Finset.sum_eq_single k]
    · simp
    · intro b _ hb; simp [Pi.single_apply, hb]
    · simp
  · intro d' hl hp hcap
    have hd' : List.ofFn (fun i : Fin S.length => d'.get (i.cast hl.symm)) = d' := by
      apply List.ext_getElem
      · simp [hl]
      · intro i h1 h2; simp
    rw [← hd', ← key]
    apply h _ _ w hw
    refine ⟨⟨fun i => hp.1 _ (List.get_mem _ _), ?_⟩, fun i => hcap _ (List.get_mem _ _)⟩
    rw [← List.sum_ofFn, hd']; exact hp.2

end Miniboosts
