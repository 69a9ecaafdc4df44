import Verif.Props.Hypothesis

/-! # C86: taking combined hypotheses apart and putting them together -/

namespace Miniboosts.Props

open Miniboosts

variable {K : Type*} [Field K] [LinearOrder K] [IsStrictOrderedRing K] {H X : Type*}

/-- The pairs of weights and hypotheses after any number of pushes. -/
theorem push_decompose (f : WeightedMajority K H) (ps : List (K × H)) :
    (ps.foldl (fun f p => f.push p.1 p.2) f).decompose = (f.weights ++ ps.map Prod.fst, f.hypotheses ++ ps.map Prod.snd) := by
  induction ps generalizing f with
  | nil => simp [WeightedMajority.decompose]
  | cons p ps ih => rw [List.foldl_cons, ih]; simp [WeightedMajority.push]

/-- C86: pushing adds to the confidence exactly the pushed votes, for every instance. -/
theorem push_confidence [Classifier H X K] (f : WeightedMajority K H) (hf : f.weights.length = f.hypotheses.length) (ps : List (K × H)) (x : X) :
    (conf (ps.foldl (fun f p => f.push p.1 p.2) f) x : K) = conf f x + Spec.vote conf ps x := by
  induction ps generalizing f with
  | nil => simp [Spec.vote]
  | cons p ps ih =>
    rw [List.foldl_cons, ih _ (by simp [WeightedMajority.push, hf])]
    have : (conf (f.push p.1 p.2) x : K) = conf f x + p.1 * conf p.2 x := by
      show weightedConf _ _ x = weightedConf _ _ x + _
      unfold weightedConf WeightedMajority.push
      rw [List.zipWith_append hf]
      simp
    rw [this]
    simp [Spec.vote]; ring

/-- C86: the same for regression. -/
theorem push_prediction [Regressor H X K] (f : WeightedMajority K H) (hf : f.weights.length = f.hypotheses.length) (ps : List (K × H)) (x : X) :
    (Regressor.pred (ps.foldl (fun f p => f.push p.1 p.2) f) x : K) = Regressor.pred f x + Spec.vote Regressor.pred ps x := by
  induction ps generalizing f with
  | nil => simp [Spec.vote]
  | cons p ps ih =>
    rw [List.foldl_cons, ih _ (by simp [WeightedMajority.push, hf])]
    have : (Regressor.pred (f.push p.1 p.2) x : K) = Regressor.pred f x + p.1 * Regressor.pred p.2 x := by
      show (List.zipWith _ _ _).sum = (List.zipWith _ _ _).sum + _
      unfold WeightedMajority.push
      rw [List.zipWith_append hf]
      simp
    rw [this]
    simp [Spec.vote]; ring

/-- C86: a hypothesis built by pushing positive votes and normalising at the end is the one `from_slices` builds. -/
theorem push_norm_eq_fromSlices (ps : List (K × H)) (hp : ∀ p ∈ ps, 0 < p.1) :
    (ps.foldl (fun f p => f.push p.1 p.2) ⟨[], []⟩ : WeightedMajority K H).norm =
      WeightedMajority.fromSlices (ps.map Prod.fst) (ps.map Prod.snd) := by
  have h := push_decompose (⟨[], []⟩ : WeightedMajority K H) ps
  simp only [WeightedMajority.decompose, List.nil_append, Prod.mk.injEq] at h
  have hz : List.zip (ps.map Prod.fst) (ps.map Prod.snd) = ps := by
    clear h hp
    induction ps with
    | nil => rfl
    | cons p ps ih => simp [ih]
  unfold WeightedMajority.norm WeightedMajority.fromSlices
  rw [hz, List.filter_eq_self.2 (by simpa using hp), h.1]
  cases hn : normalize (List.map Prod.fst ps) with
  | error e => simp [hn]
  | ok ws => simp [hn, h.2]

/-- C86: taking a returned hypothesis apart and rebuilding it from its parts gives it back, and normalising it changes nothing. -/
theorem decompose_round_trip {ws : List K} {hs : List H} {f : WeightedMajority K H} (h : WeightedMajority.fromSlices ws hs = .ok f) :
    WeightedMajority.fromSlices f.decompose.1 f.decompose.2 = .ok f ∧ f.norm = .ok f := by
  obtain ⟨h1, h2, -⟩ := fromSlices_spec h
  have hn : normalize f.weights = .ok f.weights := by
    have habs : (f.weights.map fun a => |a|) = f.weights := by
      conv_rhs => rw [← List.map_id f.weights]
      exact List.map_congr_left (fun a ha => abs_of_pos (h1.1 a ha))
    unfold normalize
    simp only [habs, h1.2]
    simp
  have hz : (List.zip f.weights f.hypotheses).filter (fun p => decide (0 < p.1)) = List.zip f.weights f.hypotheses :=
    List.filter_eq_self.2 (fun p hp => by simpa using h1.1 p.1 (List.of_mem_zip hp).1)
  refine ⟨?_, by unfold WeightedMajority.norm; rw [hn]⟩
  unfold WeightedMajority.fromSlices WeightedMajority.decompose
  simp only [hz, List.map_fst_zip h2.le, List.map_snd_zip h2.ge, hn]

/-- The hypotheses are met: three votes, one of them dropped. -/
example : ∃ f : WeightedMajority ℚ Nat, WeightedMajority.fromSlices [1, -2, 3] [10, 20, 30] = .ok f ∧
    WeightedMajority.fromSlices f.decompose.1 f.decompose.2 = .ok f ∧ f.norm = .ok f :=
  ⟨⟨[1 / 4, 3 / 4], [10, 30]⟩, by decide +kernel, decompose_round_trip (ws := [1, -2, 3]) (hs := [10, 20, 30]) (by decide +kernel)⟩

example : ∀ p ∈ ([(1, 10), (3, 30)] : List (ℚ × Nat)), 0 < p.1 := by decide +kernel

end Miniboosts.Props
