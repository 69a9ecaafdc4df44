import Verif.Lemmas.Smooth
import Verif.Lemmas.AdaBoostInv
import Verif.Model.CERLPBoost

/-! # Lemmas about the Frank-Wolfe steps -/

namespace Miniboosts

open Real

variable {H X : Type*}

/-- The example weights belonging to the function `F`. -/
def IsExpDist (eta nu : ℝ) (S : Examples X ℝ) (F : X → ℝ) (d : List ℝ) : Prop :=
  projectCapped nu ((S.map fun e => e.2 * F e.1).map fun yf => -eta * yf) = .ok d

theorem expDistribution_iff [Classifier H X ℝ] (eta nu : ℝ) (S : Examples X ℝ) (ws : List ℝ) (hs : List H)
    (d : List ℝ) : expDistribution eta nu S ws hs = .ok d ↔ IsExpDist eta nu S (weightedConf ws hs) d := by
  rfl

theorem IsExpDist.capped {eta nu : ℝ} {S : Examples X ℝ} {F : X → ℝ} {d : List ℝ}
    (h : IsExpDist eta nu S F d) : d.length = S.length ∧ Spec.IsCapped nu d ∧ Spec.IsPosProb d ∧ 1 ≤ nu ∧
      nu ≤ S.length := by
  obtain ⟨h1, h2, h3⟩ := Props.project_capped nu _ d h
  obtain ⟨h4, h5⟩ := (Props.project_ok_iff nu _).1 ⟨d, h⟩
  exact ⟨by simpa using h1, h2, h3, h4, by simpa using h5⟩

theorem exists_expDist (eta nu : ℝ) (S : Examples X ℝ) (F : X → ℝ) (h1 : 1 ≤ nu) (h2 : nu ≤ S.length) :
    ∃ d, IsExpDist eta nu S F d :=
  (Props.project_ok_iff nu _).2 ⟨h1, by simpa using h2⟩

theorem edge_eq_inner (S : Examples X ℝ) (d : List ℝ) (F : X → ℝ) :
    Spec.edge S d F = innerProduct d (S.map fun e => e.2 * F e.1) := by
  rw [← innerProduct_eq_zip]
  unfold innerProduct
  rw [List.zipWith_comm]
  congr 2; funext a b; ring

theorem edge_sub (S : Examples X ℝ) (d : List ℝ) (F G : X → ℝ) (a b : ℝ) :
    Spec.edge S d (fun x => a * F x + b * G x) = a * Spec.edge S d F + b * Spec.edge S d G := by
  unfold Spec.edge
  rw [← sum_map_mul_left', ← sum_map_mul_left', ← sum_map_add']
  congr 1
  apply List.map_congr_left
  intro p _
  ring

/-- The potential `η * (smoothed soft margin)`: relative entropy to uniform plus `η` times the edge. -/
noncomputable def pot (eta : ℝ) (S : Examples X ℝ) (F : X → ℝ) (d : List ℝ) : ℝ :=
  entropyFromUni d + eta * Spec.edge S d F

/-- Smoothness of the potential. -/
theorem pot_smooth {eta nu c : ℝ} {S : Examples X ℝ} {F G : X → ℝ} {d e : List ℝ}
    (hd : IsExpDist eta nu S F d) (he : IsExpDist eta nu S G e)
    (hc : ∀ p ∈ S, |p.2 * G p.1 - p.2 * F p.1| ≤ c) :
    entropyFromUni d + eta * Spec.edge S d G - c ^ 2 * eta ^ 2 / 2 ≤ pot eta S G e := by
  have hz : List.zipWith (· + ·) (S.map fun e => e.2 * F e.1) (S.map fun p => p.2 * G p.1 - p.2 * F p.1) =
      S.map fun e => e.2 * G e.1 := by
    rw [zipWith_map_map]
    apply List.map_congr_left
    intro p _; ring
  have hlen1 := hd.capped.1
  have hlen2 := he.capped.1
  have := smooth_step eta nu c (S.map fun e => e.2 * F e.1) (S.map fun p => p.2 * G p.1 - p.2 * F p.1) d e
    (by simp) hd (by rw [hz]; exact he) (by
      intro x hx
      obtain ⟨p, hp, rfl⟩ := List.mem_map.1 hx
      exact hc p hp)
  rw [hz, ← edge_eq_inner, ← edge_eq_inner] at this
  have h2 : innerProduct d (S.map fun p => p.2 * G p.1 - p.2 * F p.1) =
      Spec.edge S d G - Spec.edge S d F := by
    have h3 := edge_sub S d G F 1 (-1)
    rw [edge_eq_inner] at h3
    have h4 : (S.map fun e => e.2 * (1 * G e.1 + -1 * F e.1)) = S.map fun p => p.2 * G p.1 - p.2 * F p.1 := by
      apply List.map_congr_left
      intro p _; ring
    rw [h4] at h3
    rw [h3]; ring
  rw [h2] at this
  unfold pot entropyFromUni
  rw [hlen1, hlen2]
  linarith

/-- The potential bounds every capped edge from below, up to `ln(m/ν)`. -/
theorem pot_le_edge {eta nu : ℝ} {S : Examples X ℝ} {F : X → ℝ} {d d' : List ℝ}
    (hd : IsExpDist eta nu S F d) (hl : d'.length = S.length) (hd' : Spec.IsCapped nu d') :
    pot eta S F d - log ((S.length : ℝ) / nu) ≤ eta * Spec.edge S d' F := by
  obtain ⟨hdl, hdc, hdp, hnu, hnu'⟩ := hd.capped
  have hm : (0 : ℝ) < S.length := by linarith
  have h1 := three_point eta nu _ d d' hd (by simpa using hl) hd'
  rw [← edge_eq_inner, ← edge_eq_inner] at h1
  have h2 := (relEnt_ge d' d (by rw [hl, hdl]) (fun x hx => (hd'.1 x hx).1) hdp.1).1
  rw [hd'.2, hdp.2, sub_self] at h2
  have h3 := entropy_capped_le nu d' (by linarith) hd'
  unfold pot entropyFromUni
  rw [hdl, log_div hm.ne' (by linarith)]
  linarith

theorem edge_le_pot {eta nu : ℝ} {S : Examples X ℝ} {F : X → ℝ} {d : List ℝ}
    (hd : IsExpDist eta nu S F d) : eta * Spec.edge S d F ≤ pot eta S F d := by
  obtain ⟨hdl, hdc, hdp, hnu, hnu'⟩ := hd.capped
  have := (Props.entropyFromUni_bounds d ⟨fun p hp => (hdp.1 p hp).le, hdp.2⟩).1
  unfold pot; linarith

/-- The sum of an interior point against any function of the index. -/
theorem interior_sum (s : ℝ) (g : H → ℝ) (w : List ℝ) (hs : List H) (pos : Nat) (h : H)
    (hl : w.length = hs.length) (hp : hs[pos]? = some h) :
    (List.zipWith (fun w h => w * g h) (w.mapIdx fun j b => b + s * (if j = pos then 1 - b else -b)) hs).sum =
      (1 - s) * (List.zipWith (fun w h => w * g h) w hs).sum + s * g h := by
  have hno : ∀ (w : List ℝ) (hs : List H),
      (List.zipWith (fun w h => w * g h) (w.mapIdx fun _ b => b + s * (-b)) hs).sum =
      (1 - s) * (List.zipWith (fun w h => w * g h) w hs).sum := by
    intro w
    induction w with
    | nil => intro hs; simp
    | cons a w ih =>
      intro hs
      match hs with
      | [] => simp
      | k :: hs =>
        rw [List.mapIdx_cons]
        simp only [List.zipWith_cons_cons, List.sum_cons]
        rw [ih hs]; ring
  induction w generalizing hs pos with
  | nil =>
    match hs, hl with
    | [], _ => simp at hp
  | cons a w ih =>
    match hs, hl with
    | k :: hs, hl =>
      rw [List.mapIdx_cons]
      simp only [List.zipWith_cons_cons, List.sum_cons]
      match pos with
      | 0 =>
        simp only [List.getElem?_cons_zero, Option.some.injEq] at hp
        subst hp
        simp only [Nat.add_eq_zero_iff, one_ne_zero, and_false, if_false, if_true]
        rw [hno w hs]; ring
      | pos + 1 =>
        simp only [Nat.add_right_cancel_iff]
        rw [if_neg (Nat.succ_ne_zero pos).symm, ih hs pos (by simpa using hl) (by simpa using hp)]
        ring

theorem interiorPoint_ok {s : ℝ} {pos : Nat} {w w' : List ℝ} (h : interiorPoint s pos w = .ok w') :
    0 ≤ s ∧ s ≤ 1 ∧ w' = w.mapIdx fun j b => b + s * (if j = pos then 1 - b else -b) := by
  unfold interiorPoint checkStepsize at h
  by_cases hs : 0 ≤ s ∧ s ≤ 1
  · rw [if_pos hs] at h
    simp only [Except.ok.injEq] at h
    exact ⟨hs.1, hs.2, h.symm⟩
  · rw [if_neg hs] at h; simp at h

theorem interiorPoint_eq {s : ℝ} (h0 : 0 ≤ s) (h1 : s ≤ 1) (pos : Nat) (w : List ℝ) :
    interiorPoint s pos w = .ok (w.mapIdx fun j b => b + s * (if j = pos then 1 - b else -b)) := by
  unfold interiorPoint checkStepsize
  rw [if_pos ⟨h0, h1⟩]

theorem interior_conf [Classifier H X ℝ] (s : ℝ) (w : List ℝ) (hs : List H) (pos : Nat) (h : H)
    (hl : w.length = hs.length) (hp : hs[pos]? = some h) (x : X) :
    weightedConf (w.mapIdx fun j b => b + s * (if j = pos then 1 - b else -b)) hs x =
      (1 - s) * weightedConf w hs x + s * conf h x :=
  interior_sum s (fun h => conf h x) w hs pos h hl hp

theorem interior_total (s : ℝ) (w : List ℝ) (pos : Nat) (hp : pos < w.length) :
    (w.mapIdx fun j b => b + s * (if j = pos then 1 - b else -b)).sum = (1 - s) * w.sum + s := by
  have := interior_sum (H := ℝ) s (fun _ => 1) w w pos (w[pos]) rfl (by simp [hp])
  have hz : ∀ a b : List ℝ, a.length = b.length →
      (List.zipWith (fun (w : ℝ) (_ : ℝ) => w * 1) a b).sum = a.sum := by
    intro a
    induction a with
    | nil => intro b _; simp
    | cons x a ih =>
      intro b hl
      match b, hl with
      | y :: b, hl => simp only [List.zipWith_cons_cons, List.sum_cons, mul_one] at ih ⊢; rw [ih b (by simpa using hl)]
  rw [hz _ _ (by simp), hz _ _ rfl, mul_one] at this
  exact this

theorem interior_nonneg (s : ℝ) (h0 : 0 ≤ s) (h1 : s ≤ 1) (w : List ℝ) (hw : ∀ x ∈ w, 0 ≤ x) (pos : Nat) :
    ∀ x ∈ w.mapIdx fun j b => b + s * (if j = pos then 1 - b else -b), 0 ≤ x := by
  intro x hx
  obtain ⟨i, hi, rfl⟩ := List.mem_mapIdx.1 hx
  have := hw _ (List.getElem_mem hi)
  split
  · nlinarith
  · nlinarith

/-- The interior point of a probability vector is one. -/
theorem interior_prob {s : ℝ} {pos : Nat} {w w' : List ℝ} (hw : Spec.IsProb w) (hp : pos < w.length)
    (h : interiorPoint s pos w = .ok w') : Spec.IsProb w' ∧ w'.length = w.length := by
  obtain ⟨h0, h1, rfl⟩ := interiorPoint_ok h
  refine ⟨⟨interior_nonneg s h0 h1 w hw.1 pos, ?_⟩, by simp⟩
  rw [interior_total s w pos hp, hw.2]; ring

end Miniboosts
