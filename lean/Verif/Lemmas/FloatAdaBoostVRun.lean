import Verif.Lemmas.FloatAdaBoostV

/-! # The rounds of AdaBoostV in `f64` -/

namespace Miniboosts

namespace F64

variable {H X : Type*} [Classifier H X F64]

theorem minNum_fin (a b : ℝ) : minNum (fin a) (fin b) = fin (min a b) := by
  unfold minNum
  refine (if_neg (by simp)).trans ((if_neg (by simp)).trans ?_)
  by_cases h : a ≤ b
  · refine (if_pos (show Le (fin a) (fin b) from h)).trans ?_
    rw [min_eq_left h]
  · refine (if_neg (show ¬ Le (fin a) (fin b) from h)).trans ?_
    rw [min_eq_right (le_of_not_ge h)]

/-- The last step of the bound on the potential. -/
theorem exp_step {Z w ρ e σ ν : ℝ} (hZ0 : 0 ≤ Z) (hw0 : 0 ≤ w) (hw4 : w ≤ 4) (hσ : σ ≤ ρ + 1 / 10 ^ 13) (hν : 0 ≤ ν ∧ ν ≤ 1)
    (h3 : ν - 2 / 10 ^ 15 ≤ e - ρ) (hZ : Z * Real.exp (ρ * w) ≤ (1 + 6 / 10 ^ 6) * Real.exp (-((e - ρ) ^ 2 / 2))) :
    Z * Real.exp (σ * w) ≤ Real.exp (7 / 10 ^ 6 - ν ^ 2 / 2) := by
  have h1 : σ * w ≤ ρ * w + 1 / 10 ^ 12 := by nlinarith
  have h2 : (1 + 6 / 10 ^ 6 : ℝ) ≤ Real.exp (6 / 10 ^ 6) := by have := Real.add_one_le_exp (6 / 10 ^ 6 : ℝ); linarith
  have h4 : ν ^ 2 / 2 - 1 / 10 ^ 12 ≤ (e - ρ) ^ 2 / 2 := by
    rcases le_total ν (2 / 10 ^ 15) with hc | hc
    · nlinarith [sq_nonneg (e - ρ), hν.1]
    · nlinarith [hν.2]
  have h5 := Real.exp_pos (1 / 10 ^ 12 : ℝ)
  have h6 := Real.exp_pos (-((e - ρ) ^ 2 / 2))
  have h7 : Real.exp (σ * w) ≤ Real.exp (ρ * w) * Real.exp (1 / 10 ^ 12) := by rw [← Real.exp_add]; exact Real.exp_le_exp.mpr h1
  refine (mul_le_mul_of_nonneg_left h7 hZ0).trans ?_
  rw [← mul_assoc]
  refine (mul_le_mul_of_nonneg_right (hZ.trans (mul_le_mul_of_nonneg_right h2 h6.le)) h5.le).trans ?_
  rw [← Real.exp_add, ← Real.exp_add]
  apply Real.exp_le_exp.mpr
  linarith

set_option maxHeartbeats 1000000 in
/-- One round with an edge in `[ν + 10⁻⁸, 0.95]`. -/
theorem boostV_fin (L : Libm) {S : Examples X ℝ} (hS : ∀ e ∈ S, e.2 = 1 ∨ e.2 = -1) (hne : S ≠ []) (hn : S.length ≤ 10 ^ 5) {s : AdaBoostVF H}
    {wl : WeakLearner F64 H} {it : Nat} (hit : it ≤ s.maxIter) (Q : List ((X × ℝ) × ℝ)) (hQ : Q.map Prod.fst = S)
    (hd : s.dist = Q.map fun p => fin p.2) (hx : ∀ p ∈ Q, 2 * eta ≤ p.2) (hs : |(Q.map Prod.snd).sum - 1| ≤ 25 / 10 ^ 8)
    (hc : ∀ e ∈ S, ∃ c, conf (wl it s.dist) e.1 = fin c ∧ |c| ≤ 1) {ν g γ : ℝ} (hν : 1 / 100 ≤ ν) (hg : ν + 1 / 10 ^ 8 ≤ g)
    (htol : s.tolerance = fin ν) (hγ : s.gamma = fin γ) (hγg : g - 1 / 10 ^ 9 ≤ γ) (hγ1 : γ ≤ 1)
    (hE1 : g ≤ (Q.map fun p => p.2 * (p.1.2 * (conf (wl it s.dist) p.1.1).val)).sum)
    (hE2 : (Q.map fun p => p.2 * (p.1.2 * (conf (wl it s.dist) p.1.1).val)).sum ≤ 95 / 100) {r : Except Panic (BoostOut (AdaBoostVF H) F64)}
    (h : AdaBoostVF.Boost L S s wl it r) :
    ∃ (γ' w : ℝ) (ρ : F64) (d : (X × ℝ) × ℝ → ℝ), γ' ≤ γ ∧ g - 1 / 10 ^ 9 ≤ γ' ∧ ν - 1 / 10 ^ 12 ≤ w ∧ w ≤ 4 ∧
      r = .ok { state := { s with gamma := fin γ', rho := ρ, dist := Q.map fun p => fin (d p), weights := s.weights ++ [fin w]
                                  hypotheses := s.hypotheses ++ [wl it s.dist] }
                flow := .cont, queries := [s.dist] } ∧
      (∀ p ∈ Q, 2 * eta ≤ d p ∧
        p.2 / (19996 / 10000) ≤ p.2 * Real.exp (-(w * marg (wl it s.dist) p.1)) / (Q.map fun p => p.2 * Real.exp (-(w * marg (wl it s.dist) p.1))).sum ∧
        |d p - p.2 * Real.exp (-(w * marg (wl it s.dist) p.1)) / (Q.map fun p => p.2 * Real.exp (-(w * marg (wl it s.dist) p.1))).sum| ≤
          21 / 10 ^ 8 * (p.2 * Real.exp (-(w * marg (wl it s.dist) p.1)) / (Q.map fun p => p.2 * Real.exp (-(w * marg (wl it s.dist) p.1))).sum) + eta) ∧
      |(Q.map d).sum - 1| ≤ 25 / 10 ^ 8 ∧
      (Q.map fun p => p.2 * Real.exp (-(w * marg (wl it s.dist) p.1))).sum * Real.exp ((γ' - ν) * w) ≤ Real.exp (7 / 10 ^ 6 - ν ^ 2 / 2) := by
  have hu := u_small
  have hu0 := u_pos
  have het := eta_tiny
  have het0 := eta_pos
  unfold AdaBoostVF.Boost at h
  rw [if_neg (by omega)] at h
  set f := wl it s.dist with hf
  have hQS : ∀ p ∈ Q, p.1 ∈ S := fun p hp => hQ ▸ List.mem_map_of_mem hp
  have hlen : Q.length = S.length := by rw [← hQ]; simp
  have hmarg : ∀ p ∈ Q, mul (fin p.1.2) (conf f p.1.1) = fin (marg f p.1) ∧ |marg f p.1| ≤ 1 ∧ |marg f p.1 - p.1.2 * (conf f p.1.1).val| ≤ 2 * u := by
    intro p hp
    obtain ⟨c, h1, h2⟩ := hc p.1 (hQS p hp)
    have := marg_le (h := f) (hS p.1 (hQS p hp)) h1 h2
    rwa [show (conf f p.1.1).val = c by rw [h1]; rfl]
  have hmargins : F64.margins S f = Q.map fun p => fin (marg f p.1) := by
    have : F64.margins S f = Q.map fun p => mul (fin p.1.2) (conf f p.1.1) := by rw [← hQ]; simp [F64.margins, Function.comp_def]
    rw [this]
    exact List.map_congr_left fun p hp => (hmarg p hp).1
  have hs' := abs_le.mp hs
  -- the edge
  obtain ⟨edge, hin, h⟩ := h
  rw [hd] at hin
  obtain ⟨e, rfl, hEe', hdiff⟩ := edge_fin hS hn Q hQ hx hs f hc hin
  have d1 := abs_le.mp hEe'
  have d2 := abs_le.mp hdiff
  have he0 : g - 1 / 10 ^ 9 ≤ e := by linarith
  have he1 : e ≤ 9501 / 10000 := by linarith
  have hEe : |(Q.map fun p => marg f p.1 * p.2).sum - e| ≤ 1 / 10 ^ 9 := by rw [abs_le]; constructor <;> linarith
  have hle1 : ¬ Le (fin 1) (F64.abs (fin e)) := by
    show ¬ (1 : ℝ) ≤ |e|
    rw [abs_of_nonneg (by linarith)]
    linarith
  rcases h with ⟨h, -⟩ | ⟨-, h⟩
  · exact absurd h hle1
  -- the target
  rw [hγ, htol, minNum_fin] at h
  obtain ⟨ρ, hρ, hρe⟩ := sub_fin (a := min e γ) (b := ν) 1 (by norm_num) (by
    rw [abs_le]
    have h1 := min_le_left e γ
    have h2 := le_min he0 hγg
    constructor <;> linarith)
  have hm1 := min_le_left e γ
  have hm2 := le_min he0 hγg
  have hρe' := abs_le.mp hρe
  simp only [hρ] at h
  have hρ0 : 0 ≤ ρ := by linarith
  have hρ1 : ρ ≤ e := by linarith
  obtain ⟨w, hw, hwe, hw4, hwlo⟩ := voteV_fin L hρ0 hρ1 (show e ≤ 999 / 1000 by linarith)
  have hwν : ν - 1 / 10 ^ 12 ≤ w := by linarith
  have hw0 : 0 ≤ w := by linarith
  obtain ⟨dd, hrw, hr⟩ := h
  rw [hw] at hrw
  have hrw' : Reweight L ((Q.map fun p => (p.2, marg f p.1)).map fun p => fin p.1) ((Q.map fun p => (p.2, marg f p.1)).map fun p => fin p.2) (fin w) dd := by
    rw [List.map_map, List.map_map]
    rw [hmargins, hd] at hrw
    exact hrw
  have hPx : ((Q.map fun p => (p.2, marg f p.1)).map Prod.fst) = Q.map Prod.snd := by rw [List.map_map]; rfl
  have hPE : ((Q.map fun p => (p.2, marg f p.1)).map fun p => p.2 * p.1) = Q.map fun p => marg f p.1 * p.2 := by rw [List.map_map]; rfl
  have hPZ : ((Q.map fun p => (p.2, marg f p.1)).map fun p => p.1 * Real.exp (-(w * p.2))) = Q.map fun p => p.2 * Real.exp (-(w * marg f p.1)) := by
    rw [List.map_map]; rfl
  have hPm : ∀ p ∈ Q.map fun p => (p.2, marg f p.1), 2 * eta ≤ p.1 ∧ |p.2| ≤ 1 := by
    simp only [List.mem_map]
    rintro _ ⟨p, hp, rfl⟩
    exact ⟨hx p hp, (hmarg p hp).2.1⟩
  have hPx0 : ∀ p ∈ Q.map fun p => (p.2, marg f p.1), 0 ≤ p.1 := fun p hp => by linarith [(hPm p hp).1]
  have hhρ : 0 ≤ AdaBoost.hypWeight ρ := by
    have := hypWeight_sub_ge (ρ := 0) (γ := ρ) (by linarith) hρ0 (by linarith)
    have h0 : AdaBoost.hypWeight 0 = 0 := by simp [AdaBoost.hypWeight]
    linarith
  have hwe' := abs_le.mp hwe
  have hcap := norm_bound_le (Q.map fun p => (p.2, marg f p.1)) (e := e) (w := w) (by linarith) (by linarith) hw0 (by linarith)
    hPx0 (fun p hp => (hPm p hp).2) (by rw [hPx]; linarith) (by rw [hPE]; exact hEe)
  obtain ⟨g', hg1, hg2, hg3⟩ := reweight_core L (Q.map fun p => (p.2, marg f p.1)) hcap (by rw [abs_of_nonneg hw0]; exact hw4)
    (by intro h0; apply hne; rw [← hQ]; simpa using h0) (by rw [List.length_map, hlen]; exact hn) (fun p hp => (hPm p hp).1) (fun p hp => (hPm p hp).2)
    (by rw [hPx]; exact hs) dd hrw'
  have hZ := norm_bound_target (Q.map fun p => (p.2, marg f p.1)) hρ0 hρ1 he1 (hwe.trans (by norm_num)) hPx0 (fun p hp => (hPm p hp).2)
    (by rw [hPx]; linarith) (by rw [hPE]; exact hEe)
  rw [hPZ] at hg2 hZ
  refine ⟨min e γ, w, fin ρ, fun p => g' (p.2, marg f p.1), min_le_right _ _, hm2, hwν, hw4, ?_, ?_, ?_, ?_⟩
  · rw [hr, hg1, hw, htol, List.map_map]; rfl
  · intro p hp
    exact hg2 (p.2, marg f p.1) (List.mem_map_of_mem hp)
  · rw [List.map_map] at hg3; exact hg3
  · set Z := (Q.map fun p => p.2 * Real.exp (-(w * marg f p.1))).sum with hZdef
    have hZ0 : 0 ≤ Z := by
      rw [hZdef]
      apply List.sum_nonneg
      simp only [List.mem_map]
      rintro _ ⟨p, hp, rfl⟩
      exact mul_nonneg (by linarith [hx p hp]) (Real.exp_pos _).le
    exact exp_step hZ0 hw0 hw4 (by linarith) ⟨by linarith, by linarith⟩ (by linarith) hZ

end F64

end Miniboosts
