import Verif.Lemmas.RoundingBoost

/-! # One call of `AdaBoost::boost` in `f64` -/

namespace Miniboosts

namespace F64

theorem sum_close {α : Type*} (Q : List α) (f g b : α → ℝ) (h : ∀ p ∈ Q, |f p - g p| ≤ b p) : |(Q.map f).sum - (Q.map g).sum| ≤ (Q.map b).sum := by
  induction Q with
  | nil => simp
  | cons p Q ih =>
    have h1 := abs_le.mp (ih fun p' hp' => h p' (by simp [hp']))
    have h2 := abs_le.mp (h p (by simp))
    simp only [List.map_cons, List.sum_cons]
    rw [abs_le]; constructor <;> linarith

theorem sum_affine {α : Type*} (Q : List α) (f : α → ℝ) (a b : ℝ) : (Q.map fun p => a * f p + b).sum = a * (Q.map f).sum + Q.length * b := by
  induction Q with
  | nil => simp
  | cons p Q ih => simp only [List.map_cons, List.sum_cons, List.length_cons]; rw [ih]; push_cast; ring

/-- The margin as it is computed. -/
noncomputable def marg {H X : Type*} [Classifier H X F64] (h : H) (e : X × ℝ) : ℝ := round (e.2 * (conf h e.1).val)

variable {H X : Type*} [Classifier H X F64]

theorem marg_le {h : H} {e : X × ℝ} (hy : e.2 = 1 ∨ e.2 = -1) {c : ℝ} (hc : conf h e.1 = fin c) (hc1 : |c| ≤ 1) :
    mul (fin e.2) (conf h e.1) = fin (marg h e) ∧ |marg h e| ≤ 1 ∧ |marg h e - e.2 * c| ≤ 2 * u := by
  have hy1 : |e.2| = 1 := by rcases hy with h | h <;> simp [h]
  have hyc : |e.2 * c| ≤ 1 := by rw [abs_mul, hy1, one_mul]; exact hc1
  have hu := u_pos
  have he := eta_le_u
  rw [hc]
  have hm : marg h e = round (e.2 * c) := by rw [marg, hc]; rfl
  rw [hm]
  refine ⟨rnd_small (hyc.trans (by norm_num)), round_le_one hyc, (round_err _).trans ?_⟩
  nlinarith

/-- The edge as it is computed, however the work is divided. -/
theorem edge_fin {S : Examples X ℝ} (hS : ∀ e ∈ S, e.2 = 1 ∨ e.2 = -1) (hn : S.length ≤ 10 ^ 5) (Q : List ((X × ℝ) × ℝ)) (hQ : Q.map Prod.fst = S)
    (hx : ∀ p ∈ Q, 2 * eta ≤ p.2) (hs : |(Q.map Prod.snd).sum - 1| ≤ 25 / 10 ^ 8) (f : H) (hc : ∀ e ∈ S, ∃ c, conf f e.1 = fin c ∧ |c| ≤ 1) {r : F64}
    (h : Inner (F64.margins S f) (Q.map fun p => fin p.2) r) :
    ∃ e, r = fin e ∧ |e - (Q.map fun p => marg f p.1 * p.2).sum| ≤ 2 / 10 ^ 10 ∧
      |e - (Q.map fun p => p.2 * (p.1.2 * (conf f p.1.1).val)).sum| ≤ 1 / 10 ^ 9 := by
  have hu := u_small
  have hu0 := u_pos
  have het := eta_tiny
  have het0 := eta_pos
  have hQS : ∀ p ∈ Q, p.1 ∈ S := fun p hp => hQ ▸ List.mem_map_of_mem hp
  have hlen : Q.length = S.length := by rw [← hQ]; simp
  have hmarg : ∀ p ∈ Q, mul (fin p.1.2) (conf f p.1.1) = fin (marg f p.1) ∧ |marg f p.1| ≤ 1 ∧ |marg f p.1 - p.1.2 * (conf f p.1.1).val| ≤ 2 * u := by
    intro p hp
    obtain ⟨c, h1, h2⟩ := hc p.1 (hQS p hp)
    have := marg_le (h := f) (hS p.1 (hQS p hp)) h1 h2
    rwa [show (conf f p.1.1).val = c by rw [h1]; rfl]
  have hmargins : F64.margins S f = Q.map fun p => fin (marg f p.1) := by
    have : F64.margins S f = Q.map fun p => mul (fin p.1.2) (conf f p.1.1) := by rw [← hQ]; simp [F64.margins, Function.comp_def]
    rw [this]
    exact List.map_congr_left fun p hp => (hmarg p hp).1
  have hs' := abs_le.mp hs
  have hx0 : ∀ p ∈ Q, 0 < p.2 := fun p hp => by linarith [hx p hp]
  have hn' : (Q.length : ℝ) ≤ 100000 := by rw [hlen]; exact_mod_cast (by omega : S.length ≤ 100000)
  have hl0 : (0 : ℝ) ≤ Q.length := Nat.cast_nonneg _
  -- the edge
  obtain ⟨t, ht, hedge⟩ := h
  have hprod : ∀ p ∈ Q, mul (fin (marg f p.1)) (fin p.2) = fin (round (marg f p.1 * p.2)) ∧ |round (marg f p.1 * p.2) - marg f p.1 * p.2| ≤ u * p.2 + eta ∧
      |round (marg f p.1 * p.2)| ≤ 3 / 2 * p.2 + eta := by
    intro p hp
    have h1 := hx0 p hp
    have h2 : |marg f p.1 * p.2| ≤ p.2 := by rw [abs_mul, abs_of_pos h1]; nlinarith [(hmarg p hp).2.1]
    have h3 : p.2 ≤ (Q.map Prod.snd).sum := List.single_le_sum (by
      simp only [List.mem_map]; rintro _ ⟨a, ha, rfl⟩; exact (hx0 a ha).le) _ (List.mem_map_of_mem hp)
    have h4 : |round (marg f p.1 * p.2) - marg f p.1 * p.2| ≤ u * p.2 + eta := (round_err _).trans (by gcongr)
    refine ⟨rnd_small (h2.trans (by norm_num at *; linarith)), h4, ?_⟩
    have := abs_add_le (round (marg f p.1 * p.2) - marg f p.1 * p.2) (marg f p.1 * p.2)
    rw [sub_add_cancel] at this
    nlinarith
  have hitems : t.items = (Q.map fun p => round (marg f p.1 * p.2)).map fin := by
    rw [ht, hmargins, List.zipWith_map, List.zipWith_self, List.map_map]
    exact List.map_congr_left fun p hp => (hprod p hp).1
  have hleta : (Q.length : ℝ) * eta ≤ 1 / 10 ^ 50 := by
    calc (Q.length : ℝ) * eta ≤ 100000 * (1 / 10 ^ 60) := by gcongr
      _ ≤ _ := by norm_num
  have habs : (((Q.map fun p => round (marg f p.1 * p.2)).map (|·|))).sum ≤ 2 := by
    rw [List.map_map]
    have h1 : (Q.map ((|·|) ∘ fun p => round (marg f p.1 * p.2))).sum ≤ (Q.map fun p => 3 / 2 * p.2 + eta).sum :=
      List.sum_le_sum fun p hp => (hprod p hp).2.2
    rw [sum_affine Q (fun p => p.2) (3 / 2) eta] at h1
    have h2 : (Q.map fun p => p.2).sum = (Q.map Prod.snd).sum := rfl
    rw [h2] at h1
    linarith
  obtain ⟨e, he, -, hee, -⟩ := split_sum_err t _ hitems habs (by rw [List.length_map, hlen]; exact hn)
  rw [List.length_map] at hee
  have d1 : |e - (Q.map fun p => round (marg f p.1 * p.2)).sum| ≤ 1 / 10 ^ 10 := by
    refine hee.trans ?_
    have : 8 * u * Q.length ≤ 8 * (1 / 9000000000000000) * 100000 := by gcongr
    linarith
  have hsnd : (Q.map fun p => p.2).sum = (Q.map Prod.snd).sum := rfl
  have d2 : |(Q.map fun p => round (marg f p.1 * p.2)).sum - (Q.map fun p => marg f p.1 * p.2).sum| ≤ 1 / 10 ^ 12 := by
    refine (sum_close Q _ _ (fun p => u * p.2 + eta) fun p hp => (hprod p hp).2.1).trans ?_
    rw [sum_affine Q (fun p => p.2) u eta, hsnd]
    nlinarith
  have d3 : |(Q.map fun p => marg f p.1 * p.2).sum - (Q.map fun p => p.2 * (p.1.2 * (conf f p.1.1).val)).sum| ≤ 1 / 10 ^ 12 := by
    refine (sum_close Q _ _ (fun p => (2 * u) * p.2 + 0) fun p hp => ?_).trans ?_
    · have h1 := hx0 p hp
      rw [show marg f p.1 * p.2 - p.2 * (p.1.2 * (conf f p.1.1).val) = (marg f p.1 - p.1.2 * (conf f p.1.1).val) * p.2 by ring, abs_mul, abs_of_pos h1,
        add_zero]
      exact mul_le_mul_of_nonneg_right (hmarg p hp).2.2 h1.le
    · rw [sum_affine Q (fun p => p.2) (2 * u) 0, hsnd, mul_zero, add_zero]
      nlinarith
  have d1' := abs_le.mp d1
  have d2' := abs_le.mp d2
  have d3' := abs_le.mp d3
  refine ⟨e, by rw [hedge, he], ?_, ?_⟩
  · rw [abs_le]; constructor <;> linarith
  · rw [abs_le]; constructor <;> linarith

theorem boost_fin (L : Libm) {S : Examples X ℝ} (hS : ∀ e ∈ S, e.2 = 1 ∨ e.2 = -1) (hne : S ≠ []) (hn : S.length ≤ 10 ^ 5) {s : AdaBoostF H}
    {wl : WeakLearner F64 H} {it : Nat} (hit : it ≤ s.maxIter) (Q : List ((X × ℝ) × ℝ)) (hQ : Q.map Prod.fst = S)
    (hd : s.dist = Q.map fun p => fin p.2) (hx : ∀ p ∈ Q, 2 * eta ≤ p.2) (hs : |(Q.map Prod.snd).sum - 1| ≤ 25 / 10 ^ 8)
    (hc : ∀ e ∈ S, ∃ c, conf (wl it s.dist) e.1 = fin c ∧ |c| ≤ 1)
    (hE : |(Q.map fun p => p.2 * (p.1.2 * (conf (wl it s.dist) p.1.1).val)).sum| ≤ 998 / 1000) {r : Except Panic (BoostOut (AdaBoostF H) F64)}
    (h : AdaBoostF.Boost L S s wl it r) :
    ∃ (e w : ℝ) (g : (X × ℝ) × ℝ → ℝ), |e - (Q.map fun p => p.2 * (p.1.2 * (conf (wl it s.dist) p.1.1).val)).sum| ≤ 1 / 10 ^ 9 ∧
      |w - Real.log ((1 + e) / (1 - e)) / 2| ≤ 1 / 10 ^ 14 ∧ |w| ≤ 4 ∧
      r = .ok { state := { s with dist := Q.map fun p => fin (g p), weights := s.weights ++ [fin w], hypotheses := s.hypotheses ++ [wl it s.dist] },
                flow := .cont, queries := [s.dist] } ∧
      (∀ p ∈ Q, 2 * eta ≤ g p ∧
        p.2 / (19996 / 10000) ≤ p.2 * Real.exp (-(w * marg (wl it s.dist) p.1)) / (Q.map fun p => p.2 * Real.exp (-(w * marg (wl it s.dist) p.1))).sum ∧
        |g p - p.2 * Real.exp (-(w * marg (wl it s.dist) p.1)) / (Q.map fun p => p.2 * Real.exp (-(w * marg (wl it s.dist) p.1))).sum| ≤
          21 / 10 ^ 8 * (p.2 * Real.exp (-(w * marg (wl it s.dist) p.1)) / (Q.map fun p => p.2 * Real.exp (-(w * marg (wl it s.dist) p.1))).sum) + eta) ∧
      |(Q.map g).sum - 1| ≤ 25 / 10 ^ 8 ∧
      (Q.map fun p => p.2 * Real.exp (-(w * marg (wl it s.dist) p.1))).sum ≤ Real.sqrt (1 - e ^ 2) + 6 / 10 ^ 6 := by
  have hu := u_small
  have hu0 := u_pos
  have het := eta_tiny
  have het0 := eta_pos
  unfold AdaBoostF.Boost at h
  rw [if_neg (by omega)] at h
  set f := wl it s.dist with hf
  have hQS : ∀ p ∈ Q, p.1 ∈ S := fun p hp => hQ ▸ List.mem_map_of_mem hp
  have hlen : Q.length = S.length := by rw [← hQ]; simp
  have hmarg : ∀ p ∈ Q, mul (fin p.1.2) (conf f p.1.1) = fin (marg f p.1) ∧ |marg f p.1| ≤ 1 ∧ |marg f p.1 - p.1.2 * (conf f p.1.1).val| ≤ 2 * u := by
    intro p hp
    obtain ⟨c, h1, h2⟩ := hc p.1 (hQS p hp)
    have := marg_le (h := f) (hS p.1 (hQS p hp)) h1 h2
    rwa [show (conf f p.1.1).val = c by rw [h1]; rfl]
  have hmargins : F64.margins S f = Q.map fun p => fin (marg f p.1) := by
    have : F64.margins S f = Q.map fun p => mul (fin p.1.2) (conf f p.1.1) := by rw [← hQ]; simp [F64.margins, Function.comp_def]
    rw [this]
    exact List.map_congr_left fun p hp => (hmarg p hp).1
  have hs' := abs_le.mp hs
  have hx0 : ∀ p ∈ Q, 0 < p.2 := fun p hp => by linarith [hx p hp]
  -- the edge
  obtain ⟨edge, hin, h⟩ := h
  rw [hd] at hin
  obtain ⟨e, rfl, hEe', hdiff⟩ := edge_fin hS hn Q hQ hx hs f hc hin
  have d1 := abs_le.mp hEe'
  have d2 := abs_le.mp hdiff
  have hE' := abs_le.mp hE
  have heb : |e| ≤ 9985 / 10000 := by rw [abs_le]; constructor <;> linarith
  have hEe : |(Q.map fun p => marg f p.1 * p.2).sum - e| ≤ 1 / 10 ^ 9 := by rw [abs_le]; constructor <;> linarith
  have hle1 : ¬ Le (fin 1) (F64.abs (fin e)) := by
    show ¬ (1 : ℝ) ≤ |e|
    linarith
  obtain ⟨w, hw, hwe, hw4⟩ := hypWeight_fin L (heb.trans (by norm_num))
  rcases h with ⟨h, -⟩ | ⟨-, d, hrw, hr⟩
  · exact absurd h hle1
  have hrw' : Reweight L ((Q.map fun p => (p.2, marg f p.1)).map fun p => fin p.1) ((Q.map fun p => (p.2, marg f p.1)).map fun p => fin p.2) (fin w) d := by
    rw [List.map_map, List.map_map]
    rw [hmargins, hd, hw] at hrw
    exact hrw
  have hPx : ((Q.map fun p => (p.2, marg f p.1)).map Prod.fst) = Q.map Prod.snd := by rw [List.map_map]; rfl
  have hPE : ((Q.map fun p => (p.2, marg f p.1)).map fun p => p.2 * p.1) = Q.map fun p => marg f p.1 * p.2 := by rw [List.map_map]; rfl
  have hPZ : ((Q.map fun p => (p.2, marg f p.1)).map fun p => p.1 * Real.exp (-(w * p.2))) = Q.map fun p => p.2 * Real.exp (-(w * marg f p.1)) := by
    rw [List.map_map]; rfl
  have hPm : ∀ p ∈ Q.map fun p => (p.2, marg f p.1), 2 * eta ≤ p.1 ∧ |p.2| ≤ 1 := by
    simp only [List.mem_map]
    rintro _ ⟨p, hp, rfl⟩
    exact ⟨hx p hp, (hmarg p hp).2.1⟩
  obtain ⟨g, hg1, hg2, hg3⟩ := reweight_fin L (Q.map fun p => (p.2, marg f p.1)) (heb.trans (by norm_num)) hwe hw4
    (by intro h0; apply hne; rw [← hQ]; simpa using h0) (by rw [List.length_map, hlen]; exact hn) (fun p hp => (hPm p hp).1) (fun p hp => (hPm p hp).2)
    (by rw [hPx]; exact hs) (by rw [hPE]; exact hEe) d hrw'
  have hZ := norm_bound_sqrt (Q.map fun p => (p.2, marg f p.1)) heb hwe (fun p hp => by linarith [(hPm p hp).1]) (fun p hp => (hPm p hp).2)
    (by rw [hPx]; linarith) (by rw [hPE]; exact hEe)
  rw [hPZ] at hg2 hZ
  refine ⟨e, w, fun p => g (p.2, marg f p.1), hdiff, hwe, hw4, ?_, ?_, ?_, hZ⟩
  · rw [hr, hg1, hw, List.map_map]; rfl
  · intro p hp
    exact hg2 (p.2, marg f p.1) (List.mem_map_of_mem hp)
  · rw [List.map_map] at hg3; exact hg3

end F64

end Miniboosts
