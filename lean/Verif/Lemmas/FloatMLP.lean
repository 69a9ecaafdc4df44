import Verif.Lemmas.FloatCERLPCapRound
import Verif.Model.FloatMLP

/-! # MLPBoost in `f64`: the vote and the weights with a looser sum -/

namespace Miniboosts

namespace F64

variable {H X : Type*} [Classifier H X F64]

set_option maxHeartbeats 800000 in
/-- The returned vote, for weights whose sum is one up to `2e-5`. -/
theorem vote_near_loose (V : List (ℝ × H)) (hV : ∀ v ∈ V, 0 ≤ v.1) (hs : |(V.map Prod.fst).sum - 1| ≤ 2 / 10 ^ 5) (hl : V.length ≤ 3 * 10 ^ 7) :
    ∃ f, fromSlices (V.map fun v => fin v.1) (V.map Prod.snd) = .ok f ∧ (∀ g ∈ f.hypotheses, g ∈ V.map Prod.snd) ∧
      (∃ qs : List ℝ, f.weights = qs.map fin ∧ (∀ q ∈ qs, 0 ≤ q) ∧ |qs.sum - 1| ≤ 5 / 10 ^ 5) ∧
      ∀ x : X, (∀ v ∈ V, ∃ c : ℝ, conf v.2 x = fin c ∧ |c| ≤ 1) → ∃ F : ℝ, weightedConf f x = fin F ∧ |F - voteAt V x| ≤ 5 / 10 ^ 5 := by
  classical
  have hu := u_small
  have hu0 := u_pos
  have hη := eta_tiny
  have hη0 := eta_pos
  set W := V.filter fun v => decide (0 < v.1) with hW
  have hWpos : ∀ v ∈ W, 0 < v.1 := by intro v hv; have := (List.mem_filter.mp hv).2; simpa using this
  have hWsub : ∀ v ∈ W, v ∈ V := fun v hv => (List.mem_filter.mp hv).1
  have hWl : W.length ≤ 3 * 10 ^ 7 := (List.length_filter_le _ _).trans hl
  have hWs : (W.map Prod.fst).sum = (V.map Prod.fst).sum := filter_vote (H := H) (X := X) Prod.fst (fun v h => h) V hV
  rw [← hWs] at hs
  have hs' := abs_le.mp hs
  have hkept : ((List.zip (V.map fun v => fin v.1) (V.map Prod.snd)).filter fun p => decide (Lt (fin 0) p.1)) = W.map fun v => (fin v.1, v.2) := by
    rw [List.zip, zipWith_map_map, List.filter_map]
    congr 1
  have habs : ((W.map Prod.fst).map (|·|)) = W.map Prod.fst := by
    rw [List.map_map]
    exact List.map_congr_left fun v hv => abs_of_pos (hWpos v hv)
  obtain ⟨z, z1, -, z3⟩ := foldl_add_long 2 (by norm_num) (by norm_num) (W.map Prod.fst) 0 0 0 rep_zero (by simp) (by rw [abs_zero, zero_add, habs]; linarith)
    (by rw [List.length_map]; omega)
  simp only [zero_add, List.length_map] at z3
  have hlr : (W.length : ℝ) ≤ 3 * 10 ^ 7 := by exact_mod_cast hWl
  have z4 : |z - (W.map Prod.fst).sum| ≤ 1 / 10 ^ 7 := by
    refine z3.trans ?_
    calc 2 * u * 2 * (W.length : ℝ) ≤ 2 * (1 / 9000000000000000) * 2 * (3 * 10 ^ 7) := by gcongr
      _ ≤ _ := by norm_num
  have z5 := abs_le.mp z4
  have hz : |z - 1| ≤ 21 / 10 ^ 6 := by rw [abs_le]; constructor <;> linarith
  have hz' := abs_le.mp hz
  have hz0 : 0 < z := by linarith
  have hle : ∀ v ∈ W, v.1 ≤ 11 / 10 := fun v hv => by
    have : v.1 ≤ (W.map Prod.fst).sum := List.single_le_sum (by intro x hx; obtain ⟨q, hq, rfl⟩ := List.mem_map.mp hx; exact (hWpos q hq).le) _ (List.mem_map_of_mem hv)
    linarith
  have hdiv : ∀ v ∈ W, |round (v.1 / z) - v.1| ≤ 22 / 10 ^ 6 * v.1 + eta ∧ 0 ≤ round (v.1 / z) ∧ div (fin v.1) (fin z) = fin (round (v.1 / z)) := by
    intro v hv
    have h0 := hWpos v hv
    have h1 : 0 ≤ v.1 / z := (div_pos h0 hz0).le
    have h2 : |v.1 / z - v.1| ≤ 2101 / 10 ^ 8 * v.1 := by
      rw [show v.1 / z - v.1 = v.1 * ((1 - z) / z) by field_simp, abs_mul, abs_of_pos h0, mul_comm, abs_div, abs_of_pos hz0]
      refine mul_le_mul_of_nonneg_right ?_ h0.le
      rw [div_le_iff₀ hz0, abs_sub_comm]
      refine hz.trans ?_
      nlinarith
    have h3 := round_err (v.1 / z)
    have h2' := abs_le.mp h2
    have h4 : |v.1 / z| ≤ 2 * v.1 := by rw [abs_of_nonneg h1]; nlinarith
    have h5 : u * |v.1 / z| ≤ u * (2 * v.1) := mul_le_mul_of_nonneg_left h4 hu0.le
    have h6 : u * (2 * v.1) ≤ 1 / 10 ^ 12 * v.1 := by
      have : u * 2 ≤ 1 / 10 ^ 12 := by norm_num; linarith
      calc u * (2 * v.1) = (u * 2) * v.1 := by ring
        _ ≤ _ := mul_le_mul_of_nonneg_right this h0.le
    refine ⟨?_, round_nonneg h1, ?_⟩
    · have h3' := abs_le.mp h3
      rw [abs_le]
      constructor
      · have : (22 : ℝ) / 10 ^ 6 * v.1 = 2101 / 10 ^ 8 * v.1 + 99 / 10 ^ 8 * v.1 := by ring
        nlinarith [h3'.1]
      · have : (22 : ℝ) / 10 ^ 6 * v.1 = 2101 / 10 ^ 8 * v.1 + 99 / 10 ^ 8 * v.1 := by ring
        nlinarith [h3'.2]
    · unfold div
      simp only [if_neg hz0.ne']
      rw [rnd_small (h4.trans (by have := hle v hv; norm_num; linarith))]
  have hnorm : normalize (W.map fun v => fin v.1) = .ok (W.map fun v => fin (round (v.1 / z))) := by
    unfold normalize
    have h1 : (W.map fun v => fin v.1).map F64.abs = (W.map Prod.fst).map fin := by
      rw [List.map_map, List.map_map]
      refine List.map_congr_left fun v hv => ?_
      change fin |v.1| = fin v.1
      rw [abs_of_pos (hWpos v hv)]
    simp only [h1, z1]
    rw [if_neg (by simp [hz0.ne'])]
    congr 1
    rw [List.map_map]
    exact List.map_congr_left fun v hv => (hdiv v hv).2.2
  have hq : |(W.map fun v => round (v.1 / z)).sum - (W.map Prod.fst).sum| ≤ 22 / 10 ^ 6 * (W.map Prod.fst).sum + W.length * eta := by
    have : ∀ l : List (ℝ × H), (∀ v ∈ l, v ∈ W) → |(l.map fun v => round (v.1 / z)).sum - (l.map Prod.fst).sum| ≤ 22 / 10 ^ 6 * (l.map Prod.fst).sum + l.length * eta := by
      intro l
      induction l with
      | nil => intro _; simp
      | cons v l ih =>
        intro h
        have i := abs_le.mp (ih fun w hw => h w (List.mem_cons_of_mem _ hw))
        have j := abs_le.mp (hdiv v (h v (by simp))).1
        simp only [List.map_cons, List.sum_cons, List.length_cons]
        push_cast
        rw [abs_le]
        constructor
        · linarith [i.1, j.1]
        · linarith [i.2, j.2]
    exact this W fun v hv => hv
  have hWeta : (W.length : ℝ) * eta ≤ 1 / 10 ^ 40 := by
    calc (W.length : ℝ) * eta ≤ (3 * 10 ^ 7) * (1 / 10 ^ 60) := by gcongr
      _ ≤ _ := by norm_num
  have hq' := abs_le.mp hq
  refine ⟨{ weights := W.map fun v => fin (round (v.1 / z)), hypotheses := W.map Prod.snd }, ?_, ?_, ?_, ?_⟩
  · unfold fromSlices
    simp only [hkept, List.map_map]
    rw [show (Prod.fst ∘ fun v : ℝ × H => (fin v.1, v.2)) = fun v => fin v.1 from rfl, hnorm]
    rfl
  · intro g hg
    obtain ⟨v, hv, rfl⟩ := List.mem_map.mp hg
    exact List.mem_map_of_mem (hWsub v hv)
  · refine ⟨W.map fun v => round (v.1 / z), by rw [List.map_map]; rfl, ?_, ?_⟩
    · intro q hq
      obtain ⟨v, hv, rfl⟩ := List.mem_map.mp hq
      exact (hdiv v hv).2.1
    · rw [abs_le]
      constructor <;> linarith [hq'.1, hq'.2]
  · intro x hc
    obtain ⟨F, f1, -, f3⟩ := wsum_near (W.map fun v => (round (v.1 / z), (conf v.2 x).val)) (by
      intro p hp
      obtain ⟨v, hv, rfl⟩ := List.mem_map.mp hp
      obtain ⟨c, c1, c2⟩ := hc v (hWsub v hv)
      refine ⟨(hdiv v hv).2.1, ?_⟩
      simp only [c1, val]; linarith) (by rw [List.map_map]; change (W.map fun v => round (v.1 / z)).sum ≤ _; linarith) (by rw [List.length_map]; omega)
    refine ⟨F, ?_, ?_⟩
    · rw [← f1]
      unfold weightedConf
      congr 1
      rw [zipWith_map_map, List.map_map]
      refine List.map_congr_left fun v hv => ?_
      obtain ⟨c, c1, -⟩ := hc v (hWsub v hv)
      simp only [Function.comp_apply, c1, val]
    · rw [List.map_map, List.length_map] at f3
      have f3' : |F - (W.map fun v => round (v.1 / z) * (conf v.2 x).val).sum| ≤ 2 / 10 ^ 15 * (W.length + 4) := f3
      have g1 : ∀ l : List (ℝ × H), (∀ v ∈ l, v ∈ W) → |(l.map fun v => round (v.1 / z) * (conf v.2 x).val).sum - (l.map fun v => v.1 * (conf v.2 x).val).sum| ≤
          22 / 10 ^ 6 * (l.map Prod.fst).sum + l.length * eta := by
        intro l
        induction l with
        | nil => intro _; simp
        | cons v l ih =>
          intro h
          have i := abs_le.mp (ih fun w hw => h w (List.mem_cons_of_mem _ hw))
          have j := (hdiv v (h v (by simp))).1
          obtain ⟨c, c1, c2⟩ := hc v (hWsub v (h v (by simp)))
          have k : |round (v.1 / z) * c - v.1 * c| ≤ 22 / 10 ^ 6 * v.1 + eta := by
            rw [← sub_mul, abs_mul]
            have := abs_nonneg (round (v.1 / z) - v.1)
            nlinarith
          have k' := abs_le.mp k
          simp only [List.map_cons, List.sum_cons, List.length_cons, c1, val] at i ⊢
          push_cast
          rw [abs_le]
          constructor
          · linarith [i.1, k'.1]
          · linarith [i.2, k'.2]
      have g2 := abs_le.mp (g1 W fun v hv => hv)
      have g3 : (W.map fun v => v.1 * (conf v.2 x).val).sum = voteAt V x := filter_vote (H := H) (X := X) (fun v => v.1 * (conf v.2 x).val) (fun v h => by simp [h]) V hV
      rw [g3] at g2
      have f4 : (2 : ℝ) / 10 ^ 15 * (W.length + 4) ≤ 1 / 10 ^ 7 := by
        calc (2 : ℝ) / 10 ^ 15 * (W.length + 4) ≤ 2 / 10 ^ 15 * (3 * 10 ^ 7 + 4) := by gcongr
          _ ≤ _ := by norm_num
      have f5 := abs_le.mp f3'
      rw [abs_le]
      constructor <;> linarith [g2.1, g2.2, f5.1, f5.2]


end F64

namespace CERLPBoostF

open F64

variable {H X : Type*}

/-- The weights of a round, for a vote whose weights have a sum of at most `1 + 2e-5`. -/
theorem dist_cap_loose [Classifier H X F64] (L : Libm) {S : Examples X ℝ} (hS : ∀ e ∈ S, e.2 = 1 ∨ e.2 = -1) (hn : S.length ≤ 10 ^ 5)
    {V : List (ℝ × H)} (hV : ∀ v ∈ V, 0 ≤ v.1 ∧ ConfOk S v.2) (hs : (V.map Prod.fst).sum ≤ 1 + 2 / 10 ^ 5) (hl : V.length ≤ 3 * 10 ^ 7) {η ν : ℝ} (h1 : 1 / 100 ≤ η) (h2 : η ≤ 9000)
    (hν1 : 1 ≤ ν) (hν2 : ν ≤ 10 ^ 5) {r : List F64}
    (h : F64.expDistributionFromMargins L (fin η) (fin ν) (F64.weightedMargins S (V.map fun v => fin v.1) (V.map Prod.snd)) = .ok r) :
    ∃ (xs p : List ℝ) (a : X × ℝ → ℝ), F64.weightedMargins S (V.map fun v => fin v.1) (V.map Prod.snd) = S.map (fun e => fin (a e)) ∧ r = xs.map fin ∧
      xs.length = S.length ∧ (∀ x ∈ xs, 0 ≤ x ∧ x ≤ (1 + 1 / 10 ^ 15) / ν) ∧ |xs.sum - 1| ≤ 11 / 10 ^ 6 ∧ (∀ e ∈ S, |a e - e.2 * voteAt V e.1| ≤ 1 / 10 ^ 7 ∧ |a e| ≤ 101 / 100) ∧
      Spec.IsEntropyProjection ν (S.map fun e => F64.round (-η * a e)) p ∧ Spec.dist1 xs p ≤ 3 / 10 ^ 5 ∧ ∀ x ∈ xs, F64.Rep x := by
  obtain ⟨a, a1, a2⟩ := weightedMargins_near hS hV (by norm_num at hs ⊢; linarith) (by omega)
  have hlr : (V.length : ℝ) ≤ 3 * 10 ^ 7 := by exact_mod_cast hl
  have herr : (2 : ℝ) / 10 ^ 15 * (V.length + 4) ≤ 1 / 10 ^ 7 := by
    calc (2 : ℝ) / 10 ^ 15 * (V.length + 4) ≤ 2 / 10 ^ 15 * (3 * 10 ^ 7 + 4) := by gcongr
      _ ≤ _ := by norm_num
  have hb : ∀ e ∈ S, |a e| ≤ 101 / 100 := by
    intro e he
    have h3 := abs_le.mp ((a2 e he).2.trans herr)
    have h4 : |e.2 * voteAt V e.1| ≤ 1 + 2 / 10 ^ 5 := by rw [pm_abs (hS e he)]; exact (voteAt_abs hV e he).trans hs
    have h5 := abs_le.mp h4
    rw [abs_le]; constructor <;> linarith
  have hlog : ∀ e ∈ S, |-η * a e| ≤ 9500 := by
    intro e he
    rw [abs_mul, abs_neg, abs_of_pos (by linarith)]
    have := hb e he
    calc η * |a e| ≤ 9000 * (101 / 100) := by gcongr
      _ ≤ _ := by norm_num
  have hu := u_small
  have hu0 := u_pos
  have hη := eta_le_u
  have hlog' : ∀ e ∈ S, |F64.round (-η * a e)| ≤ 10 ^ 4 := by
    intro e he
    have h3 := round_err (-η * a e)
    have h4 : u * |-η * a e| ≤ u * 9500 := mul_le_mul_of_nonneg_left (hlog e he) hu0.le
    have h5 := abs_le.mp (h3.trans (add_le_add h4 le_rfl))
    have h6 := abs_le.mp (hlog e he)
    rw [abs_le]; constructor <;> linarith
  have hpc : F64.projectCapped L (fin ν) ((S.map fun e => F64.round (-η * a e)).map fin) = .ok r := by
    rw [← h, a1]
    unfold F64.expDistributionFromMargins
    rw [List.map_map, List.map_map]
    congr 1
    refine List.map_congr_left fun e he => ?_
    change _ = rnd (-η * a e)
    rw [rnd_small ((hlog e he).trans (by norm_num))]
    rfl
  obtain ⟨xs, x1, x2, x3, p, p1, p2, p3⟩ := Props.project_f64_sound L ν (S.map fun e => F64.round (-η * a e)) (by simpa using hn)
    (by intro x hx; obtain ⟨e, he, rfl⟩ := List.mem_map.mp hx; exact hlog' e he) hpc
  refine ⟨xs, p, a, a1, x1, ?_, fun x hx => ⟨(x2 x hx).1, (x2 x hx).2.trans (round_cap_le hν1 hν2)⟩, x3, fun e he => ⟨(a2 e he).2.trans herr, hb e he⟩, p1, p3, ?_⟩
  · rw [p2, p1.1, List.length_map]
  · rw [x1] at hpc
    exact projected_double L ν (by intro x hx; obtain ⟨e, he, rfl⟩ := List.mem_map.mp hx; exact rep_round _) hpc


end CERLPBoostF

end Miniboosts
