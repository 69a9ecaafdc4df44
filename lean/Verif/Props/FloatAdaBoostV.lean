import Verif.Lemmas.FloatAdaBoostVRun
import Verif.Spec.FloatAdaBoostV
import Verif.Props.Rounding

/-! # AdaBoostV in `f64` keeps its margin guarantee (C112) -/

namespace Miniboosts

/-- Induction over the rounds, for any booster. -/
theorem ParBooster.loop_inv {σ K H O : Type*} (B : ParBooster σ K H O) (wl : WeakLearner K H) (I : Nat → σ → Prop) (P : List K → Prop) (M : Nat)
    (step : ∀ s it r, I it s → it ≤ M → B.boost s wl it r → ∃ s' q, r = .ok ⟨s', .cont, [q]⟩ ∧ P q ∧ I (it + 1) s')
    (stop : ∀ s r, I (M + 1) s → B.boost s wl (M + 1) r → r = .ok ⟨s, .brk M, []⟩) {s : σ} {it : Nat} {r} (h : B.Loop wl s it r) :
    I it s → it ≤ M + 1 → ∃ s' qs, r = .ok (s', qs) ∧ (∀ d ∈ qs, P d) ∧ I (M + 1) s' ∧ qs.length = M + 1 - it := by
  induction h with
  | @panic s it e h =>
    intro hI hit
    by_cases hlt : it ≤ M
    · obtain ⟨s', q, h', -⟩ := step s it _ hI hlt h
      cases h'
    · obtain rfl : it = M + 1 := by omega
      cases stop s _ hI h
  | @stop s it out k h hf =>
    intro hI hit
    by_cases hlt : it ≤ M
    · obtain ⟨s', q, h', -⟩ := step s it _ hI hlt h
      cases h'
      cases hf
    · obtain rfl : it = M + 1 := by omega
      cases stop s _ hI h
      exact ⟨_, _, rfl, by simp, hI, by simp⟩
  | @next s it out r h hf hr ih =>
    intro hI hit
    by_cases hlt : it ≤ M
    · obtain ⟨s', q, h', hP, hI'⟩ := step s it _ hI hlt h
      cases h'
      obtain ⟨s'', qs, rfl, hq, hI'', hl⟩ := ih hI' (by omega)
      refine ⟨s'', q :: qs, rfl, ?_, hI'', by simp only [List.length_cons, hl]; omega⟩
      simp only [List.mem_cons]
      rintro d (rfl | hd')
      · exact hP
      · exact hq d hd'
    · obtain rfl : it = M + 1 := by omega
      cases stop s _ hI h
      cases hf

namespace Props

open Miniboosts Spec F64

variable {H X : Type*} [Classifier H X F64]

theorem boostV_double {L : Libm} {S : Examples X ℝ} {s : AdaBoostVF H} {wl : WeakLearner F64 H} {it : Nat} {out}
    (h : AdaBoostVF.Boost L S s wl it (.ok out)) (hf : out.flow = .cont) : AllDouble out.state.dist := by
  unfold AdaBoostVF.Boost at h
  split at h
  · cases h; cases hf
  · obtain ⟨edge, -, ⟨-, h⟩ | ⟨-, d, hd, h⟩⟩ := h
    · cases h; cases hf
    · cases d with
      | error e => cases h
      | ok d => cases h; exact reweight_double hd

/-- The state during a run with edges in `[g, 0.95]`, after `t` rounds. -/
def TargetInv (L : Libm) (S : Examples X ℝ) (wl : WeakLearner F64 H) (s₀ : AdaBoostVF H) (M : Nat) (ν g : ℝ) (t : Nat) (s : AdaBoostVF H) : Prop :=
  AdaBoostVF.Reach L S wl s₀ (t + 1) s ∧ AllDouble s.dist ∧ s.maxIter = M ∧ s.tolerance = fin ν ∧
  ∃ (Q : List ((X × ℝ) × ℝ)) (V : List (ℝ × H)) (Z γ : ℝ), Q.map Prod.fst = S ∧ s.dist = (Q.map fun p => fin p.2) ∧
    (∀ p ∈ Q, 2 * eta ≤ p.2) ∧ |(Q.map Prod.snd).sum - 1| ≤ 25 / 10 ^ 8 ∧
    s.gamma = fin γ ∧ g - 1 / 10 ^ 9 ≤ γ ∧ γ ≤ 1 ∧
    s.weights = (V.map fun v => fin v.1) ∧ s.hypotheses = V.map Prod.snd ∧ V.length = t ∧
    (∀ v ∈ V, ν - 1 / 10 ^ 12 ≤ v.1 ∧ v.1 ≤ 4) ∧ (∀ v ∈ V, ∀ e ∈ S, ∃ c : ℝ, conf v.2 e.1 = fin c ∧ |c| ≤ 1) ∧
    0 < Z ∧ Z * Real.exp ((γ - ν) * (V.map fun v => v.1).sum) ≤ Real.exp (t * (7 / 10 ^ 6 - ν ^ 2 / 2)) ∧
    ∀ p ∈ Q, (1 / 2) ^ t * (1 / (2 * S.length)) ≤ p.2 ∧
      (1 - 3 / 10 ^ 7) ^ (t + 1) * Real.exp (-(V.map fun v => v.1 * marg v.2 p.1).sum) ≤ S.length * p.2 * Z

theorem target_step (L : Libm) {S : Examples X ℝ} (hS : ∀ e ∈ S, e.2 = 1 ∨ e.2 = -1) (hne : S ≠ []) (hn : S.length ≤ 10 ^ 5) {wl : WeakLearner F64 H}
    {ν g : ℝ} (hν : 1 / 100 ≤ ν) (hg : ν + 1 / 10 ^ 8 ≤ g) {M : Nat} (hM : M ≤ 900) {s₀ s : AdaBoostVF H} (hwl : AdaBoostVF.Fair L S wl s₀ g (95 / 100))
    {t : Nat} {r} (hI : TargetInv L S wl s₀ M ν g t s) (ht : t + 1 ≤ M) (hbo : AdaBoostVF.Boost L S s wl (t + 1) r) :
    ∃ s', r = .ok ⟨s', .cont, [s.dist]⟩ ∧ SoundWeights S.length s.dist ∧ TargetInv L S wl s₀ M ν g (t + 1) s' := by
  have het0 := eta_pos
  obtain ⟨hR, hD, hm, htol, Q, V, Zp, γ, hQ, hd, hx, hs, hγ, hγg, hγ1, hws, hhs, hVl, hVw, hVc, hZp, hZpB, hp⟩ := hI
  have hsound := sound_of hQ hx hs (hd ▸ hD)
  rw [← hd] at hsound
  have hedge := hwl.edge (t + 1) _ hR (by omega) hsound
  have hEeq : exactEdge S s.dist (wl (t + 1) s.dist) = (Q.map fun p => p.2 * (p.1.2 * (conf (wl (t + 1) s.dist) p.1.1).val)).sum := by
    rw [← exactEdge_eq hQ, ← hd]
  rw [hEeq] at hedge
  obtain ⟨γ', w, ρ, d, hγ'γ, hγ'g, hwlo, hw4, hr, hg', hgs, hZle⟩ := boostV_fin L hS hne hn (by omega) Q hQ hd hx hs
    (hwl.conf (t + 1) _ hR (by omega) hsound) hν hg htol hγ hγg hγ1 hedge.1 hedge.2 hbo
  set f := wl (t + 1) s.dist
  set Z := (Q.map fun p => p.2 * Real.exp (-(w * marg f p.1))).sum with hZ
  have hx0 : ∀ p ∈ Q, 0 < p.2 := fun p hp => by linarith [hx p hp]
  have hQne : Q ≠ [] := by rintro rfl; apply hne; rw [← hQ]; rfl
  have hZ0 : 0 < Z := by
    rw [hZ]
    apply List.sum_pos
    · simp only [List.mem_map]; rintro _ ⟨p, hp, rfl⟩; exact mul_pos (hx0 p hp) (Real.exp_pos _)
    · simpa using hQne
  have hl1 : (1 : ℝ) ≤ S.length := by exact_mod_cast List.length_pos_iff.mpr hne
  have hl2 : (S.length : ℝ) ≤ 100000 := by exact_mod_cast (by omega : S.length ≤ 100000)
  have hw0 : 0 ≤ w := by linarith
  have hW0 : 0 ≤ (V.map fun v => v.1).sum := by
    apply List.sum_nonneg
    simp only [List.mem_map]
    rintro _ ⟨v, hv, rfl⟩
    linarith [(hVw v hv).1]
  -- every new weight
  have hkey : ∀ p ∈ Q, (1 - 3 / 10 ^ 7) * (p.2 * Real.exp (-(w * marg f p.1)) / Z) ≤ d p ∧ p.2 / 2 ≤ d p := by
    intro p hpQ
    obtain ⟨-, h1, h2⟩ := hg' p hpQ
    have h3 := (abs_le.mp h2).1
    have hlow := (hp p hpQ).1
    have hetap : eta ≤ 1 / 10 ^ 9 * (p.2 / (19996 / 10000)) := by
      have h4 : (1 / 2 : ℝ) ^ 900 * (1 / (2 * 100000)) ≤ p.2 := by
        refine le_trans ?_ hlow
        have h5 : (1 / 2 : ℝ) ^ 900 ≤ (1 / 2) ^ t := pow_le_pow_of_le_one (by norm_num) (by norm_num) (by omega)
        have h6 : 1 / (2 * 100000) ≤ 1 / (2 * (S.length : ℝ)) := one_div_le_one_div_of_le (by linarith) (by linarith)
        exact mul_le_mul h5 h6 (by norm_num) (by positivity)
      have h7 := eta_le_pow
      have h8 : (0 : ℝ) < (1 / 2) ^ 900 := by positivity
      generalize ((1 : ℝ) / 2) ^ 900 = a at *
      linarith
    generalize p.2 * Real.exp (-(w * marg f p.1)) / Z = q at *
    constructor <;> linarith
  refine ⟨_, hr, hsound, .next hR (hr ▸ hbo) rfl, boostV_double (hr ▸ hbo) rfl, hm, htol, Q.map (fun p => (p.1, d p)), V ++ [(w, f)], Zp * Z, γ', ?_, ?_, ?_, ?_,
    rfl, hγ'g, hγ'γ.trans hγ1, ?_, ?_, ?_, ?_, ?_, mul_pos hZp hZ0, ?_, ?_⟩
  · rw [List.map_map, ← hQ]; rfl
  · simp only [List.map_map]; rfl
  · simp only [List.mem_map]; rintro _ ⟨p, hp, rfl⟩; exact (hg' p hp).1
  · rw [List.map_map]; exact hgs
  · simp [hws]
  · simp [hhs]
  · simp [hVl]
  · simp only [List.mem_append, List.mem_singleton]
    rintro v (hv | rfl)
    · exact hVw v hv
    · exact ⟨hwlo, hw4⟩
  · simp only [List.mem_append, List.mem_singleton]
    rintro v (hv | rfl)
    · exact hVc v hv
    · exact hwl.conf (t + 1) _ hR (by omega) hsound
  · rw [List.map_append, List.sum_append, List.map_singleton, List.sum_singleton, mul_add, Real.exp_add]
    have h1 : Real.exp ((γ' - ν) * (V.map fun v => v.1).sum) ≤ Real.exp ((γ - ν) * (V.map fun v => v.1).sum) :=
      Real.exp_le_exp.mpr (mul_le_mul_of_nonneg_right (by linarith) hW0)
    have h2 := (mul_le_mul_of_nonneg_left h1 hZp.le).trans hZpB
    have h3 := mul_le_mul h2 hZle (mul_nonneg hZ0.le (Real.exp_pos _).le) (Real.exp_pos _).le
    rw [← Real.exp_add] at h3
    push_cast
    calc _ = Zp * Real.exp ((γ' - ν) * (V.map fun v => v.1).sum) * (Z * Real.exp ((γ' - ν) * w)) := by ring
      _ ≤ _ := h3
      _ = _ := by congr 1; ring
  · simp only [List.mem_map]
    rintro _ ⟨p, hpQ, rfl⟩
    obtain ⟨h1, h2⟩ := hp p hpQ
    obtain ⟨h3, h4⟩ := hkey p hpQ
    refine ⟨?_, ?_⟩
    · rw [pow_succ]
      show (1 / 2 : ℝ) ^ t * (1 / 2) * (1 / (2 * S.length)) ≤ d p
      linarith
    · show (1 - 3 / 10 ^ 7 : ℝ) ^ (t + 1 + 1) * Real.exp (-((V ++ [(w, f)]).map fun v => v.1 * marg v.2 p.1).sum) ≤ S.length * d p * (Zp * Z)
      rw [List.map_append, List.sum_append, List.map_singleton, List.sum_singleton, neg_add, Real.exp_add]
      have hE := Real.exp_pos (-(w * marg f p.1))
      calc (1 - 3 / 10 ^ 7 : ℝ) ^ (t + 1 + 1) * (Real.exp (-(V.map fun v => v.1 * marg v.2 p.1).sum) * Real.exp (-(w * marg f p.1)))
          = (1 - 3 / 10 ^ 7) * Real.exp (-(w * marg f p.1)) *
              ((1 - 3 / 10 ^ 7 : ℝ) ^ (t + 1) * Real.exp (-(V.map fun v => v.1 * marg v.2 p.1).sum)) := by rw [pow_succ]; ring
        _ ≤ (1 - 3 / 10 ^ 7) * Real.exp (-(w * marg f p.1)) * (S.length * p.2 * Zp) := by
            apply mul_le_mul_of_nonneg_left h2 (mul_nonneg (by norm_num) hE.le)
        _ = S.length * Zp * Z * ((1 - 3 / 10 ^ 7) * (p.2 * Real.exp (-(w * marg f p.1)) / Z)) := by field_simp
        _ ≤ S.length * Zp * Z * d p := by
            apply mul_le_mul_of_nonneg_left h3 (by positivity)
        _ = _ := by ring

/-- The invariant holds at the start. -/
theorem target_start {L : Libm} {S : Examples X ℝ} {wl : WeakLearner F64 H} {s s₀ : AdaBoostVF H} (hp : AdaBoostVF.preprocess L S s = .ok s₀) (hne : S ≠ [])
    (hn : S.length ≤ 10 ^ 5) {ν g : ℝ} (htol : s.tolerance = fin ν) (hg1 : g ≤ 1) :
    TargetInv L S wl s (AdaBoostVF.limit L S s) ν g 0 s₀ := by
  have hR : AdaBoostVF.Reach L S wl s 1 s₀ := .start hp
  unfold AdaBoostVF.preprocess at hp
  split at hp
  · cases hp
  · rename_i hcb
    cases hp
    obtain ⟨t₀, ht₀⟩ := preprocess_error (s := AdaBoostF.init (H := H) S) hcb
    have hdist : t₀.dist = List.replicate S.length (div (fin 1) (fin S.length)) := by
      unfold AdaBoostF.preprocess at ht₀
      rw [hcb] at ht₀
      cases ht₀
      rfl
    obtain ⟨x₀, hx₀, hd, hx, hs, -⟩ := float_preprocess ht₀ hne hn
    have hl1 : (1 : ℝ) ≤ S.length := by exact_mod_cast List.length_pos_iff.mpr hne
    have hl2 : (S.length : ℝ) ≤ 100000 := by exact_mod_cast (by omega : S.length ≤ 100000)
    have hu := u_small
    have het := eta_tiny
    have het0 := eta_pos
    refine ⟨hR, by rw [← hdist]; exact preprocess_double ht₀, rfl, htol, S.map (fun e => (e, x₀)), [], 1, 1, by rw [List.map_map]; exact List.map_id _,
      by rw [← hdist]; exact hd, by simp only [List.mem_map]; rintro _ ⟨e, -, rfl⟩; exact hx, hs, rfl, by linarith, le_rfl, rfl, rfl, rfl, by simp, by simp, one_pos,
      by simp, ?_⟩
    simp only [List.mem_map]
    rintro _ ⟨e, -, rfl⟩
    have hq := abs_le.mp hx₀
    have hle : (S.length : ℝ) * eta ≤ 100000 * (1 / 10 ^ 60) := by gcongr
    have hdp : 0 < 1 / (S.length : ℝ) := by positivity
    have hd2 : 1 / 100000 ≤ 1 / (S.length : ℝ) := one_div_le_one_div_of_le (by linarith) hl2
    have h2 : 1 / (2 * (S.length : ℝ)) = 1 / 2 * (1 / S.length) := by field_simp
    have h3 : (1 - u) * (1 / S.length) - eta ≤ x₀ := by linarith
    constructor
    · simp only [pow_zero, one_mul]
      rw [h2]
      nlinarith
    · simp only [zero_add, pow_one, List.map_nil, List.sum_nil, neg_zero, Real.exp_zero, mul_one]
      have h4 : (S.length : ℝ) * ((1 - u) * (1 / S.length) - eta) ≤ S.length * x₀ := by gcongr
      have h5 : (S.length : ℝ) * ((1 - u) * (1 / S.length) - eta) = 1 - u - S.length * eta := by field_simp
      linarith

/-- The arithmetic of the margin. -/
theorem margin_arith {W z T ν g σ B yA yF δ : ℝ} (hT : 1 ≤ T) (hν : 1 / 100 ≤ ν) (hν1 : ν ≤ 1) (hg0 : ν ≤ g) (hg : g ≤ 1) (hz : |z - W| ≤ 1 / 10 ^ 8)
    (hW1 : T * (ν - 1 / 10 ^ 12) ≤ W) (hW4 : W ≤ T * 4) (hσ : g - 1 / 10 ^ 9 - ν ≤ σ) (hδ : 0 ≤ δ) (hδ2 : δ ≤ 2 * (T * ν))
    (hB : σ * W - δ - 8 / 10 ^ 6 * T ≤ B) (hA : |yA - B| ≤ 1 / 10 ^ 11) (hF : |yF - yA / z| ≤ 1 / 10 ^ 11) :
    g - ν - δ / (T * ν) - 1 / 10 ^ 5 / ν ≤ yF := by
  have hz' := abs_le.mp hz
  have hA' := abs_le.mp hA
  have hF' := abs_le.mp hF
  have hTν : 1 / 100 ≤ T * ν := by nlinarith
  have hW0 : 0 < W := by nlinarith
  have hz0 : 0 < z := by nlinarith
  set a := δ / (T * ν) with ha
  set c := 1 / 10 ^ 5 / ν with hc
  have haT : a * (T * ν) = δ := by rw [ha]; field_simp
  have hcν : c * ν = 1 / 10 ^ 5 := by rw [hc]; field_simp
  have ha0 : 0 ≤ a := by rw [ha]; positivity
  have ha2 : a ≤ 2 := by rw [ha, div_le_iff₀ (by linarith)]; exact hδ2
  have hc0 : 0 ≤ c := by rw [hc]; positivity
  have hc1 : c ≤ 1 / 10 ^ 3 := by rw [hc, div_le_iff₀ (by linarith)]; linarith
  set b := g - ν - a - c + 1 / 10 ^ 11 with hb
  have hbabs : |b| ≤ 4 := by rw [abs_le]; constructor <;> linarith
  have hbz : z * b ≤ W * b + 4 / 10 ^ 8 := by
    have h1 : (z - W) * b ≤ |z - W| * |b| := by rw [← abs_mul]; exact le_abs_self _
    have h2 : |z - W| * |b| ≤ 1 / 10 ^ 8 * 4 := mul_le_mul hz hbabs (abs_nonneg _) (by norm_num)
    linarith
  have hWa : δ - 1 / 10 ^ 9 * T ≤ W * a := by
    have h1 : T * (ν - 1 / 10 ^ 12) * a ≤ W * a := mul_le_mul_of_nonneg_right hW1 ha0
    have h2 : T * a ≤ T * 2 := mul_le_mul_of_nonneg_left ha2 (by linarith)
    have h3 : T * (ν - 1 / 10 ^ 12) * a = a * (T * ν) - 1 / 10 ^ 12 * (T * a) := by ring
    rw [h3, haT] at h1
    linarith
  have hWc : 1 / 10 ^ 5 * T - 1 / 10 ^ 9 * T ≤ W * c := by
    have h1 : T * (ν - 1 / 10 ^ 12) * c ≤ W * c := mul_le_mul_of_nonneg_right hW1 hc0
    have h2 : T * c ≤ T * (1 / 10 ^ 3) := mul_le_mul_of_nonneg_left hc1 (by linarith)
    have h3 : T * (ν - 1 / 10 ^ 12) * c = T * (c * ν) - 1 / 10 ^ 12 * (T * c) := by ring
    rw [h3, hcν] at h1
    linarith
  have hσW : (g - ν) * W - 4 / 10 ^ 9 * T ≤ σ * W := by
    have h1 : (g - 1 / 10 ^ 9 - ν) * W ≤ σ * W := mul_le_mul_of_nonneg_right hσ hW0.le
    linarith
  have hWb : W * b = (g - ν) * W - W * a - W * c + W * (1 / 10 ^ 11) := by rw [hb]; ring
  have hfin : z * b ≤ yA := by linarith
  have hdiv : b ≤ yA / z := by rw [le_div_iff₀ hz0]; linarith
  linarith

/-- C112: the margins of AdaBoostV in `f64`.  Up to `100000` examples with labels `±1`, up to `900` rounds, a tolerance `ν ≥ 0.01` and a learner whose hypotheses
answer in `[-1, 1]` and have edges in `[g, 0.95]`, where `g ≥ ν + 10⁻⁸`: in every schedule and with every `exp` and `ln` that are accurate to `2⁻⁵⁰`, all the weights
the learner sees are sound, `run` returns a vote after exactly as many calls of the learner as there are rounds, and the vote's confidence, as it is computed, has
a margin of at least `g - ν - 10⁻⁵/ν` on every example, less `(ln m - T ν²/2)/(T ν)` when there are fewer than `2 ln(m)/ν²` rounds. -/
theorem adaboostv_f64_margin (L : Libm) (S : Examples X ℝ) (hS : ∀ e ∈ S, e.2 = 1 ∨ e.2 = -1) (hn : S.length ≤ 10 ^ 5) (hb : checkBinary S = .ok ())
    (wl : WeakLearner F64 H) (s : AdaBoostVF H) (ν g : ℝ) (htol : s.tolerance = fin ν) (hν : 1 / 100 ≤ ν) (hg : ν + 1 / 10 ^ 8 ≤ g) (hg1 : g ≤ 95 / 100)
    (hwl : AdaBoostVF.Fair L S wl s g (95 / 100)) (hT1 : 1 ≤ AdaBoostVF.limit L S s) (hT : AdaBoostVF.limit L S s ≤ 900) {r}
    (h : (AdaBoostVF.booster L S).Runs wl s r) :
    ∃ f qs, r = .ok (f, qs) ∧ qs.length = AdaBoostVF.limit L S s ∧ (∀ d ∈ qs, SoundWeights S.length d) ∧
      ∀ e ∈ S, ∃ c : ℝ, F64.weightedConf f e.1 = fin c ∧
        g - ν - max (Real.log S.length - AdaBoostVF.limit L S s * (ν ^ 2 / 2)) 0 / (AdaBoostVF.limit L S s * ν) - 1 / 10 ^ 5 / ν ≤ e.2 * c := by
  have hne : S ≠ [] := checkBinary_ne_nil hb
  have hu := u_small
  have hu0 := u_pos
  have hl1 : (1 : ℝ) ≤ S.length := by exact_mod_cast List.length_pos_iff.mpr hne
  set T := AdaBoostVF.limit L S s with hTdef
  have hTr1 : (1 : ℝ) ≤ T := by exact_mod_cast hT1
  have hTr2 : (T : ℝ) ≤ 900 := by exact_mod_cast hT
  have main : ∀ {s₀ r}, AdaBoostVF.preprocess L S s = .ok s₀ → (AdaBoostVF.booster L S).Loop wl s₀ 1 r →
      ∃ s' qs, r = .ok (s', qs) ∧ (∀ d ∈ qs, SoundWeights S.length d) ∧ TargetInv L S wl s T ν g T s' ∧ qs.length = T := by
    intro s₀ r hp hl
    obtain ⟨s', qs, h1, h2, ⟨t, ht, hI⟩, h4⟩ := (AdaBoostVF.booster L S).loop_inv wl (fun it st => ∃ t, it = t + 1 ∧ TargetInv L S wl s T ν g t st)
      (SoundWeights S.length) T
      (by
        rintro st it r ⟨t, rfl, hI⟩ hit hbo
        obtain ⟨s', h1, h2, h3⟩ := target_step L hS hne hn hν hg hT hwl hI hit hbo
        exact ⟨s', _, h1, h2, t + 1, rfl, h3⟩)
      (by
        rintro st r ⟨t, ht, hI⟩ hbo
        change AdaBoostVF.Boost L S st wl (T + 1) r at hbo
        unfold AdaBoostVF.Boost at hbo
        rw [hI.2.2.1, if_pos (by omega)] at hbo
        exact hbo) hl ⟨0, rfl, target_start hp hne hn htol (by linarith)⟩ (by omega)
    have : t = T := by omega
    subst this
    exact ⟨s', qs, h1, h2, hI, by omega⟩
  -- the vote
  have vote : ∀ {s' : AdaBoostVF H}, TargetInv L S wl s T ν g T s' → ∃ f, F64.fromSlices s'.weights s'.hypotheses = .ok f ∧
      ∀ e ∈ S, ∃ c : ℝ, F64.weightedConf f e.1 = fin c ∧
        g - ν - max (Real.log S.length - T * (ν ^ 2 / 2)) 0 / (T * ν) - 1 / 10 ^ 5 / ν ≤ e.2 * c := by
    rintro s' ⟨-, -, -, -, Q, V, Z, γ, hQ, -, hx, hs, -, hγg, hγ1, hws, hhs, hVl, hVw, hVc, hZ0, hZB, hp⟩
    have hVne : V ≠ [] := by rintro rfl; simp at hVl; omega
    obtain ⟨z, hz0, hz1, hzW, f, hf, hvote⟩ := vote_fin (X := X) V hVne (by omega) fun v hv => ⟨by linarith [(hVw v hv).1], (hVw v hv).2⟩
    refine ⟨f, by rw [hws, hhs]; exact hf, fun e he => ?_⟩
    obtain ⟨p, hpQ, rfl⟩ : ∃ p ∈ Q, p.1 = e := by rw [← hQ, List.mem_map] at he; exact he
    obtain ⟨F, hF, hFe⟩ := hvote p.1.1 fun v hv => hVc v hv p.1 he
    refine ⟨F, hF, ?_⟩
    set A := (V.map fun v => v.1 * (conf v.2 p.1.1).val).sum with hA
    set W := (V.map fun v => v.1).sum with hW
    set B := (V.map fun v => v.1 * marg v.2 p.1).sum with hB
    have hVlen : (V.length : ℝ) = T := by rw [hVl]
    have hW1 : T * (ν - 1 / 10 ^ 12) ≤ W := by rw [← hVlen]; exact const_le_sum V _ _ fun v hv => (hVw v hv).1
    have hW4 : W ≤ T * 4 := by rw [← hVlen]; exact sum_le_const V _ _ fun v hv => (hVw v hv).2
    have hy := hS p.1 he
    have hy1 : |p.1.2| = 1 := by rcases hy with h | h <;> simp [h]
    have hyA2 : p.1.2 * A = (V.map fun v => v.1 * (p.1.2 * (conf v.2 p.1.1).val)).sum := by
      rw [hA, ← List.sum_map_mul_left]
      congr 1
      apply List.map_congr_left
      intro v _
      ring
    have hcl := sum_close V (fun v => v.1 * (p.1.2 * (conf v.2 p.1.1).val)) (fun v => v.1 * marg v.2 p.1) (fun _ => 8 * u) (by
      intro v hv
      obtain ⟨c, hc, hc1⟩ := hVc v hv p.1 he
      have h1 := (marg_le (h := v.2) hy hc hc1).2.2
      obtain ⟨h2, h3⟩ := hVw v hv
      rw [hc, ← mul_sub, abs_mul, abs_of_nonneg (by linarith), abs_sub_comm]
      show v.1 * |marg v.2 p.1 - p.1.2 * c| ≤ 8 * u
      nlinarith [abs_nonneg (marg v.2 p.1 - p.1.2 * c)])
    rw [← hyA2, ← hB] at hcl
    have hlen : (V.map fun _ : ℝ × H => 8 * u).sum ≤ 900 * (8 * u) := by
      refine (sum_le_const V _ (8 * u) fun _ _ => le_rfl).trans ?_
      rw [hVlen]
      gcongr
    have hAB : |p.1.2 * A - B| ≤ 1 / 10 ^ 11 := by linarith
    have hyF : |p.1.2 * F - p.1.2 * A / z| ≤ 1 / 10 ^ 11 := by
      rw [mul_div_assoc, ← mul_sub, abs_mul, hy1, one_mul]; exact hFe
    -- the potential
    have hp2 : p.2 ≤ 1 + 25 / 10 ^ 8 := by
      have : p.2 ≤ (Q.map Prod.snd).sum := List.single_le_sum (by
        simp only [List.mem_map]; rintro _ ⟨a, ha, rfl⟩; linarith [hx a ha, eta_pos]) _ (List.mem_map_of_mem hpQ)
      linarith [(abs_le.mp hs).2]
    have hp0 : 0 < p.2 := by linarith [hx p hpQ, eta_pos]
    have hBlo : (γ - ν) * W - (Real.log S.length - T * (ν ^ 2 / 2)) - 8 / 10 ^ 6 * T ≤ B := by
      have h1 := (hp p hpQ).2
      have h2 := Real.log_le_log (mul_pos (by positivity) (Real.exp_pos _)) h1
      rw [Real.log_mul (by positivity) (Real.exp_pos _).ne', Real.log_exp, Real.log_pow, Real.log_mul (by positivity) hZ0.ne', Real.log_mul (by positivity) hp0.ne'] at h2
      have h3 := Real.log_le_log (mul_pos hZ0 (Real.exp_pos _)) hZB
      rw [Real.log_mul hZ0.ne' (Real.exp_pos _).ne', Real.log_exp, Real.log_exp] at h3
      have h4 : Real.log p.2 ≤ 25 / 10 ^ 8 := by have := Real.log_le_sub_one_of_pos hp0; linarith
      have h5 : -(31 / 10 ^ 8) ≤ Real.log (1 - 3 / 10 ^ 7) := by
        have := Real.one_sub_inv_le_log_of_pos (show (0 : ℝ) < 1 - 3 / 10 ^ 7 by norm_num)
        refine le_trans ?_ this
        norm_num
      have h6 : ((T + 1 : ℕ) : ℝ) * -(31 / 10 ^ 8) ≤ ((T + 1 : ℕ) : ℝ) * Real.log (1 - 3 / 10 ^ 7) := mul_le_mul_of_nonneg_left h5 (by positivity)
      push_cast at h2 h6
      linarith
    have hδ := le_max_left (Real.log S.length - T * (ν ^ 2 / 2)) 0
    have hδ0 := le_max_right (Real.log S.length - T * (ν ^ 2 / 2)) 0
    generalize max (Real.log S.length - T * (ν ^ 2 / 2)) 0 = δ at *
    have hν1 : ν ≤ 1 := by linarith
    have hTν : 1 / 100 ≤ T * ν := by nlinarith
    rcases le_total δ (2 * (T * ν)) with hc | hc
    · exact margin_arith hTr1 hν hν1 (by linarith) (by linarith) hzW hW1 hW4 (σ := γ - ν) (by linarith) hδ0 hc (by linarith) hAB hyF
    · have h1 : 2 ≤ δ / (T * ν) := by rw [le_div_iff₀ (by linarith)]; exact hc
      have h2 : 0 ≤ 1 / 10 ^ 5 / ν := by positivity
      have hzW' := abs_le.mp hzW
      have h3 : |A| ≤ W := by
        have := sum_close V (fun v => v.1 * (conf v.2 p.1.1).val) (fun _ => 0) (fun v => v.1) (by
          intro v hv
          obtain ⟨c, hc, hc1⟩ := hVc v hv p.1 he
          rw [hc, sub_zero, abs_mul, abs_of_nonneg (by linarith [(hVw v hv).1])]
          exact mul_le_of_le_one_right (by linarith [(hVw v hv).1]) hc1)
        simpa using this
      have h4 : 1 / 200 ≤ W := by nlinarith
      have h5 : -(101 / 100) ≤ p.1.2 * A / z := by
        rw [le_div_iff₀ hz0]
        have : |p.1.2 * A| ≤ W := by rw [abs_mul, hy1, one_mul]; exact h3
        linarith [(abs_le.mp this).1]
      linarith [(abs_le.mp hyF).1]
  cases h with
  | pre h =>
    change AdaBoostVF.preprocess L S s = _ at h
    unfold AdaBoostVF.preprocess at h
    rw [hb] at h
    cases h
  | loop h hl => obtain ⟨_, _, h', -⟩ := main h hl; cases h'
  | post h hl hp =>
    obtain ⟨_, _, h', h1, hI, h2⟩ := main h hl
    cases h'
    obtain ⟨f, hf, -⟩ := vote hI
    rw [show (AdaBoostVF.booster L S).postprocess _ = F64.fromSlices _ _ from rfl, hf] at hp
    cases hp
  | ok h hl hp =>
    obtain ⟨_, _, h', h1, hI, h2⟩ := main h hl
    cases h'
    obtain ⟨f, hf, hm⟩ := vote hI
    rw [show (AdaBoostVF.booster L S).postprocess _ = F64.fromSlices _ _ from rfl, hf] at hp
    cases hp
    exact ⟨_, _, rfl, h2, h1, hm⟩

/-- The limit that the code computes, up to rounding. -/
theorem maxLoop_fin (L : Libm) {S : Examples X ℝ} {s : AdaBoostVF H} {ν : ℝ} (hne : S ≠ []) (hn : S.length ≤ 10 ^ 5) (htol : s.tolerance = fin ν)
    (hν : 1 / 100 ≤ ν) (hν1 : ν ≤ 1) :
    ∃ x q y : ℝ, AdaBoostVF.maxLoop L S s = min ⌊x⌋₊ (2 ^ 64 - 1) ∧ |q - ν ^ 2| ≤ 2 * u ∧ |y - 2 * Real.log S.length| ≤ 300 * u ∧ |x - y / q| ≤ 10 ^ 6 * u := by
  have hu := u_small
  have hu0 := u_pos
  have het : eta ≤ u / 10 ^ 3 := by
    have h1 := eta_le_aux
    have h2 : u * u * u * u ≤ 1 / 10 ^ 3 * 1 * 1 * u := by gcongr <;> linarith
    linarith
  have hl1 : (1 : ℝ) ≤ S.length := by exact_mod_cast List.length_pos_iff.mpr hne
  have hl2 : (S.length : ℝ) ≤ 100000 := by exact_mod_cast (by omega : S.length ≤ 100000)
  have hlog0 : 0 ≤ Real.log S.length := Real.log_nonneg hl1
  have hlog : Real.log S.length ≤ 12 := by
    rw [Real.log_le_iff_le_exp (by linarith)]
    have h1 : (2.7 : ℝ) ^ 12 ≤ Real.exp 1 ^ 12 := by gcongr; linarith [Real.exp_one_gt_d9]
    rw [← Real.exp_nat_mul] at h1
    norm_num at h1 ⊢
    linarith
  obtain ⟨y1, hy1, he1⟩ := ln_fin L (x := S.length) (by linarith) (by rw [abs_of_nonneg hlog0]; linarith)
  rw [abs_of_nonneg hlog0] at he1
  have he1' : |y1 - Real.log S.length| ≤ 121 * u := by nlinarith
  have h1 := abs_le.mp he1'
  obtain ⟨y2, hy2, he2⟩ := mul_fin (a := 2) (b := y1) 30 (by norm_num) (by rw [abs_le]; constructor <;> linarith)
  obtain ⟨q, hq, heq⟩ := mul_fin (a := ν) (b := ν) 1 (by norm_num) (by rw [abs_le]; constructor <;> nlinarith)
  have h2 := abs_le.mp he2
  have h3 := abs_le.mp heq
  have hν2 : 1 / 10000 ≤ ν * ν := by nlinarith
  have hq0 : 1 / 20000 ≤ q := by linarith
  obtain ⟨x, hx, hex⟩ := div_fin (a := y2) (b := q) 600000 (by norm_num) (by linarith) (by
    rw [abs_div, abs_of_pos (by linarith : 0 < q), div_le_iff₀ (by linarith), abs_le]; constructor <;> linarith)
  refine ⟨x, q, y2, ?_, ?_, ?_, ?_⟩
  · unfold AdaBoostVF.maxLoop F64.sq
    rw [htol, hy1, hy2, hq, hx, F64.asUsize]
  · rw [_root_.sq]; linarith
  · rw [abs_le]; constructor <;> linarith
  · linarith

theorem log_le_limit (L : Libm) {S : Examples X ℝ} {s : AdaBoostVF H} {ν : ℝ} (hne : S ≠ []) (hn : S.length ≤ 10 ^ 5) (htol : s.tolerance = fin ν)
    (hν : 1 / 100 ≤ ν) (hν1 : ν ≤ 1) (hT : AdaBoostVF.maxLoop L S s ≤ 900) :
    Real.log S.length - (AdaBoostVF.maxLoop L S s : ℕ) * (ν ^ 2 / 2) ≤ ν ^ 2 / 2 + 1 / 10 ^ 9 := by
  obtain ⟨x, q, y, h1, h2, h3, h4⟩ := maxLoop_fin L (H := H) hne hn htol hν hν1
  have hu := u_small
  have hu0 := u_pos
  have hT' : ⌊x⌋₊ = AdaBoostVF.maxLoop L S s := by
    rw [h1] at hT ⊢
    rcases min_choice ⌊x⌋₊ (2 ^ 64 - 1) with h | h
    · exact h.symm
    · rw [h] at hT; norm_num at hT
  have hx := Nat.lt_floor_add_one x
  rw [hT'] at hx
  have hTr : ((AdaBoostVF.maxLoop L S s : ℕ) : ℝ) ≤ 900 := by exact_mod_cast hT
  have hT0 : (0 : ℝ) ≤ (AdaBoostVF.maxLoop L S s : ℕ) := Nat.cast_nonneg _
  generalize ((AdaBoostVF.maxLoop L S s : ℕ) : ℝ) = T at *
  rw [abs_le] at h2 h3 h4
  have hν2 : 1 / 10000 ≤ ν ^ 2 := by nlinarith
  have hν3 : ν ^ 2 ≤ 1 := by nlinarith
  have hq0 : 0 < q := by linarith
  have h5 : y / q ≤ T + 1 + 10 ^ 6 * u := by linarith
  rw [div_le_iff₀ hq0] at h5
  have h6 : (T + 1 + 10 ^ 6 * u) * q ≤ (T + 1) * ν ^ 2 + 10 ^ 6 * u * 2 + 901 * (2 * u) := by
    nlinarith
  linarith

/-- C112: with the number of rounds that AdaBoostV computes for itself, `2 ln(m)/ν²` rounded down, the margin is at least `g - ν - ν/(2T) - 2·10⁻⁵/ν`. -/
theorem adaboostv_f64_limit (L : Libm) (S : Examples X ℝ) (hS : ∀ e ∈ S, e.2 = 1 ∨ e.2 = -1) (hn : S.length ≤ 10 ^ 5) (hb : checkBinary S = .ok ())
    (wl : WeakLearner F64 H) (s : AdaBoostVF H) (ν g : ℝ) (htol : s.tolerance = fin ν) (hν : 1 / 100 ≤ ν) (hg : ν + 1 / 10 ^ 8 ≤ g) (hg1 : g ≤ 95 / 100)
    (hwl : AdaBoostVF.Fair L S wl s g (95 / 100)) (hq : s.forceQuitAt = none) (hT1 : 1 ≤ AdaBoostVF.maxLoop L S s) (hT : AdaBoostVF.maxLoop L S s ≤ 900) {r}
    (h : (AdaBoostVF.booster L S).Runs wl s r) :
    ∃ f qs, r = .ok (f, qs) ∧ qs.length = AdaBoostVF.maxLoop L S s ∧
      ∀ e ∈ S, ∃ c : ℝ, F64.weightedConf f e.1 = fin c ∧ g - ν - ν / (2 * AdaBoostVF.maxLoop L S s) - 2 / 10 ^ 5 / ν ≤ e.2 * c := by
  have hne : S ≠ [] := checkBinary_ne_nil hb
  have hlim : AdaBoostVF.limit L S s = AdaBoostVF.maxLoop L S s := by unfold AdaBoostVF.limit; rw [hq]
  obtain ⟨f, qs, h1, h2, -, h3⟩ := adaboostv_f64_margin L S hS hn hb wl s ν g htol hν hg hg1 hwl (by rwa [hlim]) (by rwa [hlim]) h
  rw [hlim] at h2 h3
  refine ⟨f, qs, h1, h2, fun e he => ?_⟩
  obtain ⟨c, hc, h4⟩ := h3 e he
  refine ⟨c, hc, le_trans ?_ h4⟩
  have hl := log_le_limit L hne hn htol hν (by linarith) hT
  have hT1' : (1 : ℝ) ≤ (AdaBoostVF.maxLoop L S s : ℕ) := by exact_mod_cast hT1
  generalize ((AdaBoostVF.maxLoop L S s : ℕ) : ℝ) = T at *
  have h5 : max (Real.log S.length - T * (ν ^ 2 / 2)) 0 ≤ ν ^ 2 / 2 + 1 / 10 ^ 9 := max_le (by linarith) (by positivity)
  have hTν : 0 < T * ν := by positivity
  have h6 : max (Real.log S.length - T * (ν ^ 2 / 2)) 0 / (T * ν) ≤ (ν ^ 2 / 2 + 1 / 10 ^ 9) / (T * ν) := by gcongr
  have h7 : (ν ^ 2 / 2 + 1 / 10 ^ 9) / (T * ν) = ν / (2 * T) + 1 / 10 ^ 9 / ν / T := by
    field_simp
  have h8 : 1 / 10 ^ 9 / ν / T ≤ 1 / 10 ^ 5 / ν := by
    rw [div_le_iff₀ (by linarith)]
    have : 0 < 1 / ν := by positivity
    have h9 : 1 / 10 ^ 9 / ν = 1 / 10 ^ 9 * (1 / ν) := by ring
    have h10 : 1 / 10 ^ 5 / ν * T = 1 / 10 ^ 5 * ((1 / ν) * T) := by ring
    rw [h9, h10]
    nlinarith
  have h11 : 2 / 10 ^ 5 / ν = 1 / 10 ^ 5 / ν + 1 / 10 ^ 5 / ν := by ring
  linarith

/-- C112: and then, as long as `g` is larger than `ν + ν/(2T) + 2·10⁻⁵/ν`, the vote as it is computed is right about every example. -/
theorem adaboostv_f64_separates (L : Libm) (S : Examples X ℝ) (hS : ∀ e ∈ S, e.2 = 1 ∨ e.2 = -1) (hn : S.length ≤ 10 ^ 5) (hb : checkBinary S = .ok ())
    (wl : WeakLearner F64 H) (s : AdaBoostVF H) (ν g : ℝ) (htol : s.tolerance = fin ν) (hν : 1 / 100 ≤ ν) (hg1 : g ≤ 95 / 100)
    (hwl : AdaBoostVF.Fair L S wl s g (95 / 100)) (hq : s.forceQuitAt = none) (hT1 : 1 ≤ AdaBoostVF.maxLoop L S s) (hT : AdaBoostVF.maxLoop L S s ≤ 900)
    (hg : ν + ν / (2 * AdaBoostVF.maxLoop L S s) + 2 / 10 ^ 5 / ν < g) {r} (h : (AdaBoostVF.booster L S).Runs wl s r) :
    ∃ f qs, r = .ok (f, qs) ∧ ∀ e ∈ S, (F64.predict f e.1 : ℝ) = e.2 := by
  have h0 : 0 ≤ ν / (2 * (AdaBoostVF.maxLoop L S s : ℕ) : ℝ) := by positivity
  have hν1 : ν ≤ 1 := by
    have : 0 ≤ 2 / 10 ^ 5 / ν := by positivity
    linarith
  have hc : (1 : ℝ) / 10 ^ 8 ≤ 2 / 10 ^ 5 / ν := by rw [le_div_iff₀ (by linarith)]; linarith
  obtain ⟨f, qs, h1, -, h3⟩ := adaboostv_f64_limit L S hS hn hb wl s ν g htol hν (by linarith) hg1 hwl hq hT1 hT h
  refine ⟨f, qs, h1, fun e he => ?_⟩
  obtain ⟨c, hc, h4⟩ := h3 e he
  have h5 : 0 < e.2 * c := by linarith
  unfold F64.predict
  rw [hc]
  rcases hS e he with h6 | h6
  · rw [if_pos (by simp only [F64.Le]; rw [h6] at h5; linarith), h6]; simp
  · rw [if_neg (by simp only [F64.Le]; rw [h6] at h5; linarith), h6]; simp

/-- Every call of `boost` has a result. -/
theorem exists_boostV (L : Libm) (S : Examples X ℝ) (s : AdaBoostVF H) (wl : WeakLearner F64 H) (it : Nat) :
    ∃ r, AdaBoostVF.Boost L S s wl it r ∧ ∀ out, r = .ok out → out.state.maxIter = s.maxIter ∧ (s.maxIter < it → out.flow = .brk s.maxIter) := by
  unfold AdaBoostVF.Boost
  by_cases hi : s.maxIter < it
  · simp only [if_pos hi]
    exact ⟨_, rfl, by rintro _ ⟨⟩; exact ⟨rfl, fun _ => rfl⟩⟩
  · simp only [if_neg hi]
    obtain ⟨e, he⟩ : ∃ e, Inner (F64.margins S (wl it s.dist)) s.dist e := ⟨_, .seq _, rfl, rfl⟩
    by_cases h : F64.Le (fin 1) e.abs
    · exact ⟨_, ⟨e, he, Or.inl ⟨h, rfl⟩⟩, by rintro _ ⟨⟩; exact ⟨rfl, fun hc => by omega⟩⟩
    · obtain ⟨d, hd⟩ := exists_reweight L s.dist (F64.margins S (wl it s.dist)) (AdaBoostVF.vote L e (sub (minNum e s.gamma) s.tolerance))
      refine ⟨_, ⟨e, he, Or.inr ⟨h, d, hd, rfl⟩⟩, ?_⟩
      cases d with
      | error e => rintro _ ⟨⟩
      | ok d => rintro _ ⟨⟩; exact ⟨rfl, fun hc => by omega⟩

/-- Every call of `run` has a result, whatever the parameters. -/
theorem exists_runV (L : Libm) (S : Examples X ℝ) (wl : WeakLearner F64 H) (s : AdaBoostVF H) : ∃ r, (AdaBoostVF.booster L S).Runs wl s r := by
  have loop : ∀ (k : Nat) (s : AdaBoostVF H) (it : Nat), s.maxIter + 1 - it = k → ∃ r, (AdaBoostVF.booster L S).Loop wl s it r := by
    intro k
    induction k with
    | zero =>
      intro s it hk
      obtain ⟨r, hr, hr2⟩ := exists_boostV L S s wl it
      cases r with
      | error e => exact ⟨_, .panic hr⟩
      | ok out => exact ⟨_, .stop hr ((hr2 _ rfl).2 (by omega))⟩
    | succ k ih =>
      intro s it hk
      obtain ⟨r, hr, hr2⟩ := exists_boostV L S s wl it
      cases r with
      | error e => exact ⟨_, .panic hr⟩
      | ok out =>
        cases hf : out.flow with
        | brk n => exact ⟨_, .stop hr hf⟩
        | cont =>
          obtain ⟨r, h⟩ := ih out.state (it + 1) (by rw [(hr2 _ rfl).1]; omega)
          exact ⟨_, .next hr hf h⟩
  cases hp : AdaBoostVF.preprocess L S s with
  | error e => exact ⟨_, .pre hp⟩
  | ok s₀ =>
    obtain ⟨r, hr⟩ := loop _ s₀ 1 rfl
    cases r with
    | error e => exact ⟨_, .loop hp hr⟩
    | ok p =>
      cases ho : (AdaBoostVF.booster L S).postprocess p.1 with
      | error e => exact ⟨_, .post hp hr ho⟩
      | ok o => exact ⟨_, .ok hp hr ho⟩

/-- The learner of the example of C91 with a smaller upper bound. -/
theorem exUnsure_fair95 : FairLearner exTen (fun _ _ => exUnsure) (4 / 10) (95 / 100) := by
  refine ⟨exUnsure_fair.conf, fun it d hd => ⟨(exUnsure_fair.edge it d hd).1, ?_⟩⟩
  obtain ⟨xs, rfl, hl, -, hs, -⟩ := hd
  rw [exUnsure_edge hl]
  linarith [(abs_le.mp hs).2]

theorem exTen_rounds (L : Libm) : 60 ≤ AdaBoostVF.maxLoop L exTen ({ AdaBoostVF.init exTen with tolerance := fin (1 / 4) } : AdaBoostVF (Fn Nat F64)) ∧
    AdaBoostVF.maxLoop L exTen ({ AdaBoostVF.init exTen with tolerance := fin (1 / 4) } : AdaBoostVF (Fn Nat F64)) ≤ 900 := by
  obtain ⟨x, q, y, h1, h2, h3, h4⟩ := maxLoop_fin L (S := exTen) (s := ({ AdaBoostVF.init exTen with tolerance := fin (1 / 4) } : AdaBoostVF (Fn Nat F64)))
    (ν := 1 / 4) (by simp [exTen, List.range, List.range.loop]) (by simp [exTen]) rfl (by norm_num) (by norm_num)
  have hu := u_small
  have hu0 := u_pos
  have hl : (exTen.length : ℝ) = 10 := by simp [exTen]
  have hlo : (2 : ℝ) ≤ Real.log 10 := by
    rw [Real.le_log_iff_exp_le (by norm_num)]
    have h1 : Real.exp 1 ^ 2 ≤ (2.72 : ℝ) ^ 2 := by gcongr; linarith [Real.exp_one_lt_d9]
    rw [← Real.exp_nat_mul] at h1
    norm_num at h1 ⊢
    linarith
  have hhi : Real.log 10 ≤ 3 := by
    rw [Real.log_le_iff_le_exp (by norm_num)]
    have h1 : (2.7 : ℝ) ^ 3 ≤ Real.exp 1 ^ 3 := by gcongr; linarith [Real.exp_one_gt_d9]
    rw [← Real.exp_nat_mul] at h1
    norm_num at h1 ⊢
    linarith
  rw [hl] at h3
  rw [abs_le] at h2 h3 h4
  norm_num at h2
  have hq0 : 0 < q := by linarith
  have hy1 : 63 ≤ y / q := by rw [le_div_iff₀ hq0]; linarith
  have hy2 : y / q ≤ 200 := by rw [div_le_iff₀ hq0]; linarith
  have hx1 : 60 ≤ ⌊x⌋₊ := Nat.le_floor (by push_cast; linarith)
  have hx2 : ⌊x⌋₊ ≤ 900 := Nat.floor_le_of_le (by push_cast; linarith)
  rw [h1]
  omega

/-- The hypotheses are met: ten examples, a tolerance of one quarter, a learner with edges of one half, and the rounds that the code computes. -/
example (L : Libm) : ∃ r, (AdaBoostVF.booster L exTen).Runs (fun _ _ => exUnsure) { AdaBoostVF.init exTen with tolerance := fin (1 / 4) } r ∧
    ∃ f qs, r = .ok (f, qs) ∧ ∀ e ∈ exTen, (F64.predict f e.1 : ℝ) = e.2 := by
  obtain ⟨r, hr⟩ := exists_runV L exTen (fun _ _ => exUnsure) { AdaBoostVF.init exTen with tolerance := fin (1 / 4) }
  refine ⟨r, hr, ?_⟩
  obtain ⟨hT1, hT⟩ := exTen_rounds L
  refine adaboostv_f64_separates L exTen exTen_labels (by simp [exTen]) exTen_valid _ _ (1 / 4) (4 / 10) rfl (by norm_num) (by norm_num)
    (AdaBoostVF.Fair.of_learner exUnsure_fair95) rfl (by omega) hT ?_ hr
  have h : (60 : ℝ) ≤ (AdaBoostVF.maxLoop L exTen ({ AdaBoostVF.init exTen with tolerance := fin (1 / 4) } : AdaBoostVF (Fn Nat F64)) : ℕ) := by exact_mod_cast hT1
  generalize ((AdaBoostVF.maxLoop L exTen ({ AdaBoostVF.init exTen with tolerance := fin (1 / 4) } : AdaBoostVF (Fn Nat F64)) : ℕ) : ℝ) = T at *
  have : (1 / 4 : ℝ) / (2 * T) ≤ 1 / 480 := by rw [div_le_iff₀ (by linarith)]; linarith
  norm_num
  norm_num at this
  linarith

end Props

end Miniboosts
