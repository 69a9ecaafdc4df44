import Verif.Lemmas.FloatMadaRun
import Verif.Lemmas.FloatMono
import Verif.Lemmas.FloatSmooth
import Verif.Props.Rounding
import Verif.Spec.FloatMada

/-! # The rounds of MadaBoost in `f64` -/

namespace Miniboosts

open F64

variable {H X : Type*} [Classifier H X F64]

theorem stepOf_eq : stepOf = MadaBoost.betaOf := by
  funext γ
  unfold stepOf MadaBoost.betaOf
  rw [show 1 / 2 * (1 / 2 * (1 - γ)) = (1 - γ) / 4 by ring]

theorem madaScore_snoc (m : Nat) (V : List (ℝ × H)) (γ : ℝ) (h : H) (e : X × ℝ) :
    madaScore m (V ++ [(γ, h)]) e = madaScore m V e + stepOf γ * (e.2 * (conf h e.1).val) := by
  simp only [madaScore, List.map_append, List.sum_append, List.map_cons, List.map_nil, List.sum_cons, List.sum_nil, add_zero]
  ring

theorem MadaRounds.length {S : Examples X ℝ} {wl : WeakLearner F64 H} {qs : List (List F64)} {V : List (ℝ × H)} (h : MadaRounds S wl qs V) :
    qs.length = V.length := by
  induction h with
  | nil => rfl
  | snoc h _ _ _ ih => simp [ih]

theorem MadaRounds.weights {S : Examples X ℝ} {wl : WeakLearner F64 H} {qs : List (List F64)} {V : List (ℝ × H)} (h : MadaRounds S wl qs V) :
    ∀ q ∈ qs, CappedWeights S.length q := by
  induction h with
  | nil => simp
  | snoc h hc _ _ ih =>
    intro q hq
    rcases List.mem_append.mp hq with hq | hq
    · exact ih q hq
    · rw [List.mem_singleton.mp hq]; exact hc

namespace MadaBoostF

/-- Scores that are close give close weights. -/
theorem near_clipped {S : Examples X ℝ} (hne : S ≠ []) {a b : X × ℝ → ℝ} (h : ∀ e ∈ S, |a e - b e| ≤ 1 / 10 ^ 7) :
    ∀ e ∈ S, |Real.exp (min (a e) 1) / (S.map fun e => Real.exp (min (a e) 1)).sum - Real.exp (min (b e) 1) / (S.map fun e => Real.exp (min (b e) 1)).sum| ≤
      1 / 10 ^ 6 * (Real.exp (min (b e) 1) / (S.map fun e => Real.exp (min (b e) 1)).sum) := by
  have hx : ∀ e ∈ S, |Real.exp (min (a e) 1) - Real.exp (min (b e) 1)| ≤ 2 / 10 ^ 7 * Real.exp (min (b e) 1) := by
    intro e he
    have h1 : |min (a e) 1 - min (b e) 1| ≤ 1 / 10 ^ 7 := by
      refine (abs_min_sub_min_le_max _ _ _ _).trans ?_
      rw [sub_self, abs_zero, max_eq_left (abs_nonneg _)]
      exact h e he
    have h2 := exp_close (by norm_num) h1
    refine h2.trans (le_of_eq (by ring))
  set A := (S.map fun e => Real.exp (min (a e) 1)).sum with hA
  set B := (S.map fun e => Real.exp (min (b e) 1)).sum with hB
  have hAB : |A - B| ≤ 2 / 10 ^ 7 * B := by
    refine (sum_close S _ _ _ hx).trans (le_of_eq ?_)
    rw [List.sum_map_mul_left]
  have hB0 : 0 < B := by
    obtain ⟨e, he⟩ := List.exists_mem_of_ne_nil S hne
    exact lt_of_lt_of_le (Real.exp_pos (min (b e) 1)) (List.single_le_sum (by simp only [List.mem_map]; rintro _ ⟨e, -, rfl⟩; exact (Real.exp_pos _).le) _
      (List.mem_map_of_mem he))
  intro e he
  have h1 := abs_le.mp (hx e he)
  have h2 := abs_le.mp hAB
  have hy0 := Real.exp_pos (min (b e) 1)
  generalize Real.exp (min (a e) 1) = x at *
  generalize Real.exp (min (b e) 1) = y at *
  have hA0 : 0 < A := by linarith
  have hdiv : x / A = (x / y) / (A / B) * (y / B) := by field_simp
  rw [abs_le]
  constructor
  · rw [← sub_nonneg]
    have : x / A - y / B - -(1 / 10 ^ 6 * (y / B)) = (x * B - (1 - 1 / 10 ^ 6) * (y * A)) / (A * B) := by field_simp; ring
    rw [this]
    apply div_nonneg _ (by positivity)
    have e1 : y * (1 - 2 / 10 ^ 7) ≤ x := by linarith
    have e2 : A ≤ (1 + 2 / 10 ^ 7) * B := by linarith
    have e3 : y * (1 - 2 / 10 ^ 7) * B ≤ x * B := mul_le_mul_of_nonneg_right e1 hB0.le
    have e4 : y * A ≤ y * ((1 + 2 / 10 ^ 7) * B) := mul_le_mul_of_nonneg_left e2 hy0.le
    have e5 : 0 < y * B := by positivity
    nlinarith
  · rw [← sub_nonneg]
    have : 1 / 10 ^ 6 * (y / B) - (x / A - y / B) = ((1 + 1 / 10 ^ 6) * (y * A) - x * B) / (A * B) := by field_simp; ring
    rw [this]
    apply div_nonneg _ (by positivity)
    have e1 : x ≤ y * (1 + 2 / 10 ^ 7) := by linarith
    have e2 : (1 - 2 / 10 ^ 7) * B ≤ A := by linarith
    have e3 : x * B ≤ y * (1 + 2 / 10 ^ 7) * B := mul_le_mul_of_nonneg_right e1 hB0.le
    have e4 : y * ((1 - 2 / 10 ^ 7) * B) ≤ y * A := mul_le_mul_of_nonneg_left e2 hy0.le
    have e5 : 0 < y * B := by positivity
    nlinarith

/-- What holds before round `n + 1`. -/
structure Inv (L : Libm) (S : Examples X ℝ) (wl : WeakLearner F64 H) (lo : ℝ) (M n : Nat) (qs : List (List F64)) (V : List (ℝ × H)) (s : MadaBoostF H) : Prop where
  rounds : MadaRounds S wl qs V
  len : qs.length = n
  max : s.maxIter = M
  hyps : s.hypotheses = V.map Prod.snd
  votes : s.alphas = V.map fun v => alpha L (fin v.1)
  edges : ∀ v ∈ V, Rep v.1 ∧ v.1 < 1 ∧ lo - 1 / 10 ^ 9 ≤ v.1
  answers : ∀ v ∈ V, ∀ e ∈ S, ∃ c : ℝ, conf v.2 e.1 = fin c ∧ |c| ≤ 1
  betas : ∃ B : X × ℝ → ℝ, s.betas = S.map (fun e => fin (B e)) ∧ ∀ e ∈ S, |B e| ≤ 1 + 16 / 10 * n ∧ |B e - madaScore S.length V e| ≤ (n + 1) / 10 ^ 12

theorem inv_start {L : Libm} {S : Examples X ℝ} {wl : WeakLearner F64 H} {lo : ℝ} {s s₀ : MadaBoostF H} (h : preprocess S s = .ok s₀) (hne : S ≠ [])
    (hn : S.length ≤ 10 ^ 5) : Inv L S wl lo (madaLimitF S s) 0 [] [] s₀ := by
  unfold preprocess at h
  split at h
  · cases h
  cases h
  refine ⟨.nil, rfl, rfl, rfl, rfl, by simp, by simp, ?_⟩
  have hm1 : (1 : ℝ) ≤ S.length := by exact_mod_cast List.length_pos_iff.mpr hne
  have hu := u_small
  have hu0 := u_pos
  have het := eta_tiny
  have het0 := eta_pos
  have hle : |1 / (S.length : ℝ)| ≤ 1 := by rw [abs_of_pos (by positivity), div_le_one (by linarith)]; exact hm1
  have hd : F64.div (fin 1) (fin (S.length : ℝ)) = fin (F64.round (1 / S.length)) := by
    simp only [F64.div, if_neg (show (S.length : ℝ) ≠ 0 by linarith)]
    exact rnd_small (hle.trans (by norm_num))
  refine ⟨fun _ => F64.round (1 / S.length), ?_, fun e _ => ?_⟩
  · simp only [hd, List.map_const']
  · have h1 : |F64.round (1 / (S.length : ℝ)) - 1 / S.length| ≤ u * |1 / (S.length : ℝ)| + eta := round_err _
    have h2 : u * |1 / (S.length : ℝ)| ≤ u * 1 := by gcongr
    have h3 : |F64.round (1 / (S.length : ℝ))| ≤ 1 := by
      have hr : Rep 1 := SmoothBoostF.rep_one
      rw [abs_of_nonneg (rep_le_round rep_zero (by positivity))]
      exact round_le_rep hr (by rwa [abs_of_pos (by positivity)] at hle)
    simp only [madaScore, List.map_nil, List.sum_nil, add_zero, Nat.cast_zero, mul_zero, zero_add]
    exact ⟨h3, h1.trans (by linarith)⟩

/-- One round. -/
theorem step (L : Libm) {S : Examples X ℝ} (hS : ∀ e ∈ S, e.2 = 1 ∨ e.2 = -1) (hne : S ≠ []) (hm : S.length ≤ 10 ^ 5) {wl : WeakLearner F64 H} {lo : ℝ}
    (hlo : -(1 - 1 / 10 ^ 5) ≤ lo) (hwl : MadaLearner S wl lo) {M n : Nat} (hn : n < M) (hM : M ≤ 3000) {qs : List (List F64)} {V : List (ℝ × H)}
    {s : MadaBoostF H} (hI : Inv L S wl lo M n qs V s) {r} (hb : Boost L S s wl (n + 1) r) :
    ∃ q, CappedWeights S.length q ∧ NearClipped S (madaScore S.length V) q ∧
      ((∃ s', r = .ok ⟨s', .brk (n + 1), [q]⟩ ∧ s'.alphas = [fin 1] ∧ s'.hypotheses = [wl (n + 1) q] ∧ 1 - 1 / 10 ^ 9 ≤ exactEdge S q (wl (n + 1) q)) ∨
       (∃ γ s', r = .ok ⟨s', .cont, [q]⟩ ∧ Inv L S wl lo M (n + 1) (qs ++ [q]) (V ++ [(γ, wl (n + 1) q)]) s')) := by
  have hu := u_small
  have hu0 := u_pos
  have het := eta_tiny
  have het0 := eta_pos
  obtain ⟨B, hBs, hB⟩ := hI.betas
  have hn' : (n : ℝ) ≤ 2999 := by exact_mod_cast (by omega : n ≤ 2999)
  unfold Boost at hb
  rw [hI.max, if_neg (by omega)] at hb
  obtain ⟨d, hd, hb⟩ := hb
  rw [hBs] at hd
  obtain ⟨g, rfl, hg, hgs⟩ := dist_fin L S B hne hm (fun e he => (hB e he).1.trans (by linarith)) hd
  simp only at hb
  set q := S.map fun e => fin (g e) with hq
  have hcap : CappedWeights S.length q := by
    refine ⟨S.map g, by rw [hq, List.map_map]; rfl, by simp, ?_, hgs⟩
    simp only [List.mem_map]
    rintro _ ⟨e, he, rfl⟩
    exact ⟨(hg e he).1, (hg e he).2.1⟩
  have hclip : NearClipped S (madaScore S.length V) q := by
    refine ⟨g, rfl, fun e he => ?_⟩
    have h1 := abs_le.mp (hg e he).2.2
    have h2 := abs_le.mp (near_clipped hne (a := B) (b := madaScore S.length V) (fun e he => (hB e he).2.trans (by
      rw [div_le_iff₀ (by norm_num)]; norm_num; linarith)) e he)
    have hp : 0 ≤ Real.exp (min (madaScore S.length V e) 1) / (S.map fun e => Real.exp (min (madaScore S.length V e) 1)).sum := by
      apply div_nonneg (Real.exp_pos _).le
      apply List.sum_nonneg
      simp only [List.mem_map]; rintro _ ⟨e, -, rfl⟩; exact (Real.exp_pos _).le
    generalize Real.exp (min (madaScore S.length V e) 1) / (S.map fun e => Real.exp (min (madaScore S.length V e) 1)).sum = y at *
    generalize Real.exp (min (B e) 1) / (S.map fun e => Real.exp (min (B e) 1)).sum = x at *
    rw [abs_le]
    norm_num at h1 h2 het ⊢
    constructor <;> linarith
  refine ⟨q, hcap, hclip, ?_⟩
  set h := wl (n + 1) q with hh
  obtain ⟨edge, hin, hb⟩ := hb
  have hans : ∀ e ∈ S, ∃ c : ℝ, conf h e.1 = fin c ∧ |c| ≤ 1 := hwl.conf (n + 1) q hcap
  have hQ1 : (S.map fun e => (e, g e)).map Prod.fst = S := by rw [List.map_map]; exact List.map_id _
  have hQ2 : ((S.map fun e => (e, g e)).map Prod.snd) = S.map g := by rw [List.map_map]; rfl
  have hQ3 : ((S.map fun e => (e, g e)).map fun p => fin p.2) = q := by rw [List.map_map]; rfl
  obtain ⟨hmg, hmb, γ, rfl, hγr, hγe⟩ := edge_fin_nonneg hS hm (S.map fun e => (e, g e)) hQ1
    (by simp only [List.mem_map]; rintro _ ⟨e, he, rfl⟩; exact (hg e he).1) (by rw [hQ2]; exact hgs) h hans (by rw [hQ3]; exact hin)
  rw [List.map_map] at hmg
  have hex : ((S.map fun e => (e, g e)).map fun p => p.2 * (p.1.2 * (conf h p.1.1).val)).sum = exactEdge S q h := by
    rw [List.map_map, exactEdge, hq, List.zipWith_map_left, List.zipWith_self]
    rfl
  rw [hex] at hγe
  have hγe' := abs_le.mp hγe
  have hedge := hwl.edge (n + 1) q hcap
  rw [← hh] at hedge
  norm_num at hlo
  have hγlo : -(1 - 1 / 10 ^ 6) ≤ γ := by linarith
  rcases hb with ⟨h1, rfl⟩ | ⟨h1, p, hp, rfl⟩
  · left
    have h1' : 1 ≤ |γ| := h1
    have hγ1 : 1 ≤ γ := by
      rcases le_abs.mp h1' with h | h
      · exact h
      · linarith
    refine ⟨_, rfl, ?_, rfl, by linarith⟩
    simp only [AdaBoostF.signum]
    rw [if_pos (show Le (fin 0) (fin γ) from by show (0 : ℝ) ≤ γ; linarith)]
  · right
    have hγ1 : γ < 1 := by
      have : ¬ 1 ≤ |γ| := h1
      exact (abs_lt.mp (not_le.mp this)).2
    obtain ⟨⟨x, hx, hx0, hx1⟩, b, hbeq, hrel, -, hb1, hb2⟩ := params_fin hγr hγ1 hγlo
    obtain ⟨hb3, hb4, hb5⟩ := hrel.bounds (by norm_num)
    have hbe : |b - MadaBoost.betaOf γ| ≤ 70 * u := by
      refine hrel.2.trans ?_
      nlinarith
    have hbhi : b ≤ 158 / 100 := by norm_num at hb4; linarith
    rcases hp with ⟨h2, -⟩ | ⟨-, new, hnew, rfl⟩
    · exact absurd ⟨by rw [hx]; exact hx0, by rw [hx]; exact hx1⟩ h2
    refine ⟨γ, _, rfl, ?_⟩
    rw [parUpdate_iff, hBs, hmg] at hnew
    have hnew' : new = S.map fun e => add (fin (B e)) (mul (fin (marg h e)) (fin b)) := by
      rw [hnew]
      refine (F64.updateZip_map _ _ _ _).trans ?_
      rw [hbeq]
      rfl
    -- one entry
    have hcell : ∀ e ∈ S, ∃ B', add (fin (B e)) (mul (fin (marg h e)) (fin b)) = fin B' ∧ |B'| ≤ 1 + 16 / 10 * (n + 1 : ℕ) ∧
        |B' - madaScore S.length (V ++ [(γ, h)]) e| ≤ ((n + 1 : ℕ) + 1) / 10 ^ 12 := by
      intro e he
      obtain ⟨hB1, hB2⟩ := hB e he
      obtain ⟨hm1, hm2⟩ := hmb (e, g e) (List.mem_map.mpr ⟨e, he, rfl⟩)
      simp only at hm1 hm2
      obtain ⟨c, hc, hc1⟩ := hans e he
      rw [hc] at hm2
      have hval : (fin c).val = c := rfl
      rw [hval] at hm2
      have hmb1 : |marg h e * b| ≤ 158 / 100 := by
        rw [abs_mul, abs_of_pos hb5]
        nlinarith [abs_nonneg (marg h e)]
      obtain ⟨y, hy, hye⟩ := mul_fin (158 / 100) (by norm_num) hmb1
      have hye' := abs_le.mp hye
      have hmb1' := abs_le.mp hmb1
      have hB1' := abs_le.mp hB1
      have hsum : |B e + y| ≤ 4900 := by
        rw [abs_le]; constructor <;> linarith
      obtain ⟨B', hB', hB'e⟩ := add_fin 4900 (by norm_num) hsum
      have hB'e' := abs_le.mp hB'e
      refine ⟨B', by rw [hy, hB'], ?_, ?_⟩
      · push_cast
        rw [abs_le]; constructor <;> linarith
      · rw [madaScore_snoc, hc, hval, stepOf_eq]
        have hB2' := abs_le.mp hB2
        have hyb : |marg h e * b - MadaBoost.betaOf γ * (e.2 * c)| ≤ 75 * u := by
          have e1 : marg h e * b - MadaBoost.betaOf γ * (e.2 * c) = marg h e * (b - MadaBoost.betaOf γ) + MadaBoost.betaOf γ * (marg h e - e.2 * c) := by ring
          rw [e1]
          refine (abs_add_le _ _).trans ?_
          rw [abs_mul, abs_mul]
          have e2 : |marg h e| * |b - MadaBoost.betaOf γ| ≤ 1 * (70 * u) := mul_le_mul hm1 hbe (abs_nonneg _) (by norm_num)
          have e3 : |MadaBoost.betaOf γ| * |marg h e - e.2 * c| ≤ 2 * (2 * u) := by
            refine mul_le_mul ?_ hm2 (abs_nonneg _) (by norm_num)
            rw [abs_of_nonneg (by norm_num at hb1 ⊢; linarith)]
            linarith
          linarith
        have hyb' := abs_le.mp hyb
        push_cast
        have e3 : ((n : ℝ) + 1 + 1) / 10 ^ 12 = (n + 1) / 10 ^ 12 + 1 / 10 ^ 12 := by ring
        rw [e3]
        rw [abs_le]; constructor <;> linarith
    choose! B' hB' using hcell
    refine ⟨?_, by simp [hI.len], rfl, by simp [hI.hyps], by simp [hI.votes], ?_, ?_, B', ?_, fun e he => (hB' e he).2⟩
    · have := MadaRounds.snoc hI.rounds hcap hclip (γ := γ) (by rw [hI.len, ← hh]; exact hγe)
      rwa [hI.len, ← hh] at this
    · intro v hv
      rcases List.mem_append.mp hv with hv | hv
      · exact hI.edges v hv
      · rw [List.mem_singleton.mp hv]
        exact ⟨hγr, hγ1, by linarith⟩
    · intro v hv
      rcases List.mem_append.mp hv with hv | hv
      · exact hI.answers v hv
      · rw [List.mem_singleton.mp hv]
        exact hans
    · simp only
      rw [hnew']
      exact List.map_congr_left fun e he => (hB' e he).1

/-- All rounds. -/
theorem loop_ok (L : Libm) {S : Examples X ℝ} (hS : ∀ e ∈ S, e.2 = 1 ∨ e.2 = -1) (hne : S ≠ []) (hm : S.length ≤ 10 ^ 5) {wl : WeakLearner F64 H} {lo : ℝ}
    (hlo : -(1 - 1 / 10 ^ 5) ≤ lo) (hwl : MadaLearner S wl lo) {M : Nat} (hM : M ≤ 3000) {s : MadaBoostF H} {it : Nat} {r}
    (h : (booster L S).Loop wl s it r) : ∀ n qs V, it = n + 1 → n ≤ M → Inv L S wl lo M n qs V s →
    ∃ s' qs', r = .ok (s', qs') ∧
      ((∃ V', Inv L S wl lo M M (qs ++ qs') V' s') ∨
       (∃ k qs₁ V' q, k < M ∧ qs ++ qs' = qs₁ ++ [q] ∧ qs₁.length = k ∧ MadaRounds S wl qs₁ V' ∧ CappedWeights S.length q ∧ NearClipped S (madaScore S.length V') q ∧
         s'.alphas = [fin 1] ∧ s'.hypotheses = [wl (k + 1) q] ∧ 1 - 1 / 10 ^ 9 ≤ exactEdge S q (wl (k + 1) q))) := by
  have top : ∀ {n qs V s r}, n ≤ M → Inv L S wl lo M n qs V s → (booster L S).boost s wl (n + 1) r →
      (n = M ∧ r = .ok ⟨s, .brk M, []⟩) ∨ n < M := by
    intro n qs V s r hn hI hb
    rcases Nat.lt_or_ge n M with h | h
    · exact .inr h
    · left
      obtain rfl : n = M := le_antisymm hn h
      refine ⟨rfl, ?_⟩
      change Boost L S s wl (n + 1) r at hb
      unfold Boost at hb
      rw [hI.max, if_pos (by omega)] at hb
      exact hb
  induction h with
  | @panic s it e h =>
    rintro n qs V rfl hn hI
    exfalso
    rcases top hn hI h with ⟨-, h'⟩ | hlt
    · cases h'
    · obtain ⟨q, -, -, ⟨s', h', -⟩ | ⟨γ, s', h', -⟩⟩ := step L hS hne hm hlo hwl hlt hM hI h <;> cases h'
  | @stop s it out k h hf =>
    rintro n qs V rfl hn hI
    rcases top hn hI h with ⟨rfl, h'⟩ | hlt
    · cases h'
      exact ⟨_, _, rfl, .inl ⟨V, by simpa using hI⟩⟩
    · obtain ⟨q, h1, h2, ⟨s', h', h3, h4, h5⟩ | ⟨γ, s', h', -⟩⟩ := step L hS hne hm hlo hwl hlt hM hI h
      · cases h'
        exact ⟨_, _, rfl, .inr ⟨n, qs, V, q, hlt, rfl, hI.len, hI.rounds, h1, h2, h3, h4, h5⟩⟩
      · cases h'; cases hf
  | @next s it out r h hf hr ih =>
    rintro n qs V rfl hn hI
    rcases top hn hI h with ⟨rfl, h'⟩ | hlt
    · cases h'; cases hf
    · obtain ⟨q, h1, h2, ⟨s', h', -⟩ | ⟨γ, s', h', hI'⟩⟩ := step L hS hne hm hlo hwl hlt hM hI h
      · cases h'; cases hf
      · cases h'
        obtain ⟨s'', qs'', rfl, hres⟩ := ih (n + 1) (qs ++ [q]) _ rfl hlt hI'
        refine ⟨s'', q :: qs'', rfl, ?_⟩
        simpa [List.append_assoc] using hres

end MadaBoostF

end Miniboosts
