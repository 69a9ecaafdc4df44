import Verif.Lemmas.FloatMada
import Verif.Lemmas.FloatAdaBoostVRun
import Verif.Lemmas.FloatMono
import Verif.Lemmas.RoundingVote

/-! # The weights of MadaBoost in `f64` -/

namespace Miniboosts

namespace F64

/-- One step of the normaliser loop, for numbers up to `5000`. -/
theorem logAddExp_wide_aux (L : Libm) {a b : ℝ} (ha : |a| ≤ 5000) (hb : |b| ≤ 5000) (hab : a ≤ b) :
    ∃ c, add (fin b) (ln L (add (fin 1) (exp L (sub (fin a) (fin b))))) = fin c ∧
      |c - Real.log (Real.exp a + Real.exp b)| ≤ 6 / 10 ^ 12 := by
  have hu := u_small
  have hu0 := u_pos
  have het := eta_le_u
  have h1 := abs_le.mp ha
  have h2 := abs_le.mp hb
  obtain ⟨t, ht, hte⟩ := sub_fin (a := a) (b := b) 10000 (by norm_num) (abs_le.mpr ⟨by linarith, by linarith⟩)
  have h3 := abs_le.mp hte
  obtain ⟨E, hE, hEe, -⟩ := exp_fin L (x := t) (by linarith)
  have h4 : |Real.exp t - Real.exp (a - b)| ≤ 2 * (10001 * u) * Real.exp (a - b) := exp_close (by linarith) (hte.trans (by linarith))
  have h5 : Real.exp (a - b) ≤ 1 := Real.exp_le_one_iff.mpr (by linarith)
  have h50 := Real.exp_pos (a - b)
  have h6 : |Real.exp t - Real.exp (a - b)| ≤ 20002 * u := h4.trans (by nlinarith)
  have h7 := abs_le.mp h6
  have h8 : |E - Real.exp (a - b)| ≤ 20020 * u := by
    have h9 := abs_le.mp hEe
    rw [abs_le]; constructor <;> nlinarith
  have h9 := abs_le.mp h8
  obtain ⟨v, hv, hve⟩ := add_fin (a := 1) (b := E) 3 (by norm_num) (abs_le.mpr ⟨by linarith, by linarith⟩)
  have h10 : |v - (1 + Real.exp (a - b))| ≤ 20025 * u := by
    have h11 := abs_le.mp hve
    rw [abs_le]; constructor <;> linarith
  obtain ⟨hv0, hvl⟩ := log_close (a := v) (b := 1 + Real.exp (a - b)) (c := 20025 * u) (by linarith) (by linarith) (h10.trans (by nlinarith))
  have hl0 : 0 ≤ Real.log (1 + Real.exp (a - b)) := Real.log_nonneg (by linarith)
  have hl1 : Real.log (1 + Real.exp (a - b)) ≤ 7 / 10 := by
    have := Real.log_le_log (show 0 < 1 + Real.exp (a - b) by linarith) (show 1 + Real.exp (a - b) ≤ 2 by linarith)
    have := Real.log_two_lt_d9
    linarith
  have h12 := abs_le.mp hvl
  have hlv : |Real.log v| ≤ 1 := abs_le.mpr ⟨by linarith, by linarith⟩
  obtain ⟨y, hy, hye⟩ := ln_fin L hv0 (hlv.trans (by norm_num))
  have hye' : |y - Real.log v| ≤ 11 * u := hye.trans (by nlinarith [abs_nonneg (Real.log v)])
  have h13 := abs_le.mp hye'
  obtain ⟨c, hc, hce⟩ := add_fin (a := b) (b := y) 5002 (by norm_num) (abs_le.mpr ⟨by linarith, by linarith⟩)
  refine ⟨c, by rw [ht, hE, hv, hy, hc], ?_⟩
  have hlog : Real.log (Real.exp a + Real.exp b) = b + Real.log (1 + Real.exp (a - b)) := by
    have hm : Real.exp a + Real.exp b = Real.exp b * (1 + Real.exp (a - b)) := by
      rw [mul_add, mul_one, ← Real.exp_add]; ring_nf
    rw [hm, Real.log_mul (Real.exp_pos b).ne' (by linarith), Real.log_exp]
  rw [hlog]
  have h14 := abs_le.mp hce
  rw [abs_le]
  norm_num
  constructor <;> linarith

theorem logAddExp_wide (L : Libm) {a b : ℝ} (ha : |a| ≤ 5000) (hb : |b| ≤ 5000) :
    ∃ c, logAddExp L (fin a) (fin b) = fin c ∧ |c - Real.log (Real.exp a + Real.exp b)| ≤ 6 / 10 ^ 12 := by
  unfold logAddExp
  by_cases h : a < b
  · rw [if_pos (show Lt (fin a) (fin b) from h)]
    obtain ⟨c, h1, h2⟩ := logAddExp_wide_aux L ha hb h.le
    exact ⟨c, h1, h2⟩
  · rw [if_neg (show ¬ Lt (fin a) (fin b) from h), add_comm (Real.exp a)]
    obtain ⟨c, h1, h2⟩ := logAddExp_wide_aux L hb ha (not_lt.mp h)
    exact ⟨c, h1, h2⟩

theorem logfold_wide (L : Libm) : ∀ (ls : List ℝ) (a A : ℝ) (j : ℕ), 0 < A → |a - Real.log A| ≤ j * (6 / 10 ^ 12) → -4999 ≤ Real.log A →
    A + (ls.map Real.exp).sum ≤ Real.exp 20 → (∀ l ∈ ls, -4999 ≤ l) → j + ls.length ≤ 10 ^ 5 →
    ∃ z, (ls.map fin).foldl (logAddExp L) (fin a) = fin z ∧ |z - Real.log (A + (ls.map Real.exp).sum)| ≤ (j + ls.length : ℕ) * (6 / 10 ^ 12) := by
  intro ls
  induction ls with
  | nil => intro a A j hA ha hl hs hb hn; exact ⟨a, rfl, by simpa using ha⟩
  | cons l ls ih =>
    intro a A j hA ha hl hs hb hn
    simp only [List.map_cons, List.sum_cons, List.length_cons] at hs hn ⊢
    have hnn := sum_exp_nonneg ls
    have hel := Real.exp_pos l
    have hj : (j : ℝ) ≤ 100000 := by exact_mod_cast (by omega : j ≤ 100000)
    have hja : |a - Real.log A| ≤ 1 / 10 := ha.trans (by norm_num; linarith)
    have h1 := abs_le.mp hja
    have hA10 : Real.log A ≤ 20 := by rw [Real.log_le_iff_le_exp hA]; linarith
    have hl10 : l ≤ 20 := by rw [← Real.exp_le_exp]; linarith
    have hlb := hb l (by simp)
    obtain ⟨c, hc, hce⟩ := logAddExp_wide L (a := a) (b := l) (abs_le.mpr ⟨by linarith, by linarith⟩) (abs_le.mpr ⟨by linarith, by linarith⟩)
    have hlip := lse_lip (a := a) (b := Real.log A) (s := Real.exp l) hel.le
    rw [Real.exp_log hA] at hlip
    obtain ⟨z, hz, hze⟩ := ih c (A + Real.exp l) (j + 1) (by linarith)
      (by
        have := abs_add_le (c - Real.log (Real.exp a + Real.exp l)) (Real.log (Real.exp a + Real.exp l) - Real.log (A + Real.exp l))
        rw [sub_add_sub_cancel] at this
        push_cast
        linarith)
      (by have := Real.log_le_log hA (show A ≤ A + Real.exp l by linarith); linarith) (by linarith)
      (fun l' h' => hb l' (by simp [h'])) (by omega)
    refine ⟨z, ?_, ?_⟩
    · rw [List.foldl_cons, hc]; exact hz
    · rw [← add_assoc, show j + (ls.length + 1) = j + 1 + ls.length by ring]; exact hze

/-- The normaliser, for numbers down to `-4999`, in whatever order. -/
theorem normalizer_wide (L : Libm) (ls : List ℝ) (idx : List Nat) (hi : idx.Perm (List.range ls.length)) (h0 : ls ≠ []) (hs : (ls.map Real.exp).sum ≤ Real.exp 20)
    (hb : ∀ l ∈ ls, -4999 ≤ l) (hn : ls.length ≤ 10 ^ 5) :
    ∃ z, normalizer L (ls.map fin) idx = some (fin z) ∧ |z - Real.log (ls.map Real.exp).sum| ≤ 6 / 10 ^ 7 := by
  have hp : (idx.map fun j => ls.getD j 0).Perm ls := by
    have := hi.map (fun j => ls.getD j 0)
    rwa [range_map_getD] at this
  have hm : idx.map (fun j => (ls.map fin).getD j nan) = (idx.map fun j => ls.getD j 0).map fin := by
    rw [List.map_map]
    apply List.map_congr_left
    intro j hj
    have : j < ls.length := by simpa using hi.mem_iff.mp hj
    simp [this]
  rw [normalizer_eq, hm]
  generalize (idx.map fun j => ls.getD j 0) = ks at hp
  cases ks with
  | nil => exact absurd hp.symm.eq_nil h0
  | cons k ks =>
    have hsum : (ls.map Real.exp).sum = Real.exp k + (ks.map Real.exp).sum := by
      rw [← (hp.map Real.exp).sum_eq]; simp
    have hlen := hp.length_eq
    simp only [List.length_cons] at hlen
    obtain ⟨z, h1, h2⟩ := logfold_wide L ks k (Real.exp k) 0 (Real.exp_pos k) (by simp) (by rw [Real.log_exp]; exact hb k (hp.mem_iff.mp (by simp)))
      (by rw [← hsum]; exact hs) (fun l hl => hb l (hp.mem_iff.mp (by simp [hl]))) (by omega)
    refine ⟨z, by simpa using h1, ?_⟩
    rw [hsum]
    refine h2.trans ?_
    have : ((0 + ks.length : ℕ) : ℝ) ≤ 100000 := by exact_mod_cast (by omega : 0 + ks.length ≤ 100000)
    calc ((0 + ks.length : ℕ) : ℝ) * (6 / 10 ^ 12) ≤ 100000 * (6 / 10 ^ 12) := by gcongr
      _ = 6 / 10 ^ 7 := by norm_num

theorem exp_nonneg_fin (L : Libm) {x y : ℝ} (h : exp L (fin x) = fin y) : 0 ≤ y := by
  have h1 := L.exp_err x
  have h2 := Real.exp_pos x
  have h3 : (0 : ℝ) ≤ L.expA x := by
    have := (abs_le.mp h1).1
    norm_num at this
    linarith
  simp only [exp, rnd] at h
  split at h
  · cases h
  · cases h
    exact rep_le_round rep_zero h3

end F64

namespace MadaBoostF

open F64

/-- The weights from scores between `-4999` and `4999`: up to `2·10⁻⁶` they are proportional to `exp(min(1, score))`. -/
theorem dist_fin (L : Libm) {ι : Type*} (P : List ι) (b : ι → ℝ) (hP : P ≠ []) (hn : P.length ≤ 10 ^ 5) (hb : ∀ p ∈ P, |b p| ≤ 4900) {r : Except Panic (List F64)}
    (h : Beta2Distribution L (P.map fun p => fin (b p)) r) :
    ∃ g : ι → ℝ, r = .ok (P.map fun p => fin (g p)) ∧
      (∀ p ∈ P, 0 ≤ g p ∧ Rep (g p) ∧ |g p - Real.exp (min (b p) 1) / (P.map fun p => Real.exp (min (b p) 1)).sum| ≤
        2 / 10 ^ 6 * (Real.exp (min (b p) 1) / (P.map fun p => Real.exp (min (b p) 1)).sum) + eta) ∧
      |(P.map g).sum - 1| ≤ 3 / 10 ^ 6 := by
  have hu := u_small
  have hu0 := u_pos
  have het := eta_tiny
  have het0 := eta_pos
  norm_num at het
  have hw : (P.map fun p => fin (b p)).map (fun b => minNum b (fin 1)) = (P.map fun p => min (b p) 1).map fin := by
    rw [List.map_map, List.map_map]
    apply List.map_congr_left
    intro p _
    exact minNum_fin _ _
  set ℓ : ι → ℝ := fun p => min (b p) 1 with hℓ
  set Z := (P.map fun p => Real.exp (ℓ p)).sum with hZ
  have hlb : ∀ p ∈ P, -4900 ≤ ℓ p ∧ ℓ p ≤ 1 := by
    intro p hp
    have := abs_le.mp (hb p hp)
    exact ⟨le_min (by linarith) (by norm_num), min_le_right _ _⟩
  have hlen : (P.length : ℝ) ≤ 100000 := by exact_mod_cast (by omega : P.length ≤ 100000)
  have hZ0 : 0 < Z := by
    obtain ⟨p, hp⟩ := List.exists_mem_of_ne_nil P hP
    refine lt_of_lt_of_le (Real.exp_pos (ℓ p)) ?_
    exact List.single_le_sum (by simp only [List.mem_map]; rintro _ ⟨a, ha, rfl⟩; exact (Real.exp_pos _).le) _ (List.mem_map_of_mem hp)
  have he1 : Real.exp 1 ≤ 3 := by have := Real.exp_one_lt_d9; linarith
  have hZe : Z ≤ Real.exp 20 := by
    have h1 : Z ≤ P.length * 3 := sum_le_const P _ 3 fun p hp => (Real.exp_le_exp.mpr (hlb p hp).2).trans he1
    have h2 : (400000 : ℝ) ≤ Real.exp 20 := by
      have h3 : Real.exp 20 = Real.exp 1 ^ 20 := by rw [← Real.exp_nat_mul]; norm_num
      have h4 : (2 : ℝ) ≤ Real.exp 1 := by have := Real.exp_one_gt_d9; linarith
      rw [h3]
      calc (400000 : ℝ) ≤ 2 ^ 20 := by norm_num
        _ ≤ _ := by gcongr
    linarith
  have hZeq : ((P.map ℓ).map Real.exp).sum = Z := by rw [List.map_map]; rfl
  unfold Beta2Distribution at h
  rw [if_neg (by rw [hw]; rintro ⟨-, h1⟩; simp at h1)] at h
  simp only [hw] at h
  obtain ⟨idx, ⟨hperm, -⟩, h⟩ := h
  obtain ⟨z, hz, hze⟩ := normalizer_wide L (P.map ℓ) idx (by simpa using hperm) (by simpa using hP) (by rw [hZeq]; exact hZe)
    (by simp only [List.mem_map]; rintro _ ⟨p, hp, rfl⟩; linarith [(hlb p hp).1]) (by simpa using hn)
  rw [hz] at h
  rw [hZeq] at hze
  have hze' := abs_le.mp hze
  have hlogZ : Real.log Z ≤ 20 := by rw [Real.log_le_iff_le_exp hZ0]; exact hZe
  have hlogZ0 : ∀ p ∈ P, ℓ p ≤ Real.log Z := by
    intro p hp
    rw [Real.le_log_iff_exp_le hZ0]
    exact List.single_le_sum (by simp only [List.mem_map]; rintro _ ⟨a, ha, rfl⟩; exact (Real.exp_pos _).le) _ (List.mem_map_of_mem hp)
  set g : ι → ℝ := fun p => (exp L (sub (fin (ℓ p)) (fin z))).val with hg
  have hgp : ∀ p ∈ P, exp L (sub (fin (ℓ p)) (fin z)) = fin (g p) ∧ 0 ≤ g p ∧ Rep (g p) ∧
      |g p - Real.exp (ℓ p) / Z| ≤ 2 / 10 ^ 6 * (Real.exp (ℓ p) / Z) + eta := by
    intro p hp
    have h1 := hlb p hp
    have h2 := hlogZ0 p hp
    norm_num at hze'
    obtain ⟨t, ht, hte⟩ := sub_fin (a := ℓ p) (b := z) 5000 (by norm_num) (abs_le.mpr ⟨by linarith, by linarith⟩)
    have hte' := abs_le.mp hte
    have h3 : |t - (ℓ p - Real.log Z)| ≤ 7 / 10 ^ 7 := by
      rw [abs_le]
      norm_num
      constructor <;> linarith
    have h4 := exp_close (by norm_num) h3
    rw [Real.exp_sub, Real.exp_log hZ0] at h4
    have h3' := abs_le.mp h3
    norm_num at h3'
    obtain ⟨y, hy, hye, -⟩ := exp_fin L (x := t) (by linarith)
    have hgy : g p = y := by simp only [hg]; rw [ht, hy]; rfl
    rw [ht, hgy]
    refine ⟨hy, exp_nonneg_fin L hy, ?_, ?_⟩
    · simp only [exp, rnd] at hy
      split at hy
      · cases hy
      · cases hy; exact rep_round _
    · have hQ0 : 0 < Real.exp (ℓ p) / Z := div_pos (Real.exp_pos _) hZ0
      generalize Real.exp (ℓ p) / Z = q at *
      have h4' := abs_le.mp h4
      have hye' := abs_le.mp hye
      norm_num at h4'
      have h5 : Real.exp t ≤ 2 * q := by linarith
      have h6 : 10 * u * Real.exp t ≤ 1 / 10 ^ 9 * q := by
        calc 10 * u * Real.exp t ≤ 10 * (1 / 9000000000000000) * (2 * q) := by gcongr
          _ ≤ _ := by norm_num; linarith
      norm_num at h6
      rw [abs_le]
      norm_num
      constructor <;> linarith
  refine ⟨g, ?_, fun p hp => (hgp p hp).2, ?_⟩
  · rw [h, List.map_map, List.map_map]
    congr 1
    apply List.map_congr_left
    intro p hp
    exact (hgp p hp).1
  · have h1 := sum_close P g (fun p => Real.exp (ℓ p) / Z) (fun p => 2 / 10 ^ 6 * (Real.exp (ℓ p) / Z) + eta) fun p hp => (hgp p hp).2.2.2
    rw [sum_affine P (fun p => Real.exp (ℓ p) / Z)] at h1
    have h2 : (P.map fun p => Real.exp (ℓ p) / Z).sum = 1 := by
      simp only [div_eq_mul_inv]
      rw [List.sum_map_mul_right, ← hZ, mul_inv_cancel₀ hZ0.ne']
    rw [h2] at h1
    refine h1.trans ?_
    have : (P.length : ℝ) * eta ≤ 100000 * (1 / 10 ^ 60) := by
      have := eta_tiny
      gcongr
    norm_num at this ⊢
    linarith

end MadaBoostF

end Miniboosts
