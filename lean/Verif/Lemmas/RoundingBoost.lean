import Verif.Lemmas.Rounding
import Mathlib.Analysis.Convex.SpecificFunctions.Basic

/-! # One round of AdaBoost in `f64` -/

namespace Miniboosts

namespace F64

theorem sum_exp_nonneg (ls : List ℝ) : 0 ≤ (ls.map Real.exp).sum :=
  List.sum_nonneg (by simp only [List.mem_map]; rintro _ ⟨a, -, rfl⟩; exact (Real.exp_pos a).le)

/-- The normaliser loop. -/
theorem logfold_err (L : Libm) : ∀ (ls : List ℝ) (a A : ℝ) (j : ℕ), 0 < A → |a - Real.log A| ≤ j * (1 / 10 ^ 12) → -751 ≤ Real.log A →
    A + (ls.map Real.exp).sum ≤ Real.exp 10 → (∀ l ∈ ls, -751 ≤ l) → j + ls.length ≤ 10 ^ 5 →
    ∃ z, (ls.map fin).foldl (logAddExp L) (fin a) = fin z ∧ |z - Real.log (A + (ls.map Real.exp).sum)| ≤ (j + ls.length : ℕ) * (1 / 10 ^ 12) := by
  intro ls
  induction ls with
  | nil => intro a A j hA ha hl hs hb hn; exact ⟨a, rfl, by simpa using ha⟩
  | cons l ls ih =>
    intro a A j hA ha hl hs hb hn
    simp only [List.map_cons, List.sum_cons, List.length_cons] at hs hn ⊢
    have hnn := sum_exp_nonneg ls
    have hel := Real.exp_pos l
    have hj : (j : ℝ) ≤ 100000 := by exact_mod_cast (by omega : j ≤ 100000)
    have hja : |a - Real.log A| ≤ 1 / 10 := ha.trans (by norm_num; linarith)
    have h1 := abs_le.mp hja
    have hA10 : Real.log A ≤ 10 := by rw [Real.log_le_iff_le_exp hA]; linarith
    have hl10 : l ≤ 10 := by rw [← Real.exp_le_exp]; linarith
    have hlb := hb l (by simp)
    obtain ⟨c, hc, hce⟩ := logAddExp_fin L (a := a) (b := l) (abs_le.mpr ⟨by linarith, by linarith⟩) (abs_le.mpr ⟨by linarith, by linarith⟩)
    have hlip := lse_lip (a := a) (b := Real.log A) (s := Real.exp l) hel.le
    rw [Real.exp_log hA] at hlip
    obtain ⟨z, hz, hze⟩ := ih c (A + Real.exp l) (j + 1) (by linarith)
      (by
        have := abs_add_le (c - Real.log (Real.exp a + Real.exp l)) (Real.log (Real.exp a + Real.exp l) - Real.log (A + Real.exp l))
        rw [sub_add_sub_cancel] at this
        push_cast
        linarith)
      (by have := Real.log_le_log hA (show A ≤ A + Real.exp l by linarith); linarith) (by linarith)
      (fun l' h' => hb l' (by simp [h'])) (by omega)
    refine ⟨z, ?_, ?_⟩
    · rw [List.foldl_cons, hc]; exact hz
    · rw [← add_assoc, show j + (ls.length + 1) = j + 1 + ls.length by ring]; exact hze

theorem range_map_getD {α : Type*} (v : List α) (d : α) : (List.range v.length).map (fun j => v.getD j d) = v := by
  apply List.ext_getElem
  · simp
  · intro i h1 h2
    simp only [List.length_map, List.length_range] at h1
    simp [h1]

theorem normalizer_eq (L : Libm) (v : List F64) (idx : List Nat) :
    normalizer L v idx = match idx.map (fun j => v.getD j nan) with | [] => none | a :: as => some (as.foldl (logAddExp L) a) := by
  cases idx with
  | nil => rfl
  | cons i is => simp only [normalizer, List.map_cons, List.foldl_map]

/-- Whatever the order. -/
theorem normalizer_err (L : Libm) (ls : List ℝ) (idx : List Nat) (hi : idx.Perm (List.range ls.length)) (h0 : ls ≠ []) (hs : (ls.map Real.exp).sum ≤ Real.exp 10)
    (hb : ∀ l ∈ ls, -751 ≤ l) (hn : ls.length ≤ 10 ^ 5) :
    ∃ z, normalizer L (ls.map fin) idx = some (fin z) ∧ |z - Real.log (ls.map Real.exp).sum| ≤ 1 / 10 ^ 7 := by
  have hp : (idx.map fun j => ls.getD j 0).Perm ls := by
    have := hi.map (fun j => ls.getD j 0)
    rwa [range_map_getD] at this
  have hm : idx.map (fun j => (ls.map fin).getD j nan) = (idx.map fun j => ls.getD j 0).map fin := by
    rw [List.map_map]
    apply List.map_congr_left
    intro j hj
    have : j < ls.length := by simpa using hi.mem_iff.mp hj
    simp [this]
  rw [normalizer_eq, hm]
  generalize (idx.map fun j => ls.getD j 0) = ks at hp
  cases ks with
  | nil => exact absurd hp.symm.eq_nil h0
  | cons k ks =>
    have hsum : (ls.map Real.exp).sum = Real.exp k + (ks.map Real.exp).sum := by
      rw [← (hp.map Real.exp).sum_eq]; simp
    have hlen := hp.length_eq
    simp only [List.length_cons] at hlen
    obtain ⟨z, h1, h2⟩ := logfold_err L ks k (Real.exp k) 0 (Real.exp_pos k) (by simp) (by rw [Real.log_exp]; exact hb k (hp.mem_iff.mp (by simp)))
      (by rw [← hsum]; exact hs) (fun l hl => hb l (hp.mem_iff.mp (by simp [hl]))) (by omega)
    refine ⟨z, by simpa using h1, ?_⟩
    rw [hsum]
    refine h2.trans ?_
    have : ((0 + ks.length : ℕ) : ℝ) ≤ 100000 := by exact_mod_cast (by omega : 0 + ks.length ≤ 100000)
    linarith

theorem exp_le_chord {w m : ℝ} (hm : |m| ≤ 1) : Real.exp (-(w * m)) ≤ (1 + m) / 2 * Real.exp (-w) + (1 - m) / 2 * Real.exp w := by
  rw [abs_le] at hm
  have := convexOn_exp.2 (Set.mem_univ (-w)) (Set.mem_univ w) (show 0 ≤ (1 + m) / 2 by linarith) (show 0 ≤ (1 - m) / 2 by linarith) (by ring)
  simp only [smul_eq_mul] at this
  refine le_of_eq_of_le ?_ this
  congr 1; ring

theorem chord_sum (P : List (ℝ × ℝ)) {w : ℝ} (hx : ∀ p ∈ P, 0 ≤ p.1) (hm : ∀ p ∈ P, |p.2| ≤ 1) :
    (P.map fun p => p.1 * Real.exp (-(w * p.2))).sum ≤
      ((P.map Prod.fst).sum + (P.map fun p => p.2 * p.1).sum) / 2 * Real.exp (-w) +
      ((P.map Prod.fst).sum - (P.map fun p => p.2 * p.1).sum) / 2 * Real.exp w := by
  have h1 : (P.map fun p => p.1 * Real.exp (-(w * p.2))).sum ≤
      (P.map fun p => p.1 * ((1 + p.2) / 2 * Real.exp (-w) + (1 - p.2) / 2 * Real.exp w)).sum := by
    apply List.sum_le_sum
    intro p hp
    exact mul_le_mul_of_nonneg_left (exp_le_chord (hm p hp)) (hx p hp)
  refine h1.trans (le_of_eq ?_)
  clear hx hm h1
  induction P with
  | nil => simp
  | cons p P ih => simp only [List.map_cons, List.sum_cons]; rw [ih]; ring

/-- The normaliser in terms of the edge. -/
theorem norm_bound_sqrt (P : List (ℝ × ℝ)) {e w : ℝ} (he : |e| ≤ 9985 / 10000) (hw : |w - Real.log ((1 + e) / (1 - e)) / 2| ≤ 1 / 10 ^ 14)
    (hx : ∀ p ∈ P, 0 ≤ p.1) (hm : ∀ p ∈ P, |p.2| ≤ 1) (hs : (P.map Prod.fst).sum ≤ 1 + 25 / 10 ^ 8)
    (hE : |(P.map fun p => p.2 * p.1).sum - e| ≤ 1 / 10 ^ 9) :
    (P.map fun p => p.1 * Real.exp (-(w * p.2))).sum ≤ Real.sqrt (1 - e ^ 2) + 6 / 10 ^ 6 := by
  refine (chord_sum P hx hm).trans ?_
  generalize (P.map Prod.fst).sum = S at *
  generalize (P.map fun p => p.2 * p.1).sum = E at *
  have he' := abs_le.mp he
  have hE' := abs_le.mp hE
  have h1 : 0 < 1 + e := by linarith
  have h2 : 0 < 1 - e := by linarith
  set s := Real.sqrt (1 - e ^ 2) with hsdef
  have hs2 : s * s = (1 - e) * (1 + e) := by rw [hsdef, Real.mul_self_sqrt (by nlinarith)]; ring
  have hslo : 5 / 100 ≤ s := Real.le_sqrt_of_sq_le (by nlinarith)
  have hs0 : 0 < s := by linarith
  have hshi : s ≤ 1 := Real.sqrt_le_one.mpr (by nlinarith [sq_nonneg e])
  set lr := Real.log ((1 + e) / (1 - e)) / 2 with hlr
  have hr0 : 0 < (1 + e) / (1 - e) := div_pos h1 h2
  have hρ : Real.exp lr = (1 + e) / s := by
    have hsq : Real.exp lr * Real.exp lr = ((1 + e) / s) * ((1 + e) / s) := by
      rw [← Real.exp_add, hlr, add_halves, Real.exp_log hr0, div_mul_div_comm, hs2]
      field_simp
    have hp := Real.exp_pos lr
    have hp2 : 0 < (1 + e) / s := div_pos h1 hs0
    nlinarith
  have hρ' : Real.exp (-lr) = (1 - e) / s := by
    rw [Real.exp_neg, hρ, inv_div, div_eq_div_iff h1.ne' hs0.ne', hs2]
  have hw1 := exp_close (by norm_num) hw
  have hw2 := exp_close (x := -w) (y := -lr) (c := 1 / 10 ^ 14) (by norm_num) (by rw [← abs_neg]; convert hw using 2; ring)
  rw [hρ] at hw1
  rw [hρ'] at hw2
  have hw1' := (abs_le.mp hw1).2
  have hw2' := (abs_le.mp hw2).2
  have hwp := Real.exp_pos w
  have hwn := Real.exp_pos (-w)
  have a1 : (S + E) / 2 ≤ (1 + e + 26 / 10 ^ 8) / 2 := by linarith
  have a2 : (S - E) / 2 ≤ (1 - e + 26 / 10 ^ 8) / 2 := by linarith
  have b1 : Real.exp (-w) ≤ (1 + 2 / 10 ^ 14) * ((1 - e) / s) := by linarith
  have b2 : Real.exp w ≤ (1 + 2 / 10 ^ 14) * ((1 + e) / s) := by linarith
  calc (S + E) / 2 * Real.exp (-w) + (S - E) / 2 * Real.exp w
      ≤ (1 + e + 26 / 10 ^ 8) / 2 * Real.exp (-w) + (1 - e + 26 / 10 ^ 8) / 2 * Real.exp w := by gcongr
    _ ≤ (1 + e + 26 / 10 ^ 8) / 2 * ((1 + 2 / 10 ^ 14) * ((1 - e) / s)) + (1 - e + 26 / 10 ^ 8) / 2 * ((1 + 2 / 10 ^ 14) * ((1 + e) / s)) := by gcongr
    _ = (1 + 2 / 10 ^ 14) * (((1 - e) * (1 + e) + 26 / 10 ^ 8) / s) := by ring
    _ = (1 + 2 / 10 ^ 14) * (s + 26 / 10 ^ 8 / s) := by rw [← hs2, add_div, mul_self_div_self]
    _ ≤ (1 + 2 / 10 ^ 14) * (s + 26 / 10 ^ 8 / (5 / 100)) := by gcongr
    _ ≤ _ := by linarith

/-- The exact sum that the normaliser approximates is below `2 exp(-|w|)`. -/
theorem norm_bound (P : List (ℝ × ℝ)) {e w : ℝ} (he : |e| ≤ 999 / 1000) (hw : |w - Real.log ((1 + e) / (1 - e)) / 2| ≤ 1 / 10 ^ 14)
    (hx : ∀ p ∈ P, 0 ≤ p.1) (hm : ∀ p ∈ P, |p.2| ≤ 1) (hs : (P.map Prod.fst).sum ≤ 1 + 25 / 10 ^ 8)
    (hE : |(P.map fun p => p.2 * p.1).sum - e| ≤ 1 / 10 ^ 9) :
    (P.map fun p => p.1 * Real.exp (-(w * p.2))).sum * Real.exp |w| ≤ 19996 / 10000 := by
  set S := (P.map Prod.fst).sum
  set E := (P.map fun p => p.2 * p.1).sum
  have hZ : (P.map fun p => p.1 * Real.exp (-(w * p.2))).sum ≤ (S + E) / 2 * Real.exp (-w) + (S - E) / 2 * Real.exp w := by
    have h1 : (P.map fun p => p.1 * Real.exp (-(w * p.2))).sum ≤
        (P.map fun p => p.1 * ((1 + p.2) / 2 * Real.exp (-w) + (1 - p.2) / 2 * Real.exp w)).sum := by
      apply List.sum_le_sum
      intro p hp
      exact mul_le_mul_of_nonneg_left (exp_le_chord (hm p hp)) (hx p hp)
    refine h1.trans (le_of_eq ?_)
    simp only [S, E]
    clear_value S E
    clear hs hE hx hm h1
    induction P with
    | nil => simp
    | cons p P ih => simp only [List.map_cons, List.sum_cons]; rw [ih]; ring
  have hSE : 0 ≤ S - E ∧ 0 ≤ S + E := by
    have : ∀ s : ℝ, |s| = 1 → 0 ≤ S + s * E := by
      intro s hs
      have h1 : S + s * E = (P.map fun p => p.1 * (1 + s * p.2)).sum := by
        simp only [S, E]
        clear_value S E
        clear hZ hE hx hm hs
        induction P with
        | nil => simp
        | cons p P ih => simp only [List.map_cons, List.sum_cons]; rw [← ih]; ring
      rw [h1]
      apply List.sum_nonneg
      simp only [List.mem_map]
      rintro _ ⟨p, hp, rfl⟩
      apply mul_nonneg (hx p hp)
      have h2 : |s * p.2| ≤ 1 := by rw [abs_mul, hs, one_mul]; exact hm p hp
      linarith [(abs_le.mp h2).1]
    have h1 := this 1 (by simp)
    have h2 := this (-1) (by simp)
    constructor <;> linarith
  clear_value S E
  have he' := abs_le.mp he
  have hE' := abs_le.mp hE
  have hw' := abs_le.mp hw
  have h1 : 0 < 1 + e := by linarith
  have h2 : 0 < 1 - e := by linarith
  set r := (1 + e) / (1 - e) with hr
  have hr0 : 0 < r := div_pos h1 h2
  have hre : r * (1 - e) = 1 + e := by rw [hr]; field_simp
  have hr1 : r ≤ 1999 := by rw [hr, div_le_iff₀ h2]; linarith
  have hri : r⁻¹ * (1 + e) = 1 - e := by rw [← hre]; field_simp
  have hr2 : r⁻¹ ≤ 1999 := by rw [hr, inv_div, div_le_iff₀ h1]; linarith
  have hri0 : 0 < r⁻¹ := inv_pos.mpr hr0
  have hpos : 0 < Real.exp w := Real.exp_pos w
  have hneg : 0 < Real.exp (-w) := Real.exp_pos _
  rcases le_total 0 w with hw0 | hw0
  · rw [abs_of_nonneg hw0]
    have hm1 : Real.exp (-w) * Real.exp w = 1 := by rw [← Real.exp_add]; simp
    have hm2 : Real.exp w * Real.exp w ≤ r * (1 + 4 / 10 ^ 14) := by
      rw [← Real.exp_add]
      have h3 := exp_close (x := w + w) (y := Real.log r) (c := 2 / 10 ^ 14) (by norm_num) (abs_le.mpr ⟨by linarith, by linarith⟩)
      rw [Real.exp_log hr0] at h3
      have h4 := (abs_le.mp h3).2
      linarith
    calc _ ≤ ((S + E) / 2 * Real.exp (-w) + (S - E) / 2 * Real.exp w) * Real.exp w := by gcongr
      _ = (S + E) / 2 * (Real.exp (-w) * Real.exp w) + (S - E) / 2 * (Real.exp w * Real.exp w) := by ring
      _ ≤ (S + E) / 2 * 1 + (S - E) / 2 * (r * (1 + 4 / 10 ^ 14)) := by
          rw [hm1]
          have : 0 ≤ (S - E) / 2 := by linarith
          gcongr
      _ ≤ (S + E) / 2 * 1 + (1 - e + 26 / 10 ^ 8) / 2 * (r * (1 + 4 / 10 ^ 14)) := by
          have : S - E ≤ 1 - e + 26 / 10 ^ 8 := by norm_num at *; linarith
          gcongr
      _ = (S + E) / 2 + (r * (1 - e) + 26 / 10 ^ 8 * r) / 2 * (1 + 4 / 10 ^ 14) := by ring
      _ ≤ _ := by rw [hre]; norm_num at *; linarith
  · rw [abs_of_nonpos hw0]
    have hm1 : Real.exp w * Real.exp (-w) = 1 := by rw [← Real.exp_add]; simp
    have hm2 : Real.exp (-w) * Real.exp (-w) ≤ r⁻¹ * (1 + 4 / 10 ^ 14) := by
      rw [← Real.exp_add]
      have h3 := exp_close (x := -w + -w) (y := Real.log r⁻¹) (c := 2 / 10 ^ 14) (by norm_num)
        (by rw [Real.log_inv]; exact abs_le.mpr ⟨by linarith, by linarith⟩)
      rw [Real.exp_log hri0] at h3
      have h4 := (abs_le.mp h3).2
      linarith
    calc _ ≤ ((S + E) / 2 * Real.exp (-w) + (S - E) / 2 * Real.exp w) * Real.exp (-w) := by gcongr
      _ = (S + E) / 2 * (Real.exp (-w) * Real.exp (-w)) + (S - E) / 2 * (Real.exp w * Real.exp (-w)) := by ring
      _ ≤ (S + E) / 2 * (r⁻¹ * (1 + 4 / 10 ^ 14)) + (S - E) / 2 * 1 := by
          rw [hm1]
          have : 0 ≤ (S + E) / 2 := by linarith
          gcongr
      _ ≤ (1 + e + 26 / 10 ^ 8) / 2 * (r⁻¹ * (1 + 4 / 10 ^ 14)) + (S - E) / 2 * 1 := by
          have : S + E ≤ 1 + e + 26 / 10 ^ 8 := by norm_num at *; linarith
          gcongr
      _ = (r⁻¹ * (1 + e) + 26 / 10 ^ 8 * r⁻¹) / 2 * (1 + 4 / 10 ^ 14) + (S - E) / 2 := by ring
      _ ≤ _ := by rw [hri]; norm_num at *; linarith

theorem updateZip_map {α β γ : Type*} (f : α → β → α) (a : γ → α) (b : γ → β) (P : List γ) :
    updateZip f (P.map a) (P.map b) = P.map fun p => f (a p) (b p) := by
  induction P with
  | nil => simp [updateZip]
  | cons p P ih => simp [updateZip, ih]

set_option maxHeartbeats 1000000 in
/-- One reweighting: it does not panic, and every weight is within a relative error of `2.1e-7` (and an absolute one of `2⁻¹⁰⁷⁵`) of the weight the
exact computation gives for the same weights, margins and hypothesis weight. -/
theorem reweight_core (L : Libm) (P : List (ℝ × ℝ)) {w : ℝ} (hZle : (P.map fun p => p.1 * Real.exp (-(w * p.2))).sum * Real.exp |w| ≤ 19996 / 10000)
    (hw4 : |w| ≤ 4) (hP : P ≠ []) (hn : P.length ≤ 10 ^ 5) (hx : ∀ p ∈ P, 2 * eta ≤ p.1) (hm : ∀ p ∈ P, |p.2| ≤ 1)
    (hs : |(P.map Prod.fst).sum - 1| ≤ 25 / 10 ^ 8) (r : Except Panic (List F64))
    (h : Reweight L (P.map fun p => fin p.1) (P.map fun p => fin p.2) (fin w) r) :
    ∃ g : ℝ × ℝ → ℝ, r = .ok (P.map fun p => fin (g p)) ∧
      (∀ p ∈ P, 2 * eta ≤ g p ∧
        p.1 / (19996 / 10000) ≤ p.1 * Real.exp (-(w * p.2)) / (P.map fun p => p.1 * Real.exp (-(w * p.2))).sum ∧
        |g p - p.1 * Real.exp (-(w * p.2)) / (P.map fun p => p.1 * Real.exp (-(w * p.2))).sum| ≤
          21 / 10 ^ 8 * (p.1 * Real.exp (-(w * p.2)) / (P.map fun p => p.1 * Real.exp (-(w * p.2))).sum) + eta) ∧
      |(P.map g).sum - 1| ≤ 25 / 10 ^ 8 := by
  have hu := u_small
  have hu0 := u_pos
  have het := eta_tiny
  have het0 := eta_pos
  have hs' := abs_le.mp hs
  have hw4' := abs_le.mp hw4
  have hx0 : ∀ p ∈ P, 0 < p.1 := fun p hp => by linarith [hx p hp]
  have hx2 : ∀ p ∈ P, p.1 ≤ 2 := by
    intro p hp
    have : p.1 ≤ (P.map Prod.fst).sum := List.single_le_sum (by
      simp only [List.mem_map]; rintro _ ⟨a, ha, rfl⟩; exact (hx0 a ha).le) _ (List.mem_map_of_mem hp)
    linarith
  -- the logarithms of the new weights
  set ℓ : ℝ × ℝ → ℝ := fun p => (sub (ln L (fin p.1)) (mul (fin w) (fin p.2))).val with hℓ
  have hℓ1 : ∀ p ∈ P, sub (ln L (fin p.1)) (mul (fin w) (fin p.2)) = fin (ℓ p) ∧ |ℓ p - (Real.log p.1 - w * p.2)| ≤ 1 / 10 ^ 12 := by
    intro p hp
    obtain ⟨l, h1, h2⟩ := logWeight_fin L (hx p hp) (hx2 p hp) hw4 (hm p hp)
    simp only [hℓ]
    rw [h1]
    exact ⟨rfl, h2⟩
  set q : ℝ × ℝ → ℝ := fun p => p.1 * Real.exp (-(w * p.2)) with hq
  set Z := (P.map q).sum with hZ
  have hq0 : ∀ p ∈ P, 0 < q p := fun p hp => mul_pos (hx0 p hp) (Real.exp_pos _)
  have hlogq : ∀ p ∈ P, Real.log (q p) = Real.log p.1 - w * p.2 := by
    intro p hp
    simp only [hq]
    rw [Real.log_mul (hx0 p hp).ne' (Real.exp_pos _).ne', Real.log_exp]; ring
  have hwm : ∀ p ∈ P, |w * p.2| ≤ |w| := by
    intro p hp
    rw [abs_mul]
    exact mul_le_of_le_one_right (abs_nonneg _) (hm p hp)
  have hexp : ∀ p ∈ P, |Real.exp (ℓ p) - q p| ≤ 2 / 10 ^ 12 * q p := by
    intro p hp
    have h1 := (hℓ1 p hp).2
    rw [← hlogq p hp] at h1
    have h2 := exp_close (by norm_num) h1
    rw [Real.exp_log (hq0 p hp)] at h2
    linarith
  -- the range of the normaliser
  have hZlo : (1 - 25 / 10 ^ 8) * Real.exp (-|w|) ≤ Z := by
    have h1 : (P.map fun p => p.1 * Real.exp (-|w|)).sum ≤ Z := by
      apply List.sum_le_sum
      intro p hp
      simp only [hq]
      have := (abs_le.mp (hwm p hp)).2
      exact mul_le_mul_of_nonneg_left (Real.exp_le_exp.mpr (by linarith)) (hx0 p hp).le
    rw [List.sum_map_mul_right] at h1
    refine le_trans ?_ h1
    have := Real.exp_pos (-|w|)
    have h3 : (P.map fun p => p.1).sum = (P.map Prod.fst).sum := rfl
    rw [h3]
    exact mul_le_mul_of_nonneg_right (by linarith) this.le
  have hZ0 : 0 < Z := lt_of_lt_of_le (mul_pos (by norm_num) (Real.exp_pos _)) hZlo
  have he1 : 1 ≤ Real.exp |w| := Real.one_le_exp (abs_nonneg w)
  have hZ2 : Z ≤ 2 := by nlinarith
  have hlogZ1 : Real.log Z ≤ 1 := by
    have := Real.log_le_sub_one_of_pos hZ0; linarith
  have hlogZ0 : -5 ≤ Real.log Z := by
    have h1 := Real.log_le_log (mul_pos (by norm_num) (Real.exp_pos _)) hZlo
    rw [Real.log_mul (by norm_num) (Real.exp_pos _).ne', Real.log_exp] at h1
    have h2 := Real.one_sub_inv_le_log_of_pos (show (0 : ℝ) < 1 - 25 / 10 ^ 8 by norm_num)
    have h3 : (1 - (25 : ℝ) / 10 ^ 8)⁻¹ ≤ 2 := by norm_num
    linarith
  have hΛ : |((P.map ℓ).map Real.exp).sum - Z| ≤ 2 / 10 ^ 12 * Z := by
    have key : ∀ Q : List (ℝ × ℝ), (∀ p ∈ Q, |Real.exp (ℓ p) - q p| ≤ 2 / 10 ^ 12 * q p) →
        |((Q.map ℓ).map Real.exp).sum - (Q.map q).sum| ≤ 2 / 10 ^ 12 * (Q.map q).sum := by
      intro Q
      induction Q with
      | nil => intro _; simp
      | cons p Q ih =>
        intro hQ
        have h1 := abs_le.mp (ih fun p' hp' => hQ p' (by simp [hp']))
        have h2 := abs_le.mp (hQ p (by simp))
        simp only [List.map_cons, List.sum_cons]
        rw [abs_le]; constructor <;> linarith
    exact key P hexp
  obtain ⟨hΛ0, hΛl⟩ := log_close hZ0 (by norm_num) hΛ
  have hlℓ : ∀ p ∈ P, -751 ≤ ℓ p ∧ ℓ p ≤ 10 := by
    intro p hp
    have h1 := abs_le.mp (hℓ1 p hp).2
    have h2 := abs_le.mp ((hwm p hp).trans hw4)
    have h3 := Real.log_le_log (by linarith) (hx p hp)
    have h4 := log_two_eta
    have h5 := Real.log_le_log (hx0 p hp) (hx2 p hp)
    have h6 := Real.log_two_lt_d9
    constructor <;> linarith
  -- the computation
  obtain ⟨logDist, hl, h⟩ := h
  rw [parUpdate_iff, updateZip_map] at hl
  have hld : logDist = (P.map ℓ).map fin := by
    rw [hl, List.map_map]
    apply List.map_congr_left
    intro p hp
    exact (hℓ1 p hp).1
  rw [hld] at h
  have hnan : ¬ (2 ≤ ((P.map ℓ).map fin).length ∧ nan ∈ (P.map ℓ).map fin) := by
    rintro ⟨-, h1⟩
    simp at h1
  rw [if_neg hnan] at h
  obtain ⟨idx, ⟨hperm, -⟩, h⟩ := h
  obtain ⟨z, hz, hze⟩ := normalizer_err L (P.map ℓ) idx (by simpa using hperm) (by simpa using hP)
    (by
      have h1 := (abs_le.mp hΛ).2
      have h2 := Real.add_one_le_exp (10 : ℝ)
      have : 2 / 10 ^ 12 * Z ≤ Z := by norm_num; linarith
      linarith)
    (by simp only [List.mem_map]; rintro _ ⟨p, hp, rfl⟩; exact (hlℓ p hp).1) (by simpa using hn)
  rw [hz] at h
  obtain ⟨new, hnew, rfl⟩ := h
  rw [parMap_iff] at hnew
  have hzZ : |z - Real.log Z| ≤ 1 / 10 ^ 7 + 4 / 10 ^ 12 := by
    have := abs_add_le (z - Real.log ((P.map ℓ).map Real.exp).sum) (Real.log ((P.map ℓ).map Real.exp).sum - Real.log Z)
    rw [sub_add_sub_cancel] at this
    linarith
  have hzZ' := abs_le.mp hzZ
  set g : ℝ × ℝ → ℝ := fun p => (exp L (sub (fin (ℓ p)) (fin z))).val with hg
  have hgp : ∀ p ∈ P, exp L (sub (fin (ℓ p)) (fin z)) = fin (g p) ∧ 2 * eta ≤ g p ∧ p.1 / (19996 / 10000) ≤ q p / Z ∧ |g p - q p / Z| ≤ 21 / 10 ^ 8 * (q p / Z) + eta := by
    intro p hp
    have hb := hlℓ p hp
    have h1 := abs_le.mp (hℓ1 p hp).2
    rw [← hlogq p hp] at h1
    have hd := Real.log_div (hq0 p hp).ne' hZ0.ne'
    obtain ⟨t, ht, hte⟩ := sub_fin (a := ℓ p) (b := z) 800 (by norm_num) (by exact abs_le.mpr ⟨by linarith, by linarith⟩)
    have hte' := abs_le.mp hte
    have hte3 : u * 800 + eta ≤ 1 / 10 ^ 12 := by linarith
    have htq : |t - Real.log (q p / Z)| ≤ 101 / 10 ^ 9 := by
      rw [hd, abs_le]
      constructor <;> (linarith)
    have hQ0 : 0 < q p / Z := div_pos (hq0 p hp) hZ0
    have h2 := exp_close (by norm_num) htq
    rw [Real.exp_log hQ0] at h2
    have h3 := abs_le.mp h2
    have hQ1 : q p / Z ≤ 1 := by
      rw [div_le_one hZ0]
      exact List.single_le_sum (by simp only [List.mem_map]; rintro _ ⟨a, ha, rfl⟩; exact (hq0 a ha).le) _ (List.mem_map_of_mem hp)
    have hQlo : p.1 / (19996 / 10000) ≤ q p / Z := by
      rw [div_le_div_iff₀ (by norm_num) hZ0]
      have h4 : p.1 * Real.exp (-|w|) ≤ q p := by
        simp only [hq]
        have := (abs_le.mp (hwm p hp)).2
        exact mul_le_mul_of_nonneg_left (Real.exp_le_exp.mpr (by linarith)) (hx0 p hp).le
      have h5 : Real.exp (-|w|) * Real.exp |w| = 1 := by rw [← Real.exp_add]; simp
      have h6 : Z ≤ 19996 / 10000 * Real.exp (-|w|) := by
        have := mul_le_mul_of_nonneg_right hZle (Real.exp_pos (-|w|)).le
        rw [mul_assoc, mul_comm (Real.exp |w|), h5, mul_one] at this
        exact this
      calc p.1 * Z ≤ p.1 * (19996 / 10000 * Real.exp (-|w|)) := mul_le_mul_of_nonneg_left h6 (hx0 p hp).le
        _ = p.1 * Real.exp (-|w|) * (19996 / 10000) := by ring
        _ ≤ q p * (19996 / 10000) := by gcongr
    generalize q p / Z = Q at *
    have ht1 : t ≤ 40 := by linarith
    obtain ⟨y, hy, hye, hyp⟩ := exp_fin L ht1
    have hgy : g p = y := by simp only [hg]; rw [ht, hy]; rfl
    have hxp := hx p hp
    rw [ht, hgy]
    have hye' := abs_le.mp hye
    have hET : Real.exp t ≤ 2 := by linarith
    have hET0 := Real.exp_pos t
    refine ⟨hy, hyp ?_, hQlo, ?_⟩
    · have h7 : (1 - 202 / 10 ^ 9) * Q ≤ Real.exp t := by linarith
      have h8 : 1 - 1 / 10 ^ 9 ≤ 1 - 8 * u := by linarith
      have h9 : (1 - 1 / 10 ^ 9) * ((1 - 202 / 10 ^ 9) * Q) ≤ (1 - 8 * u) * Real.exp t := by
        apply mul_le_mul h8 h7 _ (by linarith)
        apply mul_nonneg (by norm_num) hQ0.le
      refine lt_of_lt_of_le ?_ h9
      linarith
    · have h7 : |y - Q| ≤ |y - Real.exp t| + |Real.exp t - Q| := by
        have := abs_add_le (y - Real.exp t) (Real.exp t - Q)
        rwa [sub_add_sub_cancel] at this
      have h8 : 10 * u * Real.exp t ≤ 1 / 10 ^ 9 * Q := by
        have h10 : Real.exp t ≤ 2 * Q := by linarith
        have h11 : 10 * u ≤ 1 / (2 * 10 ^ 9) := by linarith
        calc 10 * u * Real.exp t ≤ 1 / (2 * 10 ^ 9) * (2 * Q) := by gcongr
          _ = _ := by ring
      linarith
  refine ⟨g, ?_, fun p hp => (hgp p hp).2, ?_⟩
  · rw [hnew, List.map_map, List.map_map]
    congr 1
    apply List.map_congr_left
    intro p hp
    exact (hgp p hp).1
  · have key : ∀ Q : List (ℝ × ℝ), (∀ p ∈ Q, |g p - q p / Z| ≤ 21 / 10 ^ 8 * (q p / Z) + eta) →
        |(Q.map g).sum - (Q.map q).sum / Z| ≤ 21 / 10 ^ 8 * ((Q.map q).sum / Z) + Q.length * eta := by
      intro Q
      induction Q with
      | nil => intro _; simp
      | cons p Q ih =>
        intro hQ
        have h1 := abs_le.mp (ih fun p' hp' => hQ p' (by simp [hp']))
        have h2 := abs_le.mp (hQ p (by simp))
        simp only [List.map_cons, List.sum_cons, List.length_cons, Nat.cast_add, Nat.cast_one, add_div, mul_add]
        rw [abs_le]; constructor <;> linarith
    have h1 := key P fun p hp => (hgp p hp).2.2.2
    rw [← hZ, div_self hZ0.ne'] at h1
    refine h1.trans ?_
    have hn' : (P.length : ℝ) ≤ 100000 := by exact_mod_cast (by omega : P.length ≤ 100000)
    have : (P.length : ℝ) * eta ≤ 100000 * (1 / 10 ^ 60) := by gcongr
    linarith

/-- One reweighting: it does not panic, and every weight is within a relative error of `2.1e-7` (and an absolute one of `2⁻¹⁰⁷⁵`) of the weight the
exact computation gives for the same weights, margins and hypothesis weight. -/
theorem reweight_fin (L : Libm) (P : List (ℝ × ℝ)) {e w : ℝ} (he : |e| ≤ 999 / 1000) (hw : |w - Real.log ((1 + e) / (1 - e)) / 2| ≤ 1 / 10 ^ 14)
    (hw4 : |w| ≤ 4) (hP : P ≠ []) (hn : P.length ≤ 10 ^ 5) (hx : ∀ p ∈ P, 2 * eta ≤ p.1) (hm : ∀ p ∈ P, |p.2| ≤ 1)
    (hs : |(P.map Prod.fst).sum - 1| ≤ 25 / 10 ^ 8) (hE : |(P.map fun p => p.2 * p.1).sum - e| ≤ 1 / 10 ^ 9) (r : Except Panic (List F64))
    (h : Reweight L (P.map fun p => fin p.1) (P.map fun p => fin p.2) (fin w) r) :
    ∃ g : ℝ × ℝ → ℝ, r = .ok (P.map fun p => fin (g p)) ∧
      (∀ p ∈ P, 2 * eta ≤ g p ∧
        p.1 / (19996 / 10000) ≤ p.1 * Real.exp (-(w * p.2)) / (P.map fun p => p.1 * Real.exp (-(w * p.2))).sum ∧
        |g p - p.1 * Real.exp (-(w * p.2)) / (P.map fun p => p.1 * Real.exp (-(w * p.2))).sum| ≤
          21 / 10 ^ 8 * (p.1 * Real.exp (-(w * p.2)) / (P.map fun p => p.1 * Real.exp (-(w * p.2))).sum) + eta) ∧
      |(P.map g).sum - 1| ≤ 25 / 10 ^ 8 := by
  have hx0 : ∀ p ∈ P, 0 ≤ p.1 := fun p hp => by linarith [hx p hp, eta_pos]
  exact reweight_core L P (norm_bound P he hw hx0 hm (by linarith [(abs_le.mp hs).2]) hE) hw4 hP hn hx hm hs r h

end F64

end Miniboosts
