import Verif.Model.FloatGBM
import Verif.Lemmas.FloatRegTree
import Verif.Lemmas.FloatMono
import Verif.Lemmas.Rayon

/-! # Gradient boosting in `f64` -/

namespace Miniboosts

open Miniboosts F64 Spec

/-! ## Sums of integers -/

theorem foldl_int_abs : ∀ (zs : List ℤ) (a : ℤ), |a| + (zs.map (|·|)).sum < 2 ^ 53 →
    (zs.map fun z : ℤ => fin (z : ℝ)).foldl add (fin (a : ℝ)) = fin ((a + zs.sum : ℤ) : ℝ) := by
  intro zs
  induction zs with
  | nil => intro a _; simp
  | cons z zs ih =>
    intro a hb
    simp only [List.map_cons, List.sum_cons] at hb
    have h2 : |a + z| ≤ |a| + |z| := abs_add_le a z
    have h3 : 0 ≤ (zs.map (|·|)).sum := List.sum_nonneg (by intro y hy; obtain ⟨w, -, rfl⟩ := List.mem_map.mp hy; exact abs_nonneg w)
    rw [List.map_cons, List.foldl_cons, FReg.add_int (by omega), ih (a + z) (by omega), List.sum_cons]
    congr 1
    push_cast
    ring

theorem abs_sum_le_int (zs : List ℤ) : |zs.sum| ≤ (zs.map (|·|)).sum := by
  induction zs with
  | nil => simp
  | cons z zs ih =>
    rw [List.sum_cons, List.map_cons, List.sum_cons]
    exact (abs_add_le _ _).trans (by linarith)

/-- A sum of integers is exact, however the work is divided. -/
theorem split_int_abs : ∀ (t : Split F64) (zs : List ℤ), t.items = zs.map (fun z : ℤ => fin (z : ℝ)) → (zs.map (|·|)).sum < 2 ^ 53 →
    t.sum add (fin 0) = fin ((zs.sum : ℤ) : ℝ) := by
  intro t
  induction t with
  | seq l =>
    intro zs hi hz
    simp only [Split.items] at hi
    have := foldl_int_abs zs 0 (by simpa using hz)
    subst hi
    have e : (Split.seq (zs.map fun z : ℤ => fin (z : ℝ))).sum add (fin 0) = (zs.map fun z : ℤ => fin (z : ℝ)).foldl add (fin 0) := rfl
    rw [e]
    simpa using this
  | join l r hl hr =>
    intro zs hi hz
    simp only [Split.items] at hi
    obtain ⟨ys, ws, rfl, h2, h3⟩ := List.append_eq_map_iff.mp hi
    rw [List.map_append, List.sum_append] at hz
    have p1 : 0 ≤ (ys.map (|·|)).sum := (abs_nonneg _).trans (abs_sum_le_int ys)
    have p2 : 0 ≤ (ws.map (|·|)).sum := (abs_nonneg _).trans (abs_sum_le_int ws)
    have e1 := hl ys h2.symm (by omega)
    have e2 := hr ws h3.symm (by omega)
    have h4 := abs_sum_le_int ys
    have h5 := abs_sum_le_int ws
    have h6 := abs_add_le ys.sum ws.sum
    show add (l.sum add (fin 0)) (r.sum add (fin 0)) = _
    rw [e1, e2, FReg.add_int (by omega), List.sum_append]

/-! ## The line search of the absolute loss -/

theorem add_nonneg_form {a b : F64} (ha : Le (fin 0) a) (hb : Le (fin 0) b) : add a b = inf false ∨ ∃ x, F64.Rep x ∧ 0 ≤ x ∧ x < 2 ^ (1024 : ℕ) ∧ add a b = fin x := by
  cases a with
  | nan => cases ha
  | inf s =>
    cases s with
    | true => cases ha
    | false =>
      cases b with
      | nan => cases hb
      | inf t =>
        cases t with
        | true => cases hb
        | false => exact Or.inl (by simp [add])
      | fin y => exact Or.inl rfl
  | fin x =>
    cases b with
    | nan => cases hb
    | inf t =>
      cases t with
      | true => cases hb
      | false => exact Or.inl rfl
    | fin y =>
      have hx : 0 ≤ x := ha
      have hy : 0 ≤ y := hb
      change rnd (x + y) = _ ∨ ∃ z, F64.Rep z ∧ 0 ≤ z ∧ z < 2 ^ (1024 : ℕ) ∧ rnd (x + y) = fin z
      have hp : 0 ≤ F64.round (x + y) := F64.round_nonneg (by linarith)
      unfold rnd
      by_cases h : 2 ^ (1024 : ℕ) ≤ |F64.round (x + y)|
      · rw [if_pos h]
        exact Or.inl (by rw [decide_eq_false (by linarith)])
      · rw [if_neg h]
        rw [not_le, abs_of_nonneg hp] at h
        exact Or.inr ⟨_, rep_round _, hp, h, rfl⟩

theorem foldl_nonneg_form : ∀ (l : List F64) (a : F64), (∀ x ∈ l, Le (fin 0) x) → (a = inf false ∨ ∃ x, F64.Rep x ∧ 0 ≤ x ∧ x < 2 ^ (1024 : ℕ) ∧ a = fin x) →
    l.foldl add a = inf false ∨ ∃ x, F64.Rep x ∧ 0 ≤ x ∧ x < 2 ^ (1024 : ℕ) ∧ l.foldl add a = fin x := by
  intro l
  induction l with
  | nil => intro a _ h; exact h
  | cons b l ih =>
    intro a hl ha
    have h0 : Le (fin 0) a := by
      rcases ha with rfl | ⟨x, -, hx, -, rfl⟩
      · rfl
      · exact hx
    exact ih _ (fun x hx => hl x (List.mem_cons_of_mem _ hx)) (add_nonneg_form h0 (hl b (by simp)))

theorem half_le {t : F64} (h : t = inf false ∨ ∃ x, F64.Rep x ∧ 0 ≤ x ∧ x < 2 ^ (1024 : ℕ) ∧ t = fin x) : Le (mul (fin (1 / 2)) t) t := by
  rcases h with rfl | ⟨x, hr, hx, hlt, rfl⟩
  · have : mul (fin (1 / 2)) (inf false) = inf false := by
      change (if (1 / 2 : ℝ) = 0 then nan else inf (xor false (decide ((1 / 2 : ℝ) < 0)))) = _
      rw [if_neg (by norm_num), decide_eq_false (by norm_num)]
      rfl
    rw [this]
    exact Or.inr rfl
  · have h1 : F64.round (1 / 2 * x) ≤ x := round_le_rep hr (by linarith)
    have h2 : 0 ≤ F64.round (1 / 2 * x) := F64.round_nonneg (by linarith)
    change Le (rnd (1 / 2 * x)) _
    unfold rnd
    by_cases h : 2 ^ (1024 : ℕ) ≤ |F64.round (1 / 2 * x)|
    · exfalso
      rw [abs_of_nonneg h2] at h
      linarith
    · rw [if_neg h]
      exact h1

theorem medianLoop_f64_ok (half : F64) : ∀ (l : List (F64 × F64)) (a : F64), l ≠ [] → Le half ((l.map Prod.fst).foldl add a) →
    ∃ p ∈ l, GBMLoss.medianLoopF half l a = .ok p.2 := by
  intro l
  induction l with
  | nil => intro a h; exact absurd rfl h
  | cons p l ih =>
    intro a _ h
    obtain ⟨w, x⟩ := p
    simp only [List.map_cons, List.foldl_cons] at h
    unfold GBMLoss.medianLoopF
    by_cases h1 : Le half (add a w)
    · rw [if_pos h1]; exact ⟨(w, x), by simp, rfl⟩
    · rw [if_neg h1]
      cases l with
      | nil => exact absurd h h1
      | cons q l =>
        obtain ⟨p, hp, e⟩ := ih (add a w) (by simp) h
        exact ⟨p, List.mem_cons_of_mem _ hp, e⟩

end Miniboosts
