import Verif.Lemmas.FloatRegTree
import Verif.Lemmas.FloatMeans
import Verif.Spec.FloatEdge

/-! # What the regression trees learned in `f64` answer -/

namespace Miniboosts.FReg

open Miniboosts F64 Spec

theorem TreeOf.ne {s : Sample ℝ} {g h : List F64} {lam : F64} : ∀ {d : ℕ} {tree : TreeNode F64} {idx : List ℕ}, TreeOf s g h lam d tree idx → idx ≠ [] := by
  intro d
  induction d with
  | zero => intro tree idx ht; cases tree with
    | leaf c => exact ht.1
    | branch => exact ht.elim
  | succ d ih => intro tree idx ht; cases tree with
    | leaf c => exact ht.1
    | branch rule l r => rintro rfl; obtain ⟨-, p, -, hl, -⟩ := ht; exact ih hl rfl

/-- At most `d` tests. -/
theorem TreeOf.turns_le {s : Sample ℝ} {g h : List F64} {lam : F64} (x : String → Option ℝ) : ∀ {d : ℕ} {tree : TreeNode F64} {idx : List ℕ},
    TreeOf s g h lam d tree idx → (turns x tree).length ≤ d := by
  intro d
  induction d with
  | zero => intro tree idx ht; cases tree with
    | leaf c => simp [turns]
    | branch => exact ht.elim
  | succ d ih => intro tree idx ht; cases tree with
    | leaf c => simp [turns]
    | branch rule l r =>
      obtain ⟨-, p, -, hl, hr⟩ := ht
      unfold turns
      cases x rule.feature with
      | none => simp
      | some v =>
        simp only
        split
        · simpa using ih hl
        · simpa using ih hr

/-- Each row is answered with the value computed from the rows of its leaf. -/
theorem TreeOf.mates {s : Sample ℝ} (hs : SampleOk s) {g h : List F64} {lam : F64} : ∀ {d : ℕ} {tree : TreeNode F64} {idx : List ℕ},
    TreeOf s g h lam d tree idx → (∀ i ∈ idx, i < s.nSample) → ∀ i ∈ idx, ∃ c l, FTree.confidence s i tree = some c ∧
      open Classical in PredLoss (idx.filter fun j => decide (turns (valueAt s j) tree = turns (valueAt s i) tree)) g h lam (some (c, l)) := by
  classical
  have leafCase : ∀ {d : ℕ} {c : F64} {idx : List ℕ}, TreeOf s g h lam d (.leaf c) idx → ∀ i ∈ idx, ∃ c' l, FTree.confidence s i (.leaf c) = some c' ∧
      PredLoss (idx.filter fun j => decide (turns (valueAt s j) (.leaf c) = turns (valueAt s i) (.leaf c))) g h lam (some (c', l)) := by
    intro d c idx ht i hi
    have : ∃ l, PredLoss idx g h lam (some (c, l)) := by cases d <;> exact ht.2
    obtain ⟨l, hl⟩ := this
    refine ⟨c, l, rfl, ?_⟩
    simpa [turns] using hl
  intro d
  induction d with
  | zero => intro tree idx ht hrow; cases tree with
    | leaf c => exact leafCase ht
    | branch => exact ht.elim
  | succ d ih => intro tree idx ht hrow; cases tree with
    | leaf c => exact leafCase ht
    | branch rule lt rt =>
      obtain ⟨-, p, hp, hl, hr⟩ := ht
      intro i hi
      have key : ∀ j ∈ idx, turns (valueAt s j) (.branch rule lt rt) = if p j then true :: turns (valueAt s j) lt else false :: turns (valueAt s j) rt := by
        intro j hj
        obtain ⟨v, hv1, hv2⟩ := FTree.goesLeft_valueAt hs (hrow j hj) (hp j hj)
        conv_lhs => unfold turns
        rw [hv1, hv2]
        by_cases hc : F64.Lt (fin v) rule.threshold <;> simp [hc]
      rw [key i hi]
      cases hpi : p i with
      | true =>
        obtain ⟨c, l, h1, h2⟩ := ih hl (fun j hj => hrow j (List.mem_filter.mp hj).1) i (List.mem_filter.mpr ⟨hi, hpi⟩)
        refine ⟨c, l, ?_, ?_⟩
        · unfold FTree.confidence; rw [hp i hi, hpi]; exact h1
        · have : idx.filter (fun j => decide (turns (valueAt s j) (.branch rule lt rt) = if true = true then true :: turns (valueAt s i) lt else false :: turns (valueAt s i) rt)) =
              (idx.filter p).filter fun j => decide (turns (valueAt s j) lt = turns (valueAt s i) lt) := by
            rw [List.filter_filter]
            refine List.filter_congr fun j hj => ?_
            rw [key j hj]
            cases p j <;> simp
          rw [this]
          exact h2
      | false =>
        obtain ⟨c, l, h1, h2⟩ := ih hr (fun j hj => hrow j (List.mem_filter.mp hj).1) i (List.mem_filter.mpr ⟨hi, by simp [hpi]⟩)
        refine ⟨c, l, ?_, ?_⟩
        · unfold FTree.confidence; rw [hp i hi, hpi]; exact h1
        · have : idx.filter (fun j => decide (turns (valueAt s j) (.branch rule lt rt) = if false = true then true :: turns (valueAt s i) lt else false :: turns (valueAt s i) rt)) =
              (idx.filter fun j => !p j).filter fun j => decide (turns (valueAt s j) rt = turns (valueAt s i) rt) := by
            rw [List.filter_filter]
            refine List.filter_congr fun j hj => ?_
            rw [key j hj]
            cases p j <;> simp
          rw [this]
          exact h2

/-! ## Sums of numbers of either sign -/

/-- A sequential sum. -/
theorem foldl_signed : ∀ (xs : List ℝ) (a A e : ℝ) (k : ℕ), (∀ x ∈ xs, F64.Rep x) → F64.Rep a → |a - e| ≤ ((1 + u) ^ k - 1) * A → |e| ≤ A →
    A + (xs.map (|·|)).sum ≤ 10 ^ 19 → k + xs.length ≤ 10 ^ 6 →
    ∃ s, (xs.map fin).foldl add (fin a) = fin s ∧ F64.Rep s ∧ |s - (e + xs.sum)| ≤ ((1 + u) ^ (k + xs.length) - 1) * (A + (xs.map (|·|)).sum) := by
  intro xs
  induction xs with
  | nil => intro a A e k _ ha h _ _ _; exact ⟨a, rfl, ha, by simpa using h⟩
  | cons x xs ih =>
    intro a A e k hx ha h he hA hk
    have hu := u_pos
    have hp1 : (1 : ℝ) ≤ (1 + u) ^ k := one_le_pow₀ hi_ge
    rw [List.map_cons, List.sum_cons] at hA
    rw [List.length_cons] at hk
    have hs0 : 0 ≤ (xs.map (|·|)).sum := List.sum_nonneg (by intro y hy; obtain ⟨z, -, rfl⟩ := List.mem_map.mp hy; exact abs_nonneg z)
    have hA0 : 0 ≤ A := (abs_nonneg e).trans he
    have hpow := FTree.hi_pow (k := k) (by omega)
    have hae : |a| ≤ (1 + u) ^ k * A := by
      have : |a| ≤ |a - e| + |e| := by have := abs_add_le (a - e) e; rwa [sub_add_cancel] at this
      nlinarith
    have hax : |a + x| ≤ (1 + u) ^ k * (A + |x|) := by
      have := abs_add_le a x
      have h2 : |x| ≤ (1 + u) ^ k * |x| := le_mul_of_one_le_left (abs_nonneg x) hp1
      rw [mul_add]
      linarith
    have hax' : |a + x| ≤ 10 ^ 20 := by
      have : (1 + u) ^ k * (A + |x|) ≤ 2 * 10 ^ 19 := by
        have : A + |x| ≤ 10 ^ 19 := by linarith
        have h0 : 0 ≤ A + |x| := by positivity
        nlinarith
      linarith [show (2 : ℝ) * 10 ^ 19 ≤ 10 ^ 20 by norm_num]
    have hadd : add (fin a) (fin x) = fin (F64.round (a + x)) := by rw [add, rnd_small hax']
    have herr := add_rel ha (hx x (by simp))
    obtain ⟨s, e1, e2, e3⟩ := ih (F64.round (a + x)) (A + |x|) (e + x) (k + 1) (fun y hy => hx y (List.mem_cons_of_mem _ hy)) (rep_round _)
      (by
        have h1 : F64.round (a + x) - (e + x) = (F64.round (a + x) - (a + x)) + (a - e) := by ring
        rw [h1]
        refine (abs_add_le _ _).trans ?_
        have h2 : u * |a + x| ≤ u * ((1 + u) ^ k * (A + |x|)) := mul_le_mul_of_nonneg_left hax hu.le
        have h3 : ((1 + u) ^ k - 1) * A ≤ ((1 + u) ^ k - 1) * (A + |x|) := mul_le_mul_of_nonneg_left (by linarith [abs_nonneg x]) (by linarith)
        have h4 : ((1 + u) ^ (k + 1) - 1) * (A + |x|) = u * ((1 + u) ^ k * (A + |x|)) + ((1 + u) ^ k - 1) * (A + |x|) := by ring
        rw [h4]
        linarith)
      ((abs_add_le _ _).trans (by linarith)) (by linarith) (by omega)
    refine ⟨s, ?_, e2, ?_⟩
    · rw [List.map_cons, List.foldl_cons, hadd]; exact e1
    · rw [List.sum_cons, List.map_cons, List.sum_cons, List.length_cons, show k + (xs.length + 1) = k + 1 + xs.length by omega, ← add_assoc e, ← add_assoc A]
      exact e3

/-- However the work is divided. -/
theorem split_signed : ∀ (t : Split F64) (xs : List ℝ), t.items = xs.map fin → (∀ x ∈ xs, F64.Rep x) → (xs.map (|·|)).sum ≤ 10 ^ 19 → xs.length ≤ 10 ^ 6 →
    ∃ s, t.sum add (fin 0) = fin s ∧ F64.Rep s ∧ |s - xs.sum| ≤ ((1 + u) ^ xs.length - 1) * (xs.map (|·|)).sum := by
  intro t
  induction t with
  | seq l =>
    intro xs hi hx hA hk
    simp only [Split.items] at hi
    subst hi
    obtain ⟨s, e1, e2, e3⟩ := foldl_signed xs 0 0 0 0 hx rep_zero (by simp) (by simp) (by simpa using hA) (by simpa using hk)
    exact ⟨s, e1, e2, by simpa using e3⟩
  | join l r hl hr =>
    intro xs hi hx hA hk
    simp only [Split.items] at hi
    obtain ⟨ys, zs, rfl, h1, h2⟩ := List.append_eq_map_iff.mp hi
    rw [List.map_append, List.sum_append] at hA
    rw [List.length_append] at hk
    have hnn : ∀ ws : List ℝ, 0 ≤ (ws.map (|·|)).sum := fun ws => List.sum_nonneg (by intro y hy; obtain ⟨z, -, rfl⟩ := List.mem_map.mp hy; exact abs_nonneg z)
    have habs : ∀ ws : List ℝ, |ws.sum| ≤ (ws.map (|·|)).sum := fun ws => by
      induction ws with
      | nil => simp
      | cons w ws ih => rw [List.sum_cons, List.map_cons, List.sum_cons]; exact (abs_add_le _ _).trans (by linarith)
    obtain ⟨a, a1, a2, a3⟩ := hl ys h1.symm (fun x h => hx x (List.mem_append_left _ h)) (by linarith [hnn zs]) (by omega)
    obtain ⟨b, b1, b2, b3⟩ := hr zs h2.symm (fun x h => hx x (List.mem_append_right _ h)) (by linarith [hnn ys]) (by omega)
    have hu := u_pos
    have hsum : (Split.join l r).sum add (fin 0) = add (fin a) (fin b) := by
      show add (l.sum add (fin 0)) (r.sum add (fin 0)) = _
      rw [a1, b1]
    rw [hsum]
    by_cases hy : ys = []
    · subst hy
      have ha0 : a = 0 := by simpa using a3
      subst ha0
      have hb20 : |0 + b| ≤ 10 ^ 20 := by
        rw [zero_add]
        have h5 := FTree.hi_pow (k := zs.length) (by omega)
        have h6 := habs zs
        have h7 : |b| ≤ |b - zs.sum| + |zs.sum| := by have := abs_add_le (b - zs.sum) zs.sum; rwa [sub_add_cancel] at this
        have h8 := hnn zs
        have h9 : (zs.map (|·|)).sum ≤ 10 ^ 19 := by simpa using hA
        have h10 : ((1 + u) ^ zs.length - 1) * (zs.map (|·|)).sum ≤ 1 * (zs.map (|·|)).sum := mul_le_mul_of_nonneg_right (by linarith) h8
        linarith [show (2 : ℝ) * 10 ^ 19 ≤ 10 ^ 20 by norm_num]
      refine ⟨b, ?_, b2, by simpa using b3⟩
      rw [add, rnd_small hb20, zero_add, round_of_rep b2]
    by_cases hz : zs = []
    · subst hz
      have hb0 : b = 0 := by simpa using b3
      subst hb0
      have hb20 : |a + 0| ≤ 10 ^ 20 := by
        rw [add_zero]
        have h5 := FTree.hi_pow (k := ys.length) (by omega)
        have h6 := habs ys
        have h7 : |a| ≤ |a - ys.sum| + |ys.sum| := by have := abs_add_le (a - ys.sum) ys.sum; rwa [sub_add_cancel] at this
        have h8 := hnn ys
        have h9 : (ys.map (|·|)).sum ≤ 10 ^ 19 := by simpa using hA
        have h10 : ((1 + u) ^ ys.length - 1) * (ys.map (|·|)).sum ≤ 1 * (ys.map (|·|)).sum := mul_le_mul_of_nonneg_right (by linarith) h8
        linarith [show (2 : ℝ) * 10 ^ 19 ≤ 10 ^ 20 by norm_num]
      refine ⟨a, ?_, a2, by simpa using a3⟩
      rw [add, rnd_small hb20, add_zero, round_of_rep a2]
    obtain ⟨m, hm⟩ : ∃ m, ys.length + zs.length = m + 1 := ⟨ys.length + zs.length - 1, by have := List.length_pos_iff.mpr hy; omega⟩
    have hly : ys.length ≤ m := by have := List.length_pos_iff.mpr hz; omega
    have hlz : zs.length ≤ m := by have := List.length_pos_iff.mpr hy; omega
    have hpy : (1 + u) ^ ys.length ≤ (1 + u) ^ m := pow_le_pow_right₀ hi_ge hly
    have hpz : (1 + u) ^ zs.length ≤ (1 + u) ^ m := pow_le_pow_right₀ hi_ge hlz
    have hpm := FTree.hi_pow (k := m) (by omega)
    have hp1 : (1 : ℝ) ≤ (1 + u) ^ m := one_le_pow₀ hi_ge
    set A := (ys.map (|·|)).sum with hAd
    set B := (zs.map (|·|)).sum with hBd
    have hA0 : 0 ≤ A := hnn ys
    have hB0 : 0 ≤ B := hnn zs
    have e1 : |a - ys.sum| ≤ ((1 + u) ^ m - 1) * A := a3.trans (mul_le_mul_of_nonneg_right (by linarith) hA0)
    have e2 : |b - zs.sum| ≤ ((1 + u) ^ m - 1) * B := b3.trans (mul_le_mul_of_nonneg_right (by linarith) hB0)
    have e3 : |a + b - (ys.sum + zs.sum)| ≤ ((1 + u) ^ m - 1) * (A + B) := by
      have : a + b - (ys.sum + zs.sum) = (a - ys.sum) + (b - zs.sum) := by ring
      rw [this, mul_add]
      exact (abs_add_le _ _).trans (add_le_add e1 e2)
    have e4 : |a + b| ≤ (1 + u) ^ m * (A + B) := by
      have h1 : |a + b| ≤ |a + b - (ys.sum + zs.sum)| + |ys.sum + zs.sum| := by
        have := abs_add_le (a + b - (ys.sum + zs.sum)) (ys.sum + zs.sum); rwa [sub_add_cancel] at this
      have h2 : |ys.sum + zs.sum| ≤ A + B := (abs_add_le _ _).trans (add_le_add (habs ys) (habs zs))
      have h3 : (1 + u) ^ m * (A + B) = ((1 + u) ^ m - 1) * (A + B) + (A + B) := by ring
      linarith
    have e5 : |a + b| ≤ 10 ^ 20 := by
      have : (1 + u) ^ m * (A + B) ≤ 2 * (A + B) := mul_le_mul_of_nonneg_right hpm (by linarith)
      linarith [show (2 : ℝ) * 10 ^ 19 ≤ 10 ^ 20 by norm_num]
    refine ⟨F64.round (a + b), by rw [add, rnd_small e5], rep_round _, ?_⟩
    rw [List.sum_append, List.map_append, List.sum_append, List.length_append, hm]
    have e6 := add_rel a2 b2
    have e7 : F64.round (a + b) - (ys.sum + zs.sum) = (F64.round (a + b) - (a + b)) + (a + b - (ys.sum + zs.sum)) := by ring
    rw [e7]
    refine (abs_add_le _ _).trans ?_
    have e8 : ((1 + u) ^ (m + 1) - 1) * (A + B) = u * ((1 + u) ^ m * (A + B)) + ((1 + u) ^ m - 1) * (A + B) := by ring
    rw [e8]
    have e9 : u * |a + b| ≤ u * ((1 + u) ^ m * (A + B)) := mul_le_mul_of_nonneg_left e4 hu.le
    linarith

/-! ## The value of a leaf for the squared loss -/

theorem pow_sub_one : ∀ {k : ℕ}, k ≤ 10 ^ 6 → (1 + u) ^ k - 1 ≤ 2 * k * u := by
  intro k
  induction k with
  | zero => intro _; simp
  | succ k ih =>
    intro hk
    have h1 := ih (by omega)
    have h2 := FTree.hi_pow (k := k) (by omega)
    have h3 := u_pos
    rw [pow_succ]
    push_cast
    nlinarith

/-- The relative error allowed. -/
theorem pow_small {k : ℕ} (hk : k ≤ 10 ^ 5 + 1) : (1 + u) ^ k - 1 ≤ 3 / 10 ^ 11 := by
  refine (pow_sub_one (by omega)).trans ?_
  have : (k : ℝ) ≤ 10 ^ 5 + 1 := by exact_mod_cast hk
  have hu := u_pos
  have : 2 * (k : ℝ) * u ≤ 2 * (10 ^ 5 + 1) * u := by gcongr
  refine this.trans ?_
  rw [u_eq]
  norm_num

/-- The quotient computed for a leaf. -/
theorem leaf_div {G R A lam n : ℝ} (hG : F64.Rep G) (hn : 1 ≤ n) (hn5 : n ≤ 10 ^ 5) (hnr : F64.Rep n) (hl : F64.Rep lam) (hl0 : 0 ≤ lam) (hl1 : lam ≤ 10 ^ 12)
    (hGR : |G + R| ≤ 3 / 10 ^ 11 * A) (hRA : |R| ≤ A) (hA : A ≤ 10 ^ 18) :
    ∃ v, div (neg (fin G)) (add (fin n) (fin lam)) = fin v ∧ |v - R / (n + lam)| ≤ 1 / 10 ^ 10 * (A / (n + lam)) + 1 / 10 ^ 60 := by
  have hA0 : 0 ≤ A := (abs_nonneg R).trans hRA
  have hu := u_pos
  have hus : u ≤ 1 / 10 ^ 15 := by rw [u_eq]; norm_num
  set N := n + lam with hN
  have hN1 : 1 ≤ N := by linarith
  have hN0 : 0 < N := by linarith
  have hadd : add (fin n) (fin lam) = fin (F64.round N) := by
    rw [add, rnd_small]
    rw [abs_of_pos hN0]
    linarith [show (10 : ℝ) ^ 5 + 10 ^ 12 ≤ 10 ^ 20 by norm_num]
  have hD := add_rel hnr hl
  rw [← hN, abs_of_pos hN0] at hD
  set D := F64.round N with hDd
  have hDl : (1 - u) * N ≤ D := by have := (abs_le.mp hD).1; linarith
  have hD0 : 0 < D := lt_of_lt_of_le (mul_pos lo_pos hN0) hDl
  have hDinv : 1 / D ≤ (1 + 2 * u) * (1 / N) := by
    rw [div_le_iff₀ hD0]
    have h1 : (1 + 2 * u) * (1 / N) * ((1 - u) * N) = (1 + 2 * u) * (1 - u) := by field_simp
    have h2 : (1 : ℝ) ≤ (1 + 2 * u) * (1 - u) := by nlinarith
    have h3 : (1 + 2 * u) * (1 / N) * ((1 - u) * N) ≤ (1 + 2 * u) * (1 / N) * D := mul_le_mul_of_nonneg_left hDl (by positivity)
    linarith
  have hG : |G| ≤ (1 + 3 / 10 ^ 11) * A := by
    have : |G| ≤ |G + R| + |R| := by have := abs_sub (G + R) R; rwa [add_sub_cancel_right] at this
    linarith
  have hAN : 0 ≤ A / N := div_nonneg hA0 hN0.le
  have hq : |-G / D| ≤ (1 + 4 / 10 ^ 11) * (A / N) := by
    rw [abs_div, abs_neg, abs_of_pos hD0, div_eq_mul_one_div]
    calc |G| * (1 / D) ≤ ((1 + 3 / 10 ^ 11) * A) * ((1 + 2 * u) * (1 / N)) := mul_le_mul hG hDinv (by positivity) (by positivity)
      _ = ((1 + 3 / 10 ^ 11) * (1 + 2 * u)) * (A / N) := by ring
      _ ≤ _ := mul_le_mul_of_nonneg_right (by nlinarith) hAN
  have hANA : A / N ≤ A := div_le_self hA0 hN1
  have hq20 : |-G / D| ≤ 10 ^ 20 := by
    refine hq.trans ?_
    have : (1 + 4 / 10 ^ 11) * (A / N) ≤ 2 * A := mul_le_mul (by norm_num) hANA hAN (by norm_num)
    linarith [show (2 : ℝ) * 10 ^ 18 ≤ 10 ^ 20 by norm_num]
  refine ⟨F64.round (-G / D), ?_, ?_⟩
  · rw [hadd]
    show (if D = 0 then _ else rnd (-G / D)) = _
    rw [if_neg hD0.ne', rnd_small hq20]
  · have h1 := round_err (-G / D)
    have h2 : |-G / D - R / N| ≤ 4 / 10 ^ 11 * (A / N) := by
      have e : -G / D - R / N = -(G + R) * (1 / D) + R * (N - D) * (1 / D) * (1 / N) := by field_simp; ring
      rw [e]
      refine (abs_add_le _ _).trans ?_
      rw [abs_mul, abs_neg, abs_mul, abs_mul, abs_mul, abs_of_pos (show 0 < 1 / D by positivity), abs_of_pos (show 0 < 1 / N by positivity), abs_sub_comm N D]
      have e1 : |G + R| * (1 / D) ≤ (3 / 10 ^ 11 * A) * ((1 + 2 * u) * (1 / N)) := mul_le_mul hGR hDinv (by positivity) (by positivity)
      have e2 : |R| * |D - N| * (1 / D) * (1 / N) ≤ A * (u * N) * ((1 + 2 * u) * (1 / N)) * (1 / N) := by
        gcongr
      have e3 : A * (u * N) * ((1 + 2 * u) * (1 / N)) * (1 / N) = (u * (1 + 2 * u)) * (A / N) := by field_simp
      have e4 : (3 / 10 ^ 11 * A) * ((1 + 2 * u) * (1 / N)) = (3 / 10 ^ 11 * (1 + 2 * u)) * (A / N) := by ring
      rw [e3] at e2
      rw [e4] at e1
      have e5 : (3 / 10 ^ 11 * (1 + 2 * u)) * (A / N) + (u * (1 + 2 * u)) * (A / N) ≤ 4 / 10 ^ 11 * (A / N) := by
        rw [← add_mul]
        exact mul_le_mul_of_nonneg_right (by nlinarith) hAN
      linarith
    have e : F64.round (-G / D) - R / N = (F64.round (-G / D) - -G / D) + (-G / D - R / N) := by ring
    rw [e]
    refine (abs_add_le _ _).trans ?_
    have h3 : u * |-G / D| ≤ 1 / 10 ^ 15 * ((1 + 4 / 10 ^ 11) * (A / N)) := mul_le_mul hus hq (abs_nonneg _) (by norm_num)
    have h4 := eta_tiny
    nlinarith

theorem abs_sum_le (l : List ℕ) (r : ℕ → ℝ) : |(l.map r).sum| ≤ (l.map fun i => |r i|).sum := by
  induction l with
  | nil => simp
  | cons i l ih => rw [List.map_cons, List.sum_cons, List.map_cons, List.sum_cons]; exact (abs_add_le _ _).trans (by linarith)

theorem sum_near {l : List ℕ} {d r : ℕ → ℝ} {c : ℝ} (h : ∀ i ∈ l, |d i + r i| ≤ c * |r i|) :
    |(l.map d).sum + (l.map r).sum| ≤ c * (l.map fun i => |r i|).sum ∧ (l.map fun i => |d i|).sum ≤ (1 + c) * (l.map fun i => |r i|).sum := by
  induction l with
  | nil => simp
  | cons i l ih =>
    obtain ⟨h1, h2⟩ := ih fun j hj => h j (List.mem_cons_of_mem _ hj)
    have h3 := h i (by simp)
    simp only [List.map_cons, List.sum_cons]
    constructor
    · have e : d i + (l.map d).sum + (r i + (l.map r).sum) = (d i + r i) + ((l.map d).sum + (l.map r).sum) := by ring
      rw [e, mul_add]
      exact (abs_add_le _ _).trans (add_le_add h3 h1)
    · have h4 : |d i| ≤ |d i + r i| + |r i| := by have := abs_sub (d i + r i) (r i); rwa [add_sub_cancel_right] at this
      rw [mul_add]
      linarith

theorem sum_le_card {l : List ℕ} {r : ℕ → ℝ} {B : ℝ} (h : ∀ i ∈ l, r i ≤ B) : (l.map r).sum ≤ l.length * B := by
  induction l with
  | nil => simp
  | cons i l ih =>
    have := ih fun j hj => h j (List.mem_cons_of_mem _ hj)
    have h3 := h i (by simp)
    simp only [List.map_cons, List.sum_cons, List.length_cons]
    push_cast
    linarith

/-- The gradients are the negated residuals, rounded, and the hessians are `1`. -/
structure Residuals (s : Sample ℝ) (g h : List F64) (r : ℕ → ℝ) : Prop where
  grad : ∀ i < s.nSample, ∃ d, g.getD i nan = fin d ∧ F64.Rep d ∧ |d + r i| ≤ u * |r i|
  hess : ∀ i < s.nSample, h.getD i nan = fin 1
  small : ∀ i < s.nSample, |r i| ≤ 2 * 10 ^ 12

/-- C121: the value of a leaf. -/
theorem leaf_l2 {s : Sample ℝ} {g h : List F64} {r : ℕ → ℝ} (hres : Residuals s g h r) {idx : List ℕ} (hr : Rows s g h idx) (hne : idx ≠ [])
    (hlen : idx.length ≤ 10 ^ 5) {lam : ℝ} (hl : F64.Rep lam) (hl0 : 0 ≤ lam) (hl1 : lam ≤ 10 ^ 12) {c l : F64} (hc : PredLoss idx g h (fin lam) (some (c, l))) :
    ∃ v, c = fin v ∧ |v - (idx.map r).sum / (idx.length + lam)| ≤ 1 / 10 ^ 10 * ((idx.map fun i => |r i|).sum / (idx.length + lam)) + 1 / 10 ^ 60 := by
  obtain ⟨a, b, ⟨t, ht, rfl⟩, ⟨t', ht', rfl⟩, ho⟩ := (predLoss_iff hr _).mp hc
  choose! d d1 d2 d3 using hres.grad
  have e1 : idx.map (fun i => g.getD i nan) = (idx.map d).map fin := by
    rw [List.map_map]
    exact List.map_congr_left fun i hi => d1 i (hr.row i hi)
  have e2 : idx.map (fun i => h.getD i nan) = (List.replicate idx.length (1 : ℤ)).map fun z : ℤ => fin (z : ℝ) := by
    rw [List.map_replicate, List.eq_replicate_iff]
    refine ⟨by simp, fun b hb' => ?_⟩
    obtain ⟨i, hi, rfl⟩ := List.mem_map.mp hb'
    rw [hres.hess i (hr.row i hi)]
    simp
  rw [e1] at ht
  rw [e2] at ht'
  have hb : t'.sum add (fin 0) = fin (idx.length : ℝ) := by
    rw [split_int t' _ ht' (by intro z hz; rw [(List.mem_replicate.mp hz).2]; norm_num) (by simpa using hr.few)]
    simp
  set A := (idx.map fun i => |r i|).sum with hA
  obtain ⟨h1, h2⟩ := sum_near (l := idx) (d := d) (r := r) (c := u) fun i hi => d3 i (hr.row i hi)
  rw [← hA] at h1 h2
  have hlen' : (idx.length : ℝ) ≤ 10 ^ 5 := by exact_mod_cast hlen
  have hAB : A ≤ 10 ^ 18 := by
    have := sum_le_card (l := idx) (r := fun i => |r i|) (B := 2 * 10 ^ 12) fun i hi => hres.small i (hr.row i hi)
    refine this.trans ?_
    have : (idx.length : ℝ) * (2 * 10 ^ 12) ≤ 10 ^ 5 * (2 * 10 ^ 12) := by gcongr
    exact this.trans (by norm_num)
  have hA0 : 0 ≤ A := List.sum_nonneg (by intro y hy; obtain ⟨z, -, rfl⟩ := List.mem_map.mp hy; exact abs_nonneg _)
  have hu := u_pos
  have hus := u_small
  have hdd : (((idx.map d).map (|·|)).sum) = (idx.map fun i => |d i|).sum := by rw [List.map_map]; rfl
  obtain ⟨G, g1, g2, g3⟩ := split_signed t (idx.map d) ht (by intro x hx; obtain ⟨i, hi, rfl⟩ := List.mem_map.mp hx; exact d2 i (hr.row i hi))
    (by rw [hdd]; nlinarith) (by rw [List.length_map]; omega)
  rw [hdd, List.length_map] at g3
  have hp1 : (1 : ℝ) ≤ (1 + u) ^ idx.length := one_le_pow₀ hi_ge
  have hGR : |G + (idx.map r).sum| ≤ 3 / 10 ^ 11 * A := by
    have e : G + (idx.map r).sum = (G - (idx.map d).sum) + ((idx.map d).sum + (idx.map r).sum) := by ring
    rw [e]
    refine (abs_add_le _ _).trans ?_
    have e3 : ((1 + u) ^ idx.length - 1) * (idx.map fun i => |d i|).sum ≤ ((1 + u) ^ idx.length - 1) * ((1 + u) * A) := mul_le_mul_of_nonneg_left h2 (by linarith)
    have e4 : ((1 + u) ^ idx.length - 1) * ((1 + u) * A) + u * A = ((1 + u) ^ (idx.length + 1) - 1) * A := by ring
    have e5 : ((1 + u) ^ (idx.length + 1) - 1) * A ≤ 3 / 10 ^ 11 * A := mul_le_mul_of_nonneg_right (pow_small (by omega)) hA0
    linarith
  have hpos : 1 ≤ idx.length := List.length_pos_iff.mpr hne
  obtain ⟨v, v1, v2⟩ := leaf_div (lam := lam) (n := idx.length) g2 (by exact_mod_cast hpos) hlen'
    ⟨idx.length, 0, by rw [Nat.abs_cast]; exact_mod_cast hr.few, by norm_num, by simp⟩ hl hl0 hl1 hGR (abs_sum_le idx r) hAB
  refine ⟨v, ?_, v2⟩
  rw [g1, hb] at ho
  have := congrArg Prod.fst (Option.some.inj ho)
  rw [show c = _ from this]
  exact v1

/-! ## The squared error -/

theorem sq_sum_le (l : List ℕ) (r : ℕ → ℝ) : (l.map fun i => |r i|).sum ^ 2 ≤ l.length * (l.map fun i => r i ^ 2).sum := by
  induction l with
  | nil => simp
  | cons i l ih =>
    simp only [List.map_cons, List.sum_cons, List.length_cons]
    push_cast
    set S := (l.map fun i => |r i|).sum
    set Q := (l.map fun i => r i ^ 2).sum
    have hS0 : 0 ≤ S := List.sum_nonneg (by intro y hy; obtain ⟨z, -, rfl⟩ := List.mem_map.mp hy; exact abs_nonneg _)
    have hQ0 : 0 ≤ Q := List.sum_nonneg (by intro y hy; obtain ⟨z, -, rfl⟩ := List.mem_map.mp hy; exact sq_nonneg _)
    rw [← sq_abs (r i)]
    have hn : (0 : ℝ) ≤ l.length := Nat.cast_nonneg _
    rcases eq_or_lt_of_le hn with h0 | h0
    · rw [← h0] at ih ⊢
      have : S = 0 := by nlinarith
      rw [this]
      nlinarith [sq_nonneg (|r i|)]
    · have h1 : 2 * |r i| * S ≤ l.length * |r i| ^ 2 + Q := by
        have h2 : 0 ≤ (l.length * |r i| - S) ^ 2 := sq_nonneg _
        have h3 : l.length * (2 * |r i| * S) ≤ l.length * (l.length * |r i| ^ 2 + Q) := by nlinarith
        exact le_of_mul_le_mul_left h3 h0
      nlinarith

theorem sum_sq_sub (l : List ℕ) (r : ℕ → ℝ) (v : ℝ) :
    (l.map fun i => (r i - v) ^ 2).sum = (l.map fun i => r i ^ 2).sum - 2 * v * (l.map r).sum + l.length * v ^ 2 := by
  induction l with
  | nil => simp
  | cons i l ih => simp only [List.map_cons, List.sum_cons, List.length_cons]; rw [ih]; push_cast; ring

/-- Adding the value of a leaf does not increase the squared error, up to `1e-9` of it. -/
theorem leaf_error {l : List ℕ} (hne : l ≠ []) {r : ℕ → ℝ} {v lam : ℝ} (hl0 : 0 ≤ lam) (hs : ∀ i ∈ l, |r i| ≤ 2 * 10 ^ 12)
    (hv : |v - (l.map r).sum / (l.length + lam)| ≤ 1 / 10 ^ 10 * ((l.map fun i => |r i|).sum / (l.length + lam)) + 1 / 10 ^ 60) :
    (l.map fun i => (r i - v) ^ 2).sum ≤ (1 + 1 / 10 ^ 9) * (l.map fun i => r i ^ 2).sum + l.length * (1 / 10 ^ 46) := by
  have h1 := sq_sum_le l r
  have hR := abs_sum_le l r
  have hAs := sum_le_card (l := l) (r := fun i => |r i|) hs
  rw [sum_sq_sub]
  have hpos : (1 : ℝ) ≤ l.length := by exact_mod_cast List.length_pos_iff.mpr hne
  set n : ℝ := (l.length : ℝ) with hn
  set R := (l.map r).sum
  set A := (l.map fun i => |r i|).sum with hA
  set Q := (l.map fun i => r i ^ 2).sum
  have hA0 : 0 ≤ A := (abs_nonneg R).trans hR
  have hQ0 : 0 ≤ Q := List.sum_nonneg (by intro y hy; obtain ⟨z, -, rfl⟩ := List.mem_map.mp hy; exact sq_nonneg _)
  set N := n + lam with hN
  have hN0 : 0 < N := by linarith
  set δ := v - R / N with hδ
  have hv' : v = R / N + δ := by rw [hδ]; ring
  have key : Q - 2 * v * R + n * v ^ 2 = Q - R ^ 2 * (n + 2 * lam) / N ^ 2 - 2 * δ * R * (lam / N) + n * δ ^ 2 := by
    rw [hv', show lam = N - n by rw [hN]; ring]
    field_simp
    ring
  rw [key]
  have k1 : 0 ≤ R ^ 2 * (n + 2 * lam) / N ^ 2 := by positivity
  have hlN : lam / N ≤ 1 := (div_le_one hN0).mpr (by linarith)
  have hlN0 : 0 ≤ lam / N := by positivity
  have hAN : 0 ≤ A / N := by positivity
  have hANA : A * (A / N) ≤ Q := by
    rw [← mul_div_assoc, div_le_iff₀ hN0]
    nlinarith
  have k2 : -(2 * δ * R * (lam / N)) ≤ 2 * |δ| * A := by
    refine (neg_le_abs _).trans ?_
    rw [abs_mul, abs_mul, abs_mul, abs_of_nonneg hlN0, abs_two]
    calc 2 * |δ| * |R| * (lam / N) ≤ 2 * |δ| * A * 1 := by gcongr
      _ = _ := by ring
  have k3 : 2 * |δ| * A ≤ 2 / 10 ^ 10 * Q + 2 / 10 ^ 60 * A := by
    have : |δ| * A ≤ (1 / 10 ^ 10 * (A / N) + 1 / 10 ^ 60) * A := mul_le_mul_of_nonneg_right hv hA0
    nlinarith
  have k4 : n * δ ^ 2 ≤ 2 / 10 ^ 20 * Q + 2 / 10 ^ 120 * n := by
    have hs2 : δ ^ 2 ≤ 2 * (1 / 10 ^ 10 * (A / N)) ^ 2 + 2 * (1 / 10 ^ 60) ^ 2 := by
      have : |δ| ^ 2 ≤ (1 / 10 ^ 10 * (A / N) + 1 / 10 ^ 60) ^ 2 := by gcongr
      rw [sq_abs] at this
      nlinarith [sq_nonneg (1 / 10 ^ 10 * (A / N) - 1 / 10 ^ 60)]
    have hn2 : n * (A / N) ^ 2 ≤ Q := by
      have : n * (A / N) ^ 2 = A * (A / N) * (n / N) := by field_simp
      rw [this]
      have h5 : n / N ≤ 1 := (div_le_one hN0).mpr (by linarith)
      have h6 : 0 ≤ A * (A / N) := by positivity
      calc A * (A / N) * (n / N) ≤ A * (A / N) * 1 := by gcongr
        _ ≤ Q := by linarith
    have : n * δ ^ 2 ≤ n * (2 * (1 / 10 ^ 10 * (A / N)) ^ 2 + 2 * (1 / 10 ^ 60) ^ 2) := by gcongr
    refine this.trans ?_
    have e : n * (2 * (1 / 10 ^ 10 * (A / N)) ^ 2 + 2 * (1 / 10 ^ 60) ^ 2) = 2 / 10 ^ 20 * (n * (A / N) ^ 2) + 2 / 10 ^ 120 * n := by ring
    rw [e]
    gcongr
  have k5 : 2 / 10 ^ 60 * A ≤ 4 / 10 ^ 48 * n := by
    have : 2 / 10 ^ 60 * A ≤ 2 / 10 ^ 60 * (n * (2 * 10 ^ 12)) := by gcongr
    refine this.trans (le_of_eq ?_)
    ring
  have k6 : 2 / 10 ^ 10 * Q + 2 / 10 ^ 20 * Q ≤ 1 / 10 ^ 9 * Q := by
    rw [← add_mul]; exact mul_le_mul_of_nonneg_right (by norm_num) hQ0
  have k7 : 4 / 10 ^ 48 * n + 2 / 10 ^ 120 * n ≤ n * (1 / 10 ^ 46) := by
    rw [← add_mul, mul_comm n]; exact mul_le_mul_of_nonneg_right (by norm_num) (by linarith)
  linarith

/-- The squared error after adding the tree's answers. -/
noncomputable def errOn (s : Sample ℝ) (r : ℕ → ℝ) (tree : TreeNode F64) (idx : List ℕ) : ℝ := (idx.map fun i => (r i - FTree.ans s tree i) ^ 2).sum

theorem errOn_branch {s : Sample ℝ} {r : ℕ → ℝ} {rule : Splitter F64} {lt rt : TreeNode F64} {idx : List ℕ} {p : ℕ → Bool}
    (hp : ∀ i ∈ idx, FTree.goesLeft rule s i = some (p i)) :
    errOn s r (.branch rule lt rt) idx = errOn s r lt (idx.filter p) + errOn s r rt (idx.filter fun i => !p i) := by
  unfold errOn
  rw [← sum_filter_add p (fun i => (r i - FTree.ans s (.branch rule lt rt) i) ^ 2) idx]
  congr 1
  · congr 1
    refine List.map_congr_left fun i hi => ?_
    obtain ⟨h1, h2⟩ := List.mem_filter.mp hi
    have : FTree.ans s (.branch rule lt rt) i = FTree.ans s lt i := by
      unfold FTree.ans
      conv_lhs => unfold FTree.confidence
      rw [hp i h1, h2]
    rw [this]
  · congr 1
    refine List.map_congr_left fun i hi => ?_
    obtain ⟨h1, h2⟩ := List.mem_filter.mp hi
    have : FTree.ans s (.branch rule lt rt) i = FTree.ans s rt i := by
      unfold FTree.ans
      conv_lhs => unfold FTree.confidence
      rw [hp i h1]
      cases hpi : p i with
      | true => rw [hpi] at h2; simp at h2
      | false => rfl
    rw [this]

theorem TreeOf.error {s : Sample ℝ} {g h : List F64} {r : ℕ → ℝ} (hres : Residuals s g h r) {lam : ℝ} (hl : F64.Rep lam) (hl0 : 0 ≤ lam) (hl1 : lam ≤ 10 ^ 12) :
    ∀ {d : ℕ} {tree : TreeNode F64} {idx : List ℕ}, TreeOf s g h (fin lam) d tree idx → Rows s g h idx → idx.length ≤ 10 ^ 5 →
      errOn s r tree idx ≤ (1 + 1 / 10 ^ 9) * (idx.map fun i => r i ^ 2).sum + idx.length * (1 / 10 ^ 46) := by
  have leafCase : ∀ {d : ℕ} {c : F64} {idx : List ℕ}, TreeOf s g h (fin lam) d (.leaf c) idx → Rows s g h idx → idx.length ≤ 10 ^ 5 →
      errOn s r (.leaf c) idx ≤ (1 + 1 / 10 ^ 9) * (idx.map fun i => r i ^ 2).sum + idx.length * (1 / 10 ^ 46) := by
    intro d c idx ht hr hlen
    have : idx ≠ [] ∧ ∃ l, PredLoss idx g h (fin lam) (some (c, l)) := by cases d <;> exact ht
    obtain ⟨hne, l, hc⟩ := this
    obtain ⟨v, rfl, hv⟩ := leaf_l2 hres hr hne hlen hl hl0 hl1 hc
    exact leaf_error hne hl0 (fun i hi => hres.small i (hr.row i hi)) hv
  intro d
  induction d with
  | zero => intro tree idx ht hr hlen; cases tree with
    | leaf c => exact leafCase ht hr hlen
    | branch => exact ht.elim
  | succ d ih => intro tree idx ht hr hlen; cases tree with
    | leaf c => exact leafCase ht hr hlen
    | branch rule lt rt =>
      obtain ⟨-, p, hp, htl, htr⟩ := ht
      rw [errOn_branch hp]
      have h1 := ih htl (hr.filter p) ((List.length_filter_le _ _).trans hlen)
      have h2 := ih htr (hr.filter _) ((List.length_filter_le _ _).trans hlen)
      have h3 := sum_filter_add p (fun i => r i ^ 2) idx
      have h4 : ((idx.filter p).length : ℝ) + (idx.filter fun i => !p i).length = idx.length := by
        have := sum_filter_add p (fun _ => (1 : ℝ)) idx
        simpa using this
      rw [← h3, ← h4]
      linarith

end Miniboosts.FReg
