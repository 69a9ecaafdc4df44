import Verif.Model.FloatCERLP
import Verif.Lemmas.FloatMono
import Verif.Lemmas.FloatSum
import Verif.Lemmas.Rounding
import Verif.Spec.Float

/-! # CERLPBoost in `f64`: sums, steps and weights -/

namespace Miniboosts

namespace F64

theorem rep_neg {x : ℝ} (h : Rep x) : Rep (-x) := by
  obtain ⟨k, j, h1, h2, h3⟩ := h
  exact ⟨-k, j, by rwa [abs_neg], h2, by rw [h3]; push_cast; ring⟩

/-- Adding up a long list. -/
theorem foldl_add_long (B : ℝ) (hB1 : 1 ≤ B) (hB2 : B ≤ 10 ^ 10) : ∀ (xs : List ℝ) (acc P : ℝ) (j : ℕ), Rep acc → |acc - P| ≤ 2 * u * B * j →
    |P| + (xs.map (|·|)).sum ≤ B → j + xs.length ≤ 10 ^ 9 →
    ∃ s, (xs.map fin).foldl add (fin acc) = fin s ∧ Rep s ∧ |s - (P + xs.sum)| ≤ 2 * u * B * (j + xs.length : ℕ) := by
  intro xs
  induction xs with
  | nil => intro acc P j hr ha hb hn; exact ⟨acc, rfl, hr, by simpa using ha⟩
  | cons x xs ih =>
    intro acc P j hr ha hb hn
    have hu := u_small
    have hu0 := u_pos
    have heta := eta_le_aux
    simp only [List.map_cons, List.sum_cons, List.length_cons] at hb hn
    have hnn : 0 ≤ (xs.map (|·|)).sum := List.sum_nonneg (by simp only [List.mem_map]; rintro _ ⟨a, -, rfl⟩; exact abs_nonneg a)
    have hj : (j : ℝ) ≤ 1000000000 := by exact_mod_cast (by omega : j ≤ 1000000000)
    have hj0 : (0 : ℝ) ≤ j := Nat.cast_nonneg j
    have hax : |acc - P| ≤ B / 1000 := by
      refine ha.trans ?_
      have : 2 * u * j ≤ 1 / 1000 := by nlinarith
      calc 2 * u * B * j = (2 * u * j) * B := by ring
        _ ≤ 1 / 1000 * B := by gcongr
        _ = B / 1000 := by ring
    have hs : |acc + x| ≤ 11 / 10 * B := by
      have h1 : |acc + x| ≤ |acc - P| + (|P| + |x|) := by
        calc |acc + x| = |(acc - P) + (P + x)| := by ring_nf
          _ ≤ _ := (abs_add_le _ _).trans (add_le_add le_rfl (abs_add_le _ _))
      linarith
    have hre := round_err (acc + x)
    have heta' : eta ≤ u * (1 / 10) := by
      refine heta.trans ?_
      have : u * u * u ≤ 1 / 10 := by
        calc u * u * u ≤ (1 / 9000000000000000) * (1 / 9000000000000000) * (1 / 9000000000000000) := by gcongr
          _ ≤ _ := by norm_num
      nlinarith
    have hre' : |round (acc + x) - (acc + x)| ≤ 2 * u * B := by
      refine hre.trans ?_
      calc u * |acc + x| + eta ≤ u * (11 / 10 * B) + u * (1 / 10) := by gcongr
        _ ≤ 2 * u * B := by nlinarith
    obtain ⟨s, h1, h2, h3⟩ := ih (round (acc + x)) (P + x) (j + 1) (rep_round _)
      (by
        calc |round (acc + x) - (P + x)| = |(round (acc + x) - (acc + x)) + (acc - P)| := by ring_nf
          _ ≤ _ := (abs_add_le _ _).trans (add_le_add hre' ha)
          _ = _ := by push_cast; ring)
      (by have := abs_add_le P x; linarith) (by omega)
    refine ⟨s, ?_, h2, ?_⟩
    · rw [List.map_cons, List.foldl_cons, add, rnd_small (hs.trans (by norm_num at hB2 ⊢; linarith))]; exact h1
    · rw [List.sum_cons, ← add_assoc, List.length_cons, show j + (xs.length + 1) = j + 1 + xs.length by ring]; exact h3

/-- A weighted sum with non-negative weights. -/
theorem wsum_near (P : List (ℝ × ℝ)) (hP : ∀ p ∈ P, 0 ≤ p.1 ∧ |p.2| ≤ 3) (hs : (P.map Prod.fst).sum ≤ 3 / 2) (hl : P.length ≤ 10 ^ 8) :
    ∃ s, (P.map fun p => mul (fin p.1) (fin p.2)).foldl add (fin 0) = fin s ∧ Rep s ∧ |s - (P.map fun p => p.1 * p.2).sum| ≤ 2 / 10 ^ 15 * (P.length + 4) := by
  have hu := u_small
  have hu0 := u_pos
  have hη := eta_tiny
  have hη0 := eta_pos
  have hle : ∀ p ∈ P, p.1 ≤ 3 / 2 := by
    intro p hp
    refine le_trans ?_ hs
    exact List.single_le_sum (by intro x hx; obtain ⟨q, hq, rfl⟩ := List.mem_map.mp hx; exact (hP q hq).1) _ (List.mem_map_of_mem hp)
  have e : (P.map fun p => mul (fin p.1) (fin p.2)) = (P.map fun p => round (p.1 * p.2)).map fin := by
    rw [List.map_map]
    refine List.map_congr_left fun p hp => ?_
    change rnd (p.1 * p.2) = _
    have h1 := hP p hp
    have h2 := hle p hp
    have : |p.1 * p.2| ≤ 10 ^ 20 := by
      rw [abs_mul, abs_of_nonneg h1.1]
      have : p.1 * |p.2| ≤ 3 / 2 * 3 := mul_le_mul h2 h1.2 (abs_nonneg _) (by norm_num)
      linarith
    rw [rnd_small this]
    rfl
  have hsum : ∀ l : List (ℝ × ℝ), (∀ p ∈ l, 0 ≤ p.1 ∧ |p.2| ≤ 3) →
      |(l.map fun p => round (p.1 * p.2)).sum - (l.map fun p => p.1 * p.2).sum| ≤ 3 * u * (l.map Prod.fst).sum + l.length * eta ∧
      ((l.map fun p => round (p.1 * p.2)).map (|·|)).sum ≤ (3 + 3 * u) * (l.map Prod.fst).sum + l.length * eta := by
    intro l
    induction l with
    | nil => intro _; simp
    | cons p l ih =>
      intro h
      obtain ⟨i1, i2⟩ := ih fun q hq => h q (List.mem_cons_of_mem _ hq)
      obtain ⟨h1, h2⟩ := h p (by simp)
      have h3 := round_err (p.1 * p.2)
      have h4 : |p.1 * p.2| ≤ 3 * p.1 := by
        rw [abs_mul, abs_of_nonneg h1]
        nlinarith
      have h5 : u * |p.1 * p.2| ≤ u * (3 * p.1) := mul_le_mul_of_nonneg_left h4 hu0.le
      simp only [List.map_cons, List.sum_cons, List.length_cons]
      push_cast
      constructor
      · rw [abs_le] at h3 i1 ⊢
        constructor
        · linarith [h3.1, i1.1]
        · linarith [h3.2, i1.2]
      · have h6 : |round (p.1 * p.2)| ≤ |p.1 * p.2| + (u * |p.1 * p.2| + eta) := by
          have := abs_add_le (p.1 * p.2) (round (p.1 * p.2) - p.1 * p.2)
          rw [add_sub_cancel] at this
          linarith
        linarith
  obtain ⟨h1, h2⟩ := hsum P hP
  have hP0 : 0 ≤ (P.map Prod.fst).sum := List.sum_nonneg (by intro x hx; obtain ⟨q, hq, rfl⟩ := List.mem_map.mp hx; exact (hP q hq).1)
  have hlr : (P.length : ℝ) ≤ 10 ^ 8 := by exact_mod_cast hl
  have hl0 : (0 : ℝ) ≤ P.length := Nat.cast_nonneg _
  have hle1 : (P.length : ℝ) * eta ≤ 1 / 10 ^ 50 := by
    calc (P.length : ℝ) * eta ≤ 10 ^ 8 * (1 / 10 ^ 60) := mul_le_mul hlr hη hη0.le (by positivity)
      _ ≤ _ := by norm_num
  have hle2 : (P.length : ℝ) * eta ≤ 1 / 10 ^ 50 * P.length := by nlinarith
  obtain ⟨s, e1, e2, e3⟩ := foldl_add_long 6 (by norm_num) (by norm_num) (P.map fun p => round (p.1 * p.2)) 0 0 0 rep_zero (by simp) (by
    rw [abs_zero, zero_add]
    refine h2.trans ?_
    have : (3 + 3 * u) * (P.map Prod.fst).sum ≤ (3 + 1) * (3 / 2 - 1 / 4) + 1 / 2 := by nlinarith
    nlinarith) (by rw [List.length_map]; omega)
  refine ⟨s, by rw [e]; exact e1, e2, ?_⟩
  rw [zero_add, zero_add, List.length_map] at e3
  have h7 : 2 * u * 6 * (P.length : ℝ) ≤ 12 / 9000000000000000 * P.length := by nlinarith
  have h8 : 3 * u * (P.map Prod.fst).sum ≤ 5 / 9000000000000000 := by nlinarith
  have h9 : |s - (P.map fun p => p.1 * p.2).sum| ≤ |s - (P.map fun p => round (p.1 * p.2)).sum| + |(P.map fun p => round (p.1 * p.2)).sum - (P.map fun p => p.1 * p.2).sum| :=
    abs_sub_le _ _ _
  linarith

/-! ## The new weights -/

theorem mapIdx_split {α β : Type*} (f g : α → β) (A : List α) (w : α) (B : List α) :
    (A ++ w :: B).mapIdx (fun j b => if j = A.length then f b else g b) = A.map g ++ f w :: B.map g := by
  rw [List.mapIdx_append, List.mapIdx_cons]
  congr 1
  · apply List.ext_getElem
    · simp
    · intro i h1 h2
      simp only [List.length_mapIdx] at h1
      simp [show i ≠ A.length by omega]
  · simp only [Nat.zero_add, if_true]
    congr 1
    apply List.ext_getElem
    · simp
    · intro i h1 h2
      simp

/-- The weight of another hypothesis. -/
theorem other_near {s w : ℝ} (hs0 : 0 ≤ s) (hs1 : s ≤ 1) (hw : Rep w) (hw0 : 0 ≤ w) (hw1 : w ≤ 2) :
    ∃ w', add (fin w) (mul (fin s) (neg (fin w))) = fin w' ∧ Rep w' ∧ 0 ≤ w' ∧ |w' - (1 - s) * w| ≤ 3 * u * w + 2 * eta := by
  have hu := u_small
  have hu0 := u_pos
  have hη := eta_tiny
  have hη0 := eta_pos
  have hsw : s * w ≤ w := by nlinarith
  have hsw0 : 0 ≤ s * w := mul_nonneg hs0 hw0
  have h1 := round_err (s * -w)
  have h2 : |s * -w| = s * w := by rw [mul_neg, abs_neg, abs_of_nonneg hsw0]
  rw [h2] at h1
  have h1' := abs_le.mp h1
  have huw : u * (s * w) ≤ u * w := mul_le_mul_of_nonneg_left hsw hu0.le
  have hge : -w ≤ round (s * -w) := rep_le_round (rep_neg hw) (by linarith)
  have hle : round (s * -w) ≤ 0 := round_le_rep rep_zero (by linarith)
  have h3 := add_rel hw (rep_round (s * -w))
  have h4 : |w + round (s * -w)| ≤ w := by rw [abs_of_nonneg (by linarith)]; linarith
  have h5 : u * |w + round (s * -w)| ≤ u * w := mul_le_mul_of_nonneg_left h4 hu0.le
  have h3' := abs_le.mp h3
  refine ⟨round (w + round (s * -w)), ?_, rep_round _, round_nonneg (by linarith), ?_⟩
  · change add (fin w) (rnd (s * -w)) = _
    rw [rnd_small (by rw [h2]; linarith)]
    change rnd (w + round (s * -w)) = _
    rw [rnd_small (h4.trans (by linarith))]
  · rw [abs_le]
    constructor
    · nlinarith [h3'.1, h1'.1]
    · nlinarith [h3'.2, h1'.2]

/-- The weight of the chosen hypothesis. -/
theorem chosen_near {s w : ℝ} (hs0 : 0 ≤ s) (hs1 : s ≤ 1) (hw : Rep w) (hw0 : 0 ≤ w) (hw1 : w ≤ 3 / 2) :
    ∃ w', add (fin w) (mul (fin s) (sub (fin 1) (fin w))) = fin w' ∧ Rep w' ∧ 0 ≤ w' ∧ |w' - ((1 - s) * w + s)| ≤ 8 * u := by
  have hu := u_small
  have hu0 := u_pos
  have hη := eta_tiny
  have hη0 := eta_pos
  have hηu := eta_le_u
  have h1 : |(1 : ℝ) + -w| ≤ 1 := by rw [abs_le]; constructor <;> linarith
  have e1 := round_err (1 + -w)
  set r := round (1 + -w) with hr
  have hr1 : |r - (1 - w)| ≤ 2 * u := by
    have : u * |(1 : ℝ) + -w| ≤ u * 1 := mul_le_mul_of_nonneg_left h1 hu0.le
    have e1' := abs_le.mp e1
    rw [abs_le]
    constructor <;> linarith
  have hra : |r| ≤ 1 := by
    have hone : Rep (1 : ℝ) := ⟨1, 0, by norm_num, by norm_num, by norm_num⟩
    rw [abs_le] at h1 ⊢
    exact ⟨rep_le_round (rep_neg hone) h1.1, round_le_rep hone h1.2⟩
  have hrge : -w ≤ r := rep_le_round (rep_neg hw) (by linarith)
  have e2 := round_err (s * r)
  have hsr : |s * r| ≤ 1 := by
    rw [abs_mul, abs_of_nonneg hs0]
    nlinarith [abs_nonneg r]
  set q := round (s * r) with hq
  have hq1 : |q - s * r| ≤ 2 * u := by
    have : u * |s * r| ≤ u * 1 := mul_le_mul_of_nonneg_left hsr hu0.le
    linarith
  have hqge : -w ≤ q := rep_le_round (rep_neg hw) (by
    rcases le_total 0 r with h | h
    · nlinarith
    · nlinarith)
  have e3 := add_rel hw (rep_round (s * r))
  rw [← hq] at e3
  have hq2 := abs_le.mp hq1
  have hr2 := abs_le.mp hr1
  have hsr2 := abs_le.mp hsr
  have hra2 := abs_le.mp hra
  have h6 : |w + q| ≤ 5 / 2 + 1 / 10 := by
    rw [abs_le]; constructor <;> linarith
  have h7 : u * |w + q| ≤ u * (5 / 2 + 1 / 10) := mul_le_mul_of_nonneg_left h6 hu0.le
  have e3' := abs_le.mp e3
  refine ⟨round (w + q), ?_, rep_round _, round_nonneg (by linarith), ?_⟩
  · have a1 : sub (fin 1) (fin w) = fin r := by
      change rnd (1 + -w) = _
      rw [rnd_small (h1.trans (by norm_num))]
    have a2 : mul (fin s) (fin r) = fin q := by
      change rnd (s * r) = _
      rw [rnd_small (hsr.trans (by norm_num))]
    rw [a1, a2]
    change rnd (w + q) = _
    rw [rnd_small (h6.trans (by norm_num))]
  · have h8 : |s * r - s * (1 - w)| ≤ 2 * u := by
      rw [← mul_sub, abs_mul, abs_of_nonneg hs0]
      calc s * |r - (1 - w)| ≤ 1 * (2 * u) := mul_le_mul hs1 hr1 (abs_nonneg _) (by norm_num)
        _ = _ := one_mul _
    have h8' := abs_le.mp h8
    rw [abs_le]
    constructor
    · nlinarith [e3'.1]
    · nlinarith [e3'.2]

/-- The weights after a step. -/
theorem interior_near {s : ℝ} (hs0 : 0 ≤ s) (hs1 : s ≤ 1) (A : List ℝ) (w : ℝ) (B : List ℝ) (hw : ∀ x ∈ A ++ w :: B, Rep x ∧ 0 ≤ x) (hsum : (A ++ w :: B).sum ≤ 3 / 2)
    (hl : (A ++ w :: B).length ≤ 10 ^ 8) :
    ∃ ws' : List ℝ, interiorPoint (fin s) A.length ((A ++ w :: B).map fin) = .ok (ws'.map fin) ∧ ws'.length = (A ++ w :: B).length ∧ (∀ x ∈ ws', Rep x ∧ 0 ≤ x) ∧
      (List.zipWith (fun x y => |x - y|) ws' (A.map (fun x => (1 - s) * x) ++ ((1 - s) * w + s) :: B.map fun x => (1 - s) * x)).sum ≤ 14 * u := by
  classical
  have hu := u_small
  have hu0 := u_pos
  have hη := eta_tiny
  have hη0 := eta_pos
  have hle : ∀ x ∈ A ++ w :: B, x ≤ 3 / 2 := fun x hx => le_trans (List.single_le_sum (fun y hy => (hw y hy).2) _ hx) hsum
  have hlist : ∀ l : List ℝ, (∀ x ∈ l, Rep x ∧ 0 ≤ x ∧ x ≤ 3 / 2) → ∃ l' : List ℝ, l.map (fun x => add (fin x) (mul (fin s) (neg (fin x)))) = l'.map fin ∧
      l'.length = l.length ∧ (∀ x ∈ l', Rep x ∧ 0 ≤ x) ∧ (List.zipWith (fun x y => |x - y|) l' (l.map fun x => (1 - s) * x)).sum ≤ 3 * u * l.sum + l.length * (2 * eta) := by
    intro l
    induction l with
    | nil => intro _; exact ⟨[], rfl, rfl, by simp, by simp⟩
    | cons x l ih =>
      intro h
      obtain ⟨l', i1, i2, i3, i4⟩ := ih fun y hy => h y (List.mem_cons_of_mem _ hy)
      obtain ⟨a1, a2, a3⟩ := h x (by simp)
      obtain ⟨x', b1, b2, b3, b4⟩ := other_near hs0 hs1 a1 a2 (by linarith)
      refine ⟨x' :: l', by rw [List.map_cons, List.map_cons, i1, b1], by simp [i2], ?_, ?_⟩
      · intro y hy
        rcases List.mem_cons.mp hy with rfl | hy
        · exact ⟨b2, b3⟩
        · exact i3 y hy
      · simp only [List.map_cons, List.zipWith_cons_cons, List.sum_cons, List.length_cons]
        push_cast
        linarith
  obtain ⟨A', a1, a2, a3, a4⟩ := hlist A fun x hx => ⟨(hw x (by simp [hx])).1, (hw x (by simp [hx])).2, hle x (by simp [hx])⟩
  obtain ⟨B', b1, b2, b3, b4⟩ := hlist B fun x hx => ⟨(hw x (by simp [hx])).1, (hw x (by simp [hx])).2, hle x (by simp [hx])⟩
  obtain ⟨w', c1, c2, c3, c4⟩ := chosen_near hs0 hs1 (hw w (by simp)).1 (hw w (by simp)).2 (hle w (by simp))
  refine ⟨A' ++ w' :: B', ?_, by simp [a2, b2], ?_, ?_⟩
  · unfold interiorPoint
    rw [if_pos ⟨hs0, hs1⟩]
    congr 1
    rw [List.map_append, List.map_cons]
    have := mapIdx_split (fun b : F64 => add b (mul (fin s) (sub (fin 1) b))) (fun b => add b (mul (fin s) (neg b))) (A.map fin) (fin w) (B.map fin)
    rw [List.length_map] at this
    rw [show (fun (j : ℕ) (b : F64) => add b (mul (fin s) (if j = A.length then sub (fin 1) b else neg b))) =
      fun j b => if j = A.length then add b (mul (fin s) (sub (fin 1) b)) else add b (mul (fin s) (neg b)) by
        funext j b; split <;> rfl]
    rw [this, c1, List.map_map, List.map_map, List.map_append, List.map_cons, ← a1, ← b1]
    rfl
  · intro x hx
    rcases List.mem_append.mp hx with h | h
    · exact a3 x h
    · rcases List.mem_cons.mp h with rfl | h
      · exact ⟨c2, c3⟩
      · exact b3 x h
  · rw [List.zipWith_append (by simp [a2]), List.sum_append, List.zipWith_cons_cons, List.sum_cons]
    rw [List.sum_append, List.sum_cons] at hsum
    rw [List.length_append, List.length_cons] at hl
    have hlr : (A.length : ℝ) + B.length ≤ 10 ^ 8 := by exact_mod_cast (by omega : A.length + B.length ≤ 10 ^ 8)
    have hw0 : 0 ≤ w := (hw w (by simp)).2
    have hlen : (A.length : ℝ) * (2 * eta) + B.length * (2 * eta) ≤ u := by
      have h2 : 2 * eta * (A.length + B.length) ≤ 2 * (1 / 10 ^ 60) * 10 ^ 8 := by
        have : (0 : ℝ) ≤ (A.length : ℝ) + B.length := by positivity
        exact mul_le_mul (by linarith) hlr this (by positivity)
      have h3 : (1 : ℝ) / 10 ^ 17 ≤ u := by rw [u_eq]; norm_num
      nlinarith
    nlinarith

end F64

end Miniboosts
