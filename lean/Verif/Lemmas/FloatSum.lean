import Verif.Lemmas.FloatCut

/-! # Relative errors of sums of non-negative `f64`s -/

namespace Miniboosts

namespace F64

theorem rep_int {x : ℝ} (h : Rep x) : ∃ m : ℤ, x = m * 2 ^ (-1074 : ℤ) := by
  obtain ⟨k, j, -, hj, rfl⟩ := h
  obtain ⟨n, hn⟩ := Int.eq_ofNat_of_zero_le (show 0 ≤ j + 1074 by omega)
  refine ⟨k * 2 ^ n, ?_⟩
  have : j = n + (-1074 : ℤ) := by omega
  rw [this, zpow_add₀ (by norm_num), zpow_natCast]
  push_cast
  ring

theorem rep_of_int {m : ℤ} (h : |m| < 2 ^ 53) : Rep ((m : ℝ) * 2 ^ (-1074 : ℤ)) := ⟨m, -1074, h, le_rfl, rfl⟩

/-- An addition is either exact or has a small relative error. -/
theorem add_rel {a b : ℝ} (ha : Rep a) (hb : Rep b) : |round (a + b) - (a + b)| ≤ u * |a + b| := by
  obtain ⟨k, rfl⟩ := rep_int ha
  obtain ⟨m, rfl⟩ := rep_int hb
  rw [← add_mul, ← Int.cast_add]
  generalize k + m = n
  have hu := u_pos
  by_cases hn : |n| < 2 ^ 53
  · rw [round_of_rep (rep_of_int hn), sub_self, abs_zero]; positivity
  · push Not at hn
    have h0 : (n : ℝ) * 2 ^ (-1074 : ℤ) ≠ 0 := by
      refine mul_ne_zero ?_ (by positivity)
      intro h
      have : n = 0 := by exact_mod_cast h
      subst this
      norm_num at hn
    refine (round_err' _).trans ((half_ulp h0).trans (max_le le_rfl ?_))
    have h1 : (2 ^ 53 : ℝ) ≤ |(n : ℝ)| := by exact_mod_cast hn
    rw [abs_mul, abs_of_pos (show (0 : ℝ) < 2 ^ (-1074 : ℤ) by positivity), two_eta, u_eq]
    have := eta_pos
    nlinarith

theorem round_add_pos {a b : ℝ} (ha : Rep a) (hb : Rep b) (h : 0 < a + b) : 0 < round (a + b) := by
  have h1 := add_rel ha hb
  rw [abs_of_pos h] at h1
  have hu := u_small
  have := (abs_le.mp h1).1
  nlinarith

/-- `s` is the sum `x` of non-negative numbers, up to `k` relative errors. -/
def Near (k : ℕ) (s x : ℝ) : Prop := (1 - u) ^ k * x ≤ s ∧ s ≤ (1 + u) ^ k * x

theorem lo_pos : 0 < 1 - u := by have := u_small; linarith

theorem lo_le : 1 - u ≤ 1 := by have := u_pos; linarith

theorem hi_ge : 1 ≤ 1 + u := by have := u_pos; linarith

theorem Near.refl (x : ℝ) : Near 0 x x := by simp [Near]

theorem Near.mono {k l : ℕ} (h : k ≤ l) {s x : ℝ} (hx : 0 ≤ x) (hs : Near k s x) : Near l s x := by
  refine ⟨(mul_le_mul_of_nonneg_right (pow_le_pow_of_le_one lo_pos.le lo_le h) hx).trans hs.1,
    hs.2.trans (mul_le_mul_of_nonneg_right (pow_le_pow_right₀ hi_ge h) hx)⟩

theorem Near.nonneg {k : ℕ} {s x : ℝ} (hx : 0 ≤ x) (hs : Near k s x) : 0 ≤ s :=
  (mul_nonneg (pow_nonneg lo_pos.le _) hx).trans hs.1

theorem Near.pos {k : ℕ} {s x : ℝ} (hx : 0 < x) (hs : Near k s x) : 0 < s :=
  (mul_pos (pow_pos lo_pos _) hx).trans_le hs.1

theorem Near.add {k : ℕ} {s x t y : ℝ} (hs : Near k s x) (ht : Near k t y) : Near k (s + t) (x + y) := by
  unfold Near at *
  constructor
  · rw [mul_add]; linarith [hs.1, ht.1]
  · rw [mul_add]; linarith [hs.2, ht.2]

/-- One more rounding. -/
theorem Near.step {k : ℕ} {s x r : ℝ} (hs : Near k s x) (h1 : (1 - u) * s ≤ r) (h2 : r ≤ (1 + u) * s) : Near (k + 1) r x := by
  unfold Near at *
  constructor
  · rw [pow_succ]
    have := mul_le_mul_of_nonneg_left hs.1 lo_pos.le
    linarith
  · rw [pow_succ]
    have := mul_le_mul_of_nonneg_left hs.2 (zero_le_one.trans hi_ge)
    linarith

theorem Near.trans {k l : ℕ} {s x r : ℝ} (hr : Near l r s) (hs : Near k s x) : Near (k + l) r x := by
  unfold Near at *
  constructor
  · refine le_trans ?_ hr.1
    rw [pow_add]
    have := mul_le_mul_of_nonneg_left hs.1 (pow_nonneg lo_pos.le l)
    linarith
  · refine hr.2.trans ?_
    rw [pow_add]
    have := mul_le_mul_of_nonneg_left hs.2 (pow_nonneg (zero_le_one.trans hi_ge) l)
    linarith

/-- A million roundings are at most `10⁻⁹`. -/
theorem Near.bound {k : ℕ} (hk : k ≤ 10 ^ 6) {s x : ℝ} (hx : 0 ≤ x) (hs : Near k s x) :
    (1 - 1 / 10 ^ 9) * x ≤ s ∧ s ≤ (1 + 1 / 10 ^ 9) * x := by
  have hu := u_small
  have hu0 := u_pos
  have hk' : (k : ℝ) ≤ 1000000 := by exact_mod_cast (hk.trans (by norm_num) : k ≤ 1000000)
  have hk0 : (0 : ℝ) ≤ k := Nat.cast_nonneg k
  have hku : k * u ≤ 1 / 10 ^ 9 / 2 := by
    calc k * u ≤ 1000000 * (1 / 9000000000000000) := by gcongr
      _ ≤ _ := by norm_num
  have hlo : 1 - k * u ≤ (1 - u) ^ k := by
    have := one_add_mul_le_pow (a := -u) (by linarith) k
    have h2 : (1 + -u) ^ k = (1 - u) ^ k := by ring_nf
    rw [h2] at this
    linarith
  have hhi : (1 + u) ^ k ≤ 1 + 1 / 10 ^ 9 := by
    have h1 : (1 + u) ^ k * (1 - u) ^ k ≤ 1 := by
      rw [← mul_pow]
      exact pow_le_one₀ (by nlinarith) (by nlinarith)
    have h2 : 0 ≤ (1 + u) ^ k := by positivity
    by_contra hcon
    push Not at hcon
    have h3 : (1 + 1 / 10 ^ 9) * (1 - 1 / 10 ^ 9 / 2) ≤ (1 + u) ^ k * (1 - u) ^ k := by
      refine mul_le_mul hcon.le (by linarith) (by norm_num) h2
    norm_num at h3
    linarith
  constructor
  · refine le_trans (mul_le_mul_of_nonneg_right ?_ hx) hs.1
    linarith
  · exact hs.2.trans (mul_le_mul_of_nonneg_right hhi hx)

theorem add_near {a b : ℝ} (ha : Rep a) (hb : Rep b) (h0 : 0 ≤ a + b) : (1 - u) * (a + b) ≤ round (a + b) ∧ round (a + b) ≤ (1 + u) * (a + b) := by
  have h := add_rel ha hb
  rw [abs_of_nonneg h0, abs_le] at h
  constructor <;> linarith [h.1, h.2]

/-- The sum of a piece. -/
theorem foldl_near : ∀ (xs : List ℝ) (acc X : ℝ) (k : ℕ), (∀ x ∈ xs, 0 ≤ x ∧ Rep x) → Rep acc → 0 ≤ X → Near k acc X → X + xs.sum ≤ 10 ^ 19 →
    k + xs.length ≤ 10 ^ 6 → ∃ s, (xs.map fin).foldl add (fin acc) = fin s ∧ Rep s ∧ Near (k + xs.length) s (X + xs.sum) := by
  intro xs
  induction xs with
  | nil => intro acc X k _ ha _ hn _ _; exact ⟨acc, rfl, ha, by simpa using hn⟩
  | cons x xs ih =>
    intro acc X k hx ha hX hn hB hk
    obtain ⟨hx0, hxr⟩ := hx x (by simp)
    simp only [List.sum_cons, List.length_cons] at hB hk
    have hs : 0 ≤ xs.sum := List.sum_nonneg fun y hy => (hx y (List.mem_cons_of_mem _ hy)).1
    have hacc := hn.nonneg hX
    obtain ⟨h1, h2⟩ := add_near ha hxr (by linarith)
    have hn' : Near (k + 1) (round (acc + x)) (X + x) := (hn.add (Near.mono (Nat.zero_le k) hx0 (Near.refl x))).step h1 h2
    have hb := hn.bound (by omega) hX
    obtain ⟨s, e1, e2, e3⟩ := ih (round (acc + x)) (X + x) (k + 1) (fun y hy => hx y (List.mem_cons_of_mem _ hy)) (rep_round _)
      (by linarith) hn' (by linarith) (by omega)
    refine ⟨s, ?_, e2, ?_⟩
    · rw [List.map_cons, List.foldl_cons, F64.add, rnd_small]
      · exact e1
      · rw [abs_of_nonneg (by linarith)]; linarith [hb.2]
    · rw [List.sum_cons, List.length_cons, show k + (xs.length + 1) = k + 1 + xs.length by ring, ← add_assoc]
      exact e3

theorem foldl_near0 (xs : List ℝ) (hx : ∀ x ∈ xs, 0 ≤ x ∧ Rep x) (hB : xs.sum ≤ 10 ^ 19) (hk : xs.length ≤ 10 ^ 6) :
    ∃ s, (xs.map fin).foldl add (fin 0) = fin s ∧ Rep s ∧ Near xs.length s xs.sum := by
  have := foldl_near xs 0 0 0 hx rep_zero le_rfl (Near.refl 0) (by simpa using hB) (by simpa using hk)
  simpa using this

/-- However the work is divided. -/
theorem split_near : ∀ (t : Split F64) (xs : List ℝ), t.items = xs.map fin → (∀ x ∈ xs, 0 ≤ x ∧ Rep x) → xs.sum ≤ 10 ^ 19 → xs.length ≤ 10 ^ 6 →
    ∃ s, t.sum add (fin 0) = fin s ∧ Rep s ∧ Near xs.length s xs.sum := by
  intro t
  induction t with
  | seq l =>
    intro xs hi hx hB hk
    simp only [Split.items] at hi
    rw [Split.sum, Split.foldWith, hi]
    exact foldl_near0 xs hx hB hk
  | join l r ihl ihr =>
    intro xs hi hx hB hk
    obtain ⟨ys, zs, rfl, hl, hr⟩ := map_fin_split hi
    simp only [List.sum_append, List.length_append] at hB hk
    have hy0 : 0 ≤ ys.sum := List.sum_nonneg fun y hy => (hx y (by simp [hy])).1
    have hz0 : 0 ≤ zs.sum := List.sum_nonneg fun y hy => (hx y (by simp [hy])).1
    obtain ⟨s, h1, h2, h3⟩ := ihl ys hl (fun y hy => hx y (by simp [hy])) (by linarith) (by omega)
    obtain ⟨s', h1', h2', h3'⟩ := ihr zs hr (fun y hy => hx y (by simp [hy])) (by linarith) (by omega)
    have hb := h3.bound (by omega) hy0
    have hb' := h3'.bound (by omega) hz0
    have p1 := h3.nonneg hy0
    have p2 := h3'.nonneg hz0
    have hadd : (Split.join l r).sum add (fin 0) = fin (round (s + s')) := by
      have : (Split.join l r).sum add (fin 0) = add (l.sum add (fin 0)) (r.sum add (fin 0)) := rfl
      rw [this, h1, h1', F64.add, rnd_small]
      rw [abs_of_nonneg (by linarith)]
      linarith [hb.2, hb'.2]
    refine ⟨_, hadd, rep_round _, ?_⟩
    simp only [List.sum_append, List.length_append]
    rcases Nat.eq_zero_or_pos ys.length with hy | hy
    · have : ys = [] := List.length_eq_zero_iff.mp hy
      subst this
      have : s = 0 := by have := h3; simp [Near] at this; linarith [this.1, this.2]
      subst this
      simpa [round_of_rep h2'] using h3'
    rcases Nat.eq_zero_or_pos zs.length with hz | hz
    · have : zs = [] := List.length_eq_zero_iff.mp hz
      subst this
      have : s' = 0 := by have := h3'; simp [Near] at this; linarith [this.1, this.2]
      subst this
      simpa [round_of_rep h2] using h3
    obtain ⟨r1, r2⟩ := add_near h2 h2' (by linarith)
    have hm : Near (max ys.length zs.length) (s + s') (ys.sum + zs.sum) :=
      (h3.mono (le_max_left _ _) hy0).add (h3'.mono (le_max_right _ _) hz0)
    exact (hm.step r1 r2).mono (by omega) (by linarith)

/-- The size of a sum. -/
theorem split_abs : ∀ (t : Split F64) (xs : List ℝ), t.items = xs.map fin → (∀ x ∈ xs, Rep x) → (xs.map (|·|)).sum ≤ 10 ^ 19 → xs.length ≤ 10 ^ 6 →
    ∃ s, t.sum add (fin 0) = fin s ∧ Rep s ∧ |s| ≤ (1 + u) ^ xs.length * (xs.map (|·|)).sum := by
  intro t
  have h0 : ∀ l : List ℝ, 0 ≤ (l.map (|·|)).sum := fun l =>
    List.sum_nonneg (by simp only [List.mem_map]; rintro _ ⟨a, -, rfl⟩; exact abs_nonneg a)
  have hpow : ∀ k : ℕ, k ≤ 10 ^ 6 → (1 + u) ^ k ≤ 1 + 1 / 10 ^ 9 := by
    intro k hk
    have hN : Near k ((1 + u) ^ k * 1) 1 := ⟨by
      rw [mul_one, mul_one]
      exact (pow_le_one₀ lo_pos.le lo_le).trans (one_le_pow₀ hi_ge), le_rfl⟩
    simpa using (hN.bound hk zero_le_one).2
  have hone : ∀ k : ℕ, 1 ≤ (1 + u) ^ k := fun k => one_le_pow₀ hi_ge
  have hstep : ∀ a b : ℝ, Rep a → Rep b → |round (a + b)| ≤ (1 + u) * (|a| + |b|) := by
    intro a b ha hb
    have h1 := add_rel ha hb
    have h2 := abs_add_le a b
    have h3 := FTree.le_abs_of_dist h1
    have hu := u_pos
    nlinarith
  induction t with
  | seq l =>
    intro xs hi
    simp only [Split.items] at hi
    have key : ∀ (xs : List ℝ) (acc X : ℝ) (k : ℕ), (∀ x ∈ xs, Rep x) → Rep acc → |acc| ≤ (1 + u) ^ k * X → 0 ≤ X →
        X + (xs.map (|·|)).sum ≤ 10 ^ 19 → k + xs.length ≤ 10 ^ 6 →
        ∃ s, (xs.map fin).foldl add (fin acc) = fin s ∧ Rep s ∧ |s| ≤ (1 + u) ^ (k + xs.length) * (X + (xs.map (|·|)).sum) := by
      intro xs
      induction xs with
      | nil => intro acc X k _ ha hb _ _ _; exact ⟨acc, rfl, ha, by simpa using hb⟩
      | cons x xs ih =>
        intro acc X k hx ha hb hX hB hk
        simp only [List.map_cons, List.sum_cons, List.length_cons] at hB hk
        have hax := abs_nonneg x
        have hstep' := hstep acc x ha (hx x (by simp))
        have hp := hone k
        have hp' := hpow k (by omega)
        have hXx : |acc| + |x| ≤ (1 + u) ^ k * (X + |x|) := by nlinarith
        obtain ⟨s, e1, e2, e3⟩ := ih (round (acc + x)) (X + |x|) (k + 1) (fun y hy => hx y (List.mem_cons_of_mem _ hy)) (rep_round _)
          (by rw [pow_succ]; have := mul_le_mul_of_nonneg_left hXx (zero_le_one.trans hi_ge); linarith) (by linarith) (by linarith) (by omega)
        refine ⟨s, ?_, e2, ?_⟩
        · rw [List.map_cons, List.foldl_cons, F64.add, rnd_small]
          · exact e1
          · have h5 := abs_add_le acc x
            have h6 := h0 xs
            have : (1 + u) ^ k * (X + |x|) ≤ (1 + 1 / 10 ^ 9) * (X + |x|) := by gcongr
            linarith
        · simp only [List.map_cons, List.sum_cons, List.length_cons]
          rw [show k + (xs.length + 1) = k + 1 + xs.length by ring, ← add_assoc]
          exact e3
    intro hx hB hk
    have := key xs 0 0 0 hx rep_zero (by simp) le_rfl (by simpa using hB) (by simpa using hk)
    rw [Split.sum, Split.foldWith, hi]
    simpa using this
  | join l r ihl ihr =>
    intro xs hi hx hB hk
    obtain ⟨ys, zs, rfl, hl, hr⟩ := map_fin_split hi
    simp only [List.map_append, List.sum_append, List.length_append] at hB hk
    have hy0 := h0 ys
    have hz0 := h0 zs
    obtain ⟨s, h1, h2, h3⟩ := ihl ys hl (fun y hy => hx y (by simp [hy])) (by linarith) (by omega)
    obtain ⟨s', h1', h2', h3'⟩ := ihr zs hr (fun y hy => hx y (by simp [hy])) (by linarith) (by omega)
    have hp : (1 + u) ^ ys.length * (ys.map (|·|)).sum ≤ (1 + 1 / 10 ^ 9) * (ys.map (|·|)).sum := by gcongr; exact hpow _ (by omega)
    have hp' : (1 + u) ^ zs.length * (zs.map (|·|)).sum ≤ (1 + 1 / 10 ^ 9) * (zs.map (|·|)).sum := by gcongr; exact hpow _ (by omega)
    have hadd : (Split.join l r).sum add (fin 0) = fin (round (s + s')) := by
      have : (Split.join l r).sum add (fin 0) = add (l.sum add (fin 0)) (r.sum add (fin 0)) := rfl
      rw [this, h1, h1', F64.add, rnd_small]
      have := abs_add_le s s'
      linarith
    refine ⟨_, hadd, rep_round _, ?_⟩
    simp only [List.map_append, List.sum_append, List.length_append]
    rcases Nat.eq_zero_or_pos ys.length with hy | hy
    · have : ys = [] := List.length_eq_zero_iff.mp hy
      subst this
      have : s = 0 := by simpa using h3
      subst this
      simpa [round_of_rep h2'] using h3'
    rcases Nat.eq_zero_or_pos zs.length with hz | hz
    · have : zs = [] := List.length_eq_zero_iff.mp hz
      subst this
      have : s' = 0 := by simpa using h3'
      subst this
      simpa [round_of_rep h2] using h3
    have hs := hstep s s' h2 h2'
    have q1 : (1 + u) ^ ys.length ≤ (1 + u) ^ (ys.length + zs.length - 1) := pow_le_pow_right₀ hi_ge (by omega)
    have q2 : (1 + u) ^ zs.length ≤ (1 + u) ^ (ys.length + zs.length - 1) := pow_le_pow_right₀ hi_ge (by omega)
    have q3 : (1 + u) ^ (ys.length + zs.length) = (1 + u) * (1 + u) ^ (ys.length + zs.length - 1) := by
      rw [← pow_succ']; congr 1; omega
    rw [q3]
    refine hs.trans ?_
    rw [mul_assoc]
    refine mul_le_mul_of_nonneg_left ?_ (zero_le_one.trans hi_ge)
    have r1 := mul_le_mul_of_nonneg_right q1 hy0
    have r2 := mul_le_mul_of_nonneg_right q2 hz0
    linarith

end F64

end Miniboosts
