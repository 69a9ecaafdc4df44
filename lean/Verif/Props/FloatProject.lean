import Verif.Spec.Projection
import Verif.Lemmas.FloatMono
import Verif.Lemmas.FloatProjectSum
import Verif.Props.Projection
import Verif.Props.Rounding

/-! # C96: the projection onto the capped simplex, in `f64` -/

namespace Miniboosts.Props

open Miniboosts F64

/-- The sum of the final check. -/
theorem check_sum {xs : List ℝ} {B : ℝ} (hB1 : 1 ≤ B) (hB2 : B ≤ 10 ^ 10) (hs : (xs.map (|·|)).sum ≤ B) (hn : xs.length ≤ 10 ^ 5) :
    ∃ s, (xs.map fin).foldl add (fin 0) = fin s ∧ |s - xs.sum| ≤ 2 * u * B * xs.length := by
  obtain ⟨s, h1, -, h2⟩ := foldl_add_err B hB1 hB2 xs 0 0 0 rep_zero (by simp) (by simpa using hs) (by omega)
  exact ⟨s, h1, by simpa using h2⟩

theorem tol_close : ∃ t, rnd (1 / 10 ^ 5) = fin t ∧ |t - 1 / 10 ^ 5| ≤ 1 / 10 ^ 20 := by
  refine ⟨F64.round (1 / 10 ^ 5), rnd_small (by rw [abs_of_pos (by norm_num)]; norm_num), (round_err _).trans ?_⟩
  have h1 := u_small
  have h2 := eta_tiny
  rw [abs_of_pos (by norm_num)]
  linarith

theorem check_iff {xs : List ℝ} {nu b : ℝ} (hb : F64.div (fin 1) (fin nu) = fin b) (hn : xs.length ≤ 10 ^ 5) :
    checkCapped (xs.map fin) (fin nu) = .ok () ↔ (1 ≤ nu ∧ nu ≤ xs.length) ∧
      F64.Lt (F64.abs (F64.sub ((xs.map fin).foldl F64.add (fin 0)) (fin 1))) (rnd (1 / 10 ^ 5)) ∧ ∀ x ∈ xs, 0 ≤ x ∧ x ≤ b := by
  have h1 : (F64.Le (fin 1) (fin nu) ∧ F64.Le (fin nu) (rnd (xs.map fin).length)) ↔ (1 ≤ nu ∧ nu ≤ xs.length) := by
    rw [List.length_map, rnd_nat hn]; exact Iff.rfl
  have h2 : (∀ s ∈ xs.map fin, F64.Le (fin 0) s ∧ F64.Le s (F64.div (fin 1) (fin nu))) ↔ ∀ x ∈ xs, 0 ≤ x ∧ x ≤ b := by
    rw [hb]
    simp only [List.mem_map, forall_exists_index, and_imp, forall_apply_eq_imp_iff₂]
    exact Iff.rfl
  unfold checkCapped
  by_cases g1 : F64.Le (fin 1) (fin nu) ∧ F64.Le (fin nu) (rnd (xs.map fin).length)
  · rw [if_pos g1]
    by_cases g2 : F64.Lt (F64.abs (F64.sub ((xs.map fin).foldl F64.add (fin 0)) (fin 1))) (rnd (1 / 10 ^ 5))
    · rw [if_pos g2]
      by_cases g3 : ∀ s ∈ xs.map fin, F64.Le (fin 0) s ∧ F64.Le s (F64.div (fin 1) (fin nu))
      · rw [if_pos g3]
        exact ⟨fun _ => ⟨h1.1 g1, g2, h2.1 g3⟩, fun _ => rfl⟩
      · rw [if_neg g3]
        exact ⟨fun h => (by cases h), fun h => absurd (h2.2 h.2.2) g3⟩
    · rw [if_neg g2]
      exact ⟨fun h => (by cases h), fun h => absurd h.2.1 g2⟩
  · rw [if_neg g1]
    exact ⟨fun h => (by cases h), fun h => absurd (h1.2 h.1) g1⟩

theorem check_error {d : List F64} {nu : F64} {e : Panic} (h : checkCapped d nu = .error e) : e = .assertion := by
  unfold checkCapped at h
  split at h
  · split at h
    · split at h
      · cases h
      · cases h; rfl
    · cases h; rfl
  · cases h; rfl

theorem check_nu_ok {d : List F64} {nu : F64} (h : checkCapped d nu = .ok ()) : F64.Le (fin 1) nu ∧ F64.Le nu (rnd d.length) := by
  unfold checkCapped at h
  by_contra hc
  rw [if_neg hc] at h
  cases h

/-- What is left of the function after the loop. -/
theorem project_check (L : Libm) (nu : ℝ) (logs : List ℝ) : ∃ D : List F64, D.length = logs.length ∧
    F64.projectCapped L (fin nu) (logs.map fin) = (match checkCapped D (fin nu) with | .error e => .error e | .ok () => .ok D) := by
  unfold F64.projectCapped
  rw [if_neg (by simp)]
  simp only []
  set ix := (List.range (logs.map fin).length).mergeSort (fun i j => @decide (F64.Le ((logs.map fin).getD j (fin 0)) ((logs.map fin).getD i (fin 0))) (Classical.propDecidable _)) with hix
  have hperm : ix.Perm (List.range (logs.map fin).length) := List.mergeSort_perm _ _
  obtain ⟨D', h1, h2, -⟩ := projLoop_spec L (F64.div (fin 1) (fin nu)) (F64.ln L (fin nu)) (fun i => (logs.map fin).getD i (fin 0)) ix 0 (logs.map fin)
    (hperm.nodup_iff.2 List.nodup_range) (by
      intro k hk
      have : k < (logs.map fin).length := by simpa using hperm.mem_iff.1 hk
      simp [List.getD, List.getElem?_eq_getElem this])
  refine ⟨D', by simpa using h2, ?_⟩
  rw [h1]
  simp only []
  rcases checkCapped D' (fin nu) with e | ⟨⟩ <;> rfl

theorem sum_over {logs : List ℝ} {ks : List Nat} (hp : ks.Perm (List.range logs.length)) (f : ℝ → ℝ) :
    (ks.map fun k => f (lg logs k)).sum = (logs.map f).sum := by
  rw [(hp.map fun k => f (lg logs k)).sum_eq]
  congr 1
  conv_rhs => rw [← range_map_getD logs 0, List.map_map]
  rfl

theorem sum_over' {logs xs : List ℝ} {ks : List Nat} (hp : ks.Perm (List.range logs.length)) (hl : xs.length = logs.length) :
    (ks.map fun k => xs.getD k 0).sum = xs.sum := by
  rw [(hp.map fun k => xs.getD k 0).sum_eq, ← hl, range_map_getD]

theorem dist_over {logs xs : List ℝ} {ks : List Nat} (hp : ks.Perm (List.range logs.length)) (hl : xs.length = logs.length) (f : ℝ → ℝ) :
    Spec.dist1 xs (logs.map f) = (ks.map fun k => |xs.getD k 0 - f (lg logs k)|).sum := by
  rw [(hp.map fun k => |xs.getD k 0 - f (lg logs k)|).sum_eq]
  unfold Spec.dist1
  congr 1
  apply List.ext_getElem
  · simp [hl]
  · intro i h1 h2
    have h3 : i < logs.length := by simpa using h2
    have h4 : i < xs.length := by omega
    simp [lg, List.getD, List.getElem?_eq_getElem h3, List.getElem?_eq_getElem h4]

/-- The exact projection. -/
theorem exists_exact {nu : ℝ} {logs : List ℝ} (h1 : 1 ≤ nu) (h2 : nu ≤ logs.length) :
    ∃ ξ, 0 < ξ ∧ Spec.IsEntropyProjection nu logs (logs.map fun a => min (1 / nu) (ξ * Real.exp a)) ∧
      (logs.map fun a => min (1 / nu) (ξ * Real.exp a)).sum = 1 := by
  obtain ⟨ξ, h0, h3, h4⟩ := projectCapped_eq nu logs h1 h2
  obtain ⟨h5, h6, -⟩ := project_capped nu logs _ h3
  exact ⟨ξ, h0, ⟨h5, h6, fun q hq hq' => (project_optimal nu logs _ h3 q hq hq').1⟩, h4⟩

theorem abs_sub_one {s : ℝ} (h : |s| ≤ 10 ^ 10) : ∃ y, F64.abs (F64.sub (fin s) (fin 1)) = fin |y| ∧ |y - (s - 1)| ≤ u * (|s| + 1) + eta := by
  have h1 : |s + -1| ≤ |s| + 1 := by have := abs_add_le s (-1); simpa using this
  refine ⟨F64.round (s + -1), ?_, ?_⟩
  · have : F64.sub (fin s) (fin 1) = rnd (s + -1) := rfl
    rw [this, rnd_small (h1.trans (by linarith))]
    rfl
  · have h2 := round_err (s + -1)
    have h3 := u_pos
    have : u * |s + -1| ≤ u * (|s| + 1) := mul_le_mul_of_nonneg_left h1 h3.le
    rw [← sub_eq_add_neg] at *
    linarith

/-- A vector that passes the check sums to one up to `1.1e-5`. -/
theorem check_sum_close {xs : List ℝ} (hn : xs.length ≤ 10 ^ 5) (h0 : ∀ x ∈ xs, 0 ≤ x ∧ x ≤ 2)
    (h : F64.Lt (F64.abs (F64.sub ((xs.map fin).foldl F64.add (fin 0)) (fin 1))) (rnd (1 / 10 ^ 5))) : |xs.sum - 1| ≤ 11 / 10 ^ 6 := by
  have hu := u_small
  have hu0 := u_pos
  have heta := eta_tiny
  obtain ⟨t, ht, hte⟩ := tol_close
  have hte' := abs_le.mp hte
  have habs : (xs.map (|·|)).sum = xs.sum := by
    congr 1
    conv_rhs => rw [← List.map_id xs]
    exact List.map_congr_left fun x hx => abs_of_nonneg (h0 x hx).1
  have hn' : (xs.length : ℝ) ≤ 10 ^ 5 := by exact_mod_cast hn
  have hnn : (0 : ℝ) ≤ xs.length := Nat.cast_nonneg _
  have hsum0 : 0 ≤ xs.sum := List.sum_nonneg fun x hx => (h0 x hx).1
  have hsum1 : xs.sum ≤ xs.length * 2 := by
    have := sum_map_le_sum (fun x : ℝ => x) (fun _ => 2) xs (fun x hx => (h0 x hx).2)
    rw [sum_const] at this
    simpa using this
  have step : ∀ B : ℝ, 1 ≤ B → B ≤ 10 ^ 9 → xs.sum ≤ B → |xs.sum - 1| ≤ 1 / 10 ^ 5 + 4 * u * (B * 10 ^ 5 + 1) := by
    intro B hB1 hB2 hB
    obtain ⟨s, h1, h2⟩ := check_sum hB1 (hB2.trans (by norm_num)) (by rw [habs]; exact hB) hn
    have h3 : 2 * u * B * xs.length ≤ 2 * u * B * 10 ^ 5 := mul_le_mul_of_nonneg_left hn' (by positivity)
    have h2' := abs_le.mp (h2.trans h3)
    have hs : |s| ≤ B + 2 * u * B * 10 ^ 5 := by rw [abs_le]; constructor <;> linarith
    have huB : u * B ≤ 1 / 10 ^ 5 := by
      have : u * B ≤ u * 10 ^ 9 := mul_le_mul_of_nonneg_left hB2 hu0.le
      linarith
    have hBq : B ≤ 10 ^ 9 := hB2
    obtain ⟨y, hy, hye⟩ := abs_sub_one (s := s) (by
      refine hs.trans ?_
      linarith only [huB, hB1, hBq])
    rw [h1, hy, ht] at h
    have h4 : |y| < t := h
    have h4' := abs_lt.mp h4
    have hu5 : u * 10 ^ 5 ≤ 1 / 2 := by linarith only [hu]
    have hB5 : 2 * u * B * 10 ^ 5 ≤ B := by
      have := mul_le_mul_of_nonneg_left hu5 (show (0 : ℝ) ≤ 2 * B by linarith only [hB1])
      linarith only [this]
    have h5 : u * |s| ≤ u * (2 * B) := mul_le_mul_of_nonneg_left (hs.trans (by linarith only [hB5])) hu0.le
    have h6 := abs_le.mp hye
    have huB0 : 0 ≤ u * B := mul_nonneg hu0.le (by linarith only [hB1])
    have heu : eta ≤ u := eta_le_u
    have h7 : (1 : ℝ) / 10 ^ 20 ≤ u := by rw [u_eq]; norm_num
    rw [abs_le]
    constructor <;> linarith only [h2'.1, h2'.2, h6.1, h6.2, h4'.1, h4'.2, h5, hte'.1, hte'.2, heu, hu0, huB0, h7]
  have s1 := step (2 * 10 ^ 5) (by norm_num) (by norm_num) (by linarith)
  have s1' := abs_le.mp s1
  have s2 := step 2 (by norm_num) (by norm_num) (by linarith)
  linarith

/-- The other direction: a vector whose sum is one up to `4e-6` passes the test of the sum. -/
theorem check_of_sum {xs : List ℝ} (hn : xs.length ≤ 10 ^ 5) (h0 : ∀ x ∈ xs, 0 ≤ x) (h : |xs.sum - 1| ≤ 4 / 10 ^ 6) :
    F64.Lt (F64.abs (F64.sub ((xs.map fin).foldl F64.add (fin 0)) (fin 1))) (rnd (1 / 10 ^ 5)) := by
  have hu := u_small
  have hu0 := u_pos
  have heta := eta_tiny
  obtain ⟨t, ht, hte⟩ := tol_close
  have hte' := abs_le.mp hte
  have h' := abs_le.mp h
  have habs : (xs.map (|·|)).sum = xs.sum := by
    congr 1
    conv_rhs => rw [← List.map_id xs]
    exact List.map_congr_left fun x hx => abs_of_nonneg (h0 x hx)
  have hn' : (xs.length : ℝ) ≤ 10 ^ 5 := by exact_mod_cast hn
  obtain ⟨s, h1, h2⟩ := check_sum (B := 2) (by norm_num) (by norm_num) (by rw [habs]; linarith) hn
  have h3 : 2 * u * 2 * xs.length ≤ 2 * u * 2 * 10 ^ 5 := mul_le_mul_of_nonneg_left hn' (by positivity)
  have h2' := abs_le.mp (h2.trans h3)
  have hs : |s| ≤ 2 := by rw [abs_le]; constructor <;> linarith
  obtain ⟨y, hy, hye⟩ := abs_sub_one (s := s) (hs.trans (by norm_num))
  rw [h1, hy, ht]
  show |y| < t
  have h6 := abs_le.mp hye
  have h5 : u * |s| ≤ u * 2 := mul_le_mul_of_nonneg_left hs hu0.le
  rw [abs_lt]
  constructor <;> linarith

/-- C96, soundness: whatever the logarithms and the cap are, the projection computed with `f64` either panics, or returns one number per
input, all between `0` and the computed cap, whose sum is one up to `1.1e-5` and which together are within `3e-5` (in the one-norm) of the
exact entropy projection.  It never returns anything else. -/
theorem project_f64_sound (L : Libm) (nu : ℝ) (logs : List ℝ) (hl : logs.length ≤ 10 ^ 5) (hx : ∀ x ∈ logs, |x| ≤ 10 ^ 4) {r : List F64}
    (h : F64.projectCapped L (fin nu) (logs.map fin) = .ok r) :
    ∃ xs : List ℝ, r = xs.map fin ∧ (∀ x ∈ xs, 0 ≤ x ∧ x ≤ F64.round (1 / nu)) ∧ |xs.sum - 1| ≤ 11 / 10 ^ 6 ∧
      ∃ p, Spec.IsEntropyProjection nu logs p ∧ xs.length = p.length ∧ Spec.dist1 xs p ≤ 3 / 10 ^ 5 := by
  obtain ⟨D, hD, hproj⟩ := project_check L nu logs
  have hnu : 1 ≤ nu ∧ nu ≤ logs.length := by
    cases hc : checkCapped D (fin nu) with
    | error e => rw [hproj, hc] at h; cases h
    | ok _ =>
      have := check_nu_ok hc
      rw [hD, rnd_nat hl] at this
      exact this
  obtain ⟨h1, h2⟩ := hnu
  have hl' : (logs.length : ℝ) ≤ 10 ^ 5 := by exact_mod_cast hl
  obtain ⟨xs, b, pre, post, hr, hb, -, -, hp⟩ := run_shape L nu logs h1 h2 hl hx
  have hn : xs.length ≤ 10 ^ 5 := by rw [hr.len]; exact hl
  have hcheck : checkCapped (xs.map fin) (fin nu) = .ok () := by
    cases hc : checkCapped (xs.map fin) (fin nu) with
    | error e => rw [hp, hc] at h; cases h
    | ok _ => rfl
  have hr' : r = xs.map fin := by rw [hp, hcheck] at h; cases h; rfl
  obtain ⟨-, hlt, hall⟩ := (check_iff hb hn).1 hcheck
  have hnu0 : 0 < nu := by linarith
  have hv1 : 1 / nu ≤ 1 := by rw [div_le_one hnu0]; exact h1
  have hb2 : b ≤ 2 := by
    have h3 := abs_le.mp hr.cap
    have := u_small
    have h4 : 2 * u * (1 / nu) ≤ 2 * u * 1 := mul_le_mul_of_nonneg_left hv1 (by have := u_pos; positivity)
    linarith
  have hbr : b = F64.round (1 / nu) := by
    have : F64.div (fin 1) (fin nu) = rnd (1 / nu) := by simp only [F64.div, if_neg hnu0.ne']
    rw [this, rnd_small (by rw [abs_of_pos (by positivity)]; linarith)] at hb
    cases hb; rfl
  have hsum := check_sum_close hn (fun x hx' => ⟨(hall x hx').1, (hall x hx').2.trans hb2⟩) hlt
  obtain ⟨ξ, hξ, hent, hone⟩ := exists_exact h1 h2
  refine ⟨xs, hr', by rw [← hbr]; exact hall, hsum, _, hent, by simp [hr.len], ?_⟩
  rw [dist_over hr.perm hr.len]
  refine close_of_check (ξ := ξ) hr h1 (h2.trans hl') hl hξ ?_ ?_ ?_
  · rw [← hone]; exact sum_over hr.perm (fun a => min (1 / nu) (ξ * Real.exp a))
  · rw [sum_over' hr.perm hr.len]; exact hsum
  · intro k hk
    have hk' : k < xs.length := by rw [hr.len]; simpa using hr.perm.mem_iff.1 hk
    have : xs.getD k 0 = xs[k] := by simp [List.getD, List.getElem?_eq_getElem hk']
    rw [this]; exact (hall _ (List.getElem_mem hk')).2

/-- The only panic is a failed assertion of the final check. -/
theorem project_f64_panic (L : Libm) (nu : ℝ) (logs : List ℝ) {e : Panic} (h : F64.projectCapped L (fin nu) (logs.map fin) = .error e) :
    e = .assertion := by
  obtain ⟨D, hD, hproj⟩ := project_check L nu logs
  cases hc : checkCapped D (fin nu) with
  | error e' => rw [hproj, hc] at h; cases h; exact check_error hc
  | ok _ => rw [hproj, hc] at h; cases h

/-- C96, the positive part: when in the exact projection no example is within one percent of the cap (`ξ` is the factor of the exact
projection) and the examples below the cap carry at least a thousandth of the weight, the projection returns.  Missing: the other inputs,
where it may panic (`project_f64_can_panic`). -/
theorem project_f64_returns_partial (L : Libm) (nu : ℝ) (logs : List ℝ) (h1 : 1 ≤ nu) (h2 : nu ≤ logs.length) (hl : logs.length ≤ 10 ^ 5)
    (hx : ∀ x ∈ logs, |x| ≤ 10 ^ 4) (ξ : ℝ) (hξ : 0 < ξ) (hsum : (logs.map fun a => min (1 / nu) (ξ * Real.exp a)).sum = 1)
    (hgap : ∀ a ∈ logs, 1 / 100 ≤ |nu * (ξ * Real.exp a) - 1|)
    (hfree : 1 / 1000 ≤ (logs.map fun a => if ξ * Real.exp a < 1 / nu then ξ * Real.exp a else 0).sum) :
    ∃ r, F64.projectCapped L (fin nu) (logs.map fin) = .ok r := by
  have hl' : (logs.length : ℝ) ≤ 10 ^ 5 := by exact_mod_cast hl
  obtain ⟨xs, b, pre, post, hr, hb, -, -, hp⟩ := run_shape L nu logs h1 h2 hl hx
  have hn : xs.length ≤ 10 ^ 5 := by rw [hr.len]; exact hl
  obtain ⟨h3, h4⟩ := passes_of_gap (ξ := ξ) hr h1 (h2.trans hl') hl hξ
    (by rw [← hsum]; exact sum_over hr.perm (fun a => min (1 / nu) (ξ * Real.exp a)))
    (by
      intro k hk
      have hk' : k < logs.length := by simpa using hr.perm.mem_iff.1 hk
      have : lg logs k = logs[k] := by simp [lg, List.getD, List.getElem?_eq_getElem hk']
      rw [this]; exact hgap _ (List.getElem_mem hk'))
    (by
      refine hfree.trans (le_of_eq ?_)
      rw [← sum_over hr.perm]
      congr 1
      apply List.map_congr_left
      intro k _
      unfold free capped
      split_ifs with h
      · rw [min_eq_right h.le]
      · rfl)
  rw [sum_over' hr.perm hr.len] at h4
  have hall : ∀ x ∈ xs, 0 ≤ x ∧ x ≤ b := by
    intro x hx'
    obtain ⟨k, hk, rfl⟩ := List.mem_iff_getElem.1 hx'
    have := h3 k (hr.perm.mem_iff.2 (by rw [List.mem_range, ← hr.len]; exact hk))
    simpa [List.getD, List.getElem?_eq_getElem hk] using this
  have hcheck := (check_iff hb hn).2 ⟨⟨h1, by rw [hr.len]; exact h2⟩, check_of_sum hn (fun x hx' => (hall x hx').1) h4, hall⟩
  exact ⟨xs.map fin, by rw [hp, hcheck]⟩

/-- The exact model computes the entropy projection, and there is only one. -/
theorem entropyProjection_unique {nu : ℝ} {logs p d : List ℝ} (hp : Spec.IsEntropyProjection nu logs p) (hd : Miniboosts.projectCapped nu logs = .ok d) :
    p = d := by
  obtain ⟨h1, h2, -⟩ := project_capped nu logs d hd
  obtain ⟨h3, h4⟩ := project_optimal nu logs d hd p hp.1 hp.2.1
  exact h4 (le_antisymm (hp.2.2 d h1 h2) h3)

theorem xi_one (L : Libm) {s : ℝ} (hs : Rep s) (hb : |s| ≤ 10 ^ 5) : logXi L (F64.div (fin 1) (fin 1)) 0 (fin s) = fin (-s) := by
  have r1 : rnd 1 = fin 1 := by rw [rnd_small (by norm_num), round_one]
  have r0 : rnd 0 = fin 0 := by rw [rnd_small (by norm_num), round_zero]
  have h1 : F64.div (fin 1) (fin 1) = fin 1 := by
    simp only [F64.div, if_neg one_ne_zero]; rw [div_one, r1]
  have h2 : F64.mul (fin 1) (rnd ((0 : ℕ) : ℝ)) = fin 0 := by
    rw [Nat.cast_zero, r0]
    simp only [F64.mul, mul_zero]
    exact r0
  have h3 : F64.sub (fin 1) (fin 0) = fin 1 := by
    simp only [F64.sub, F64.neg, F64.add, neg_zero, add_zero]
    exact r1
  have h4 : F64.ln L (fin 1) = fin 0 := by
    have : L.lnA 1 = 0 := by simpa using L.ln_err 1 one_pos
    simp only [F64.ln]
    rw [if_pos one_pos, this, r0]
  have hneg : Rep (-s) := by
    obtain ⟨k, j, hk, hj, rfl⟩ := hs
    exact ⟨-k, j, by rwa [abs_neg], hj, by push_cast; ring⟩
  rw [logXi, h1, h2, h3, h4]
  simp only [F64.sub, F64.neg, F64.add, zero_add]
  rw [rnd_small (by rw [abs_neg]; linarith), round_of_rep hneg]

/-- C96 without a cap (`ν = 1`, the default of the boosters, and the softmax of the networks): with an exponential that is at most one for
arguments up to zero the function always returns, for any finite logarithms, and the result is the softmax up to `3e-5`. -/
theorem softmax_f64_returns (L : Libm) (hexp : ∀ x ≤ 0, L.expA x ≤ 1) (logs : List ℝ) (hne : logs ≠ []) (hl : logs.length ≤ 10 ^ 5)
    (hx : ∀ x ∈ logs, |x| ≤ 10 ^ 4) (hd : ∀ x ∈ logs, Double x) :
    ∃ xs : List ℝ, F64.projectCapped L (fin 1) (logs.map fin) = .ok (xs.map fin) ∧ xs.length = logs.length ∧ (∀ x ∈ xs, 0 ≤ x ∧ x ≤ 1) ∧
      |xs.sum - 1| ≤ 4 / 10 ^ 6 ∧ Spec.dist1 xs (Spec.softmax logs) ≤ 3 / 10 ^ 5 := by
  have hlen1 : 1 ≤ logs.length := List.length_pos_of_ne_nil hne
  have h2 : (1 : ℝ) ≤ logs.length := by exact_mod_cast hlen1
  have hl' : (logs.length : ℝ) ≤ 10 ^ 5 := by exact_mod_cast hl
  obtain ⟨xs, b, pre, post, hr, hb, hgo, hexpj, hp⟩ := run_shape L 1 logs le_rfl h2 hl hx
  have hn : xs.length ≤ 10 ^ 5 := by rw [hr.len]; exact hl
  have hb1 : b = 1 := by
    have : F64.div (fin 1) (fin 1) = fin 1 := by
      simp only [F64.div, if_neg one_ne_zero]; rw [div_one, rnd_small (by norm_num), round_one]
    rw [this] at hb; cases hb; rfl
  have hlg : ∀ k, Rep (lg logs k) ∧ |lg logs k| ≤ 10 ^ 4 := by
    intro k
    unfold lg
    by_cases h3 : k < logs.length
    · have : logs.getD k 0 = logs[k] := by simp [List.getD, List.getElem?_eq_getElem h3]
      rw [this]; exact ⟨hd _ (List.getElem_mem h3), hx _ (List.getElem_mem h3)⟩
    · have : logs.getD k 0 = 0 := by simp [List.getD, List.getElem?_eq_none (not_lt.mp h3)]
      rw [this]; exact ⟨rep_zero, by norm_num⟩
  have hhead : ∀ ks : List Nat, ks ≠ [] → ks.length ≤ logs.length → ∃ s, sumHead L (fun k => fin (lg logs k)) ks = fin s ∧ Rep s ∧ |s| ≤ 10 ^ 5 ∧
      ∀ k ∈ ks, lg logs k ≤ s := by
    intro ks h3 h4
    have g1 : ∀ x ∈ ks.map (lg logs), |x| ≤ 10 ^ 4 := by
      intro x h; obtain ⟨k, -, rfl⟩ := List.mem_map.1 h; exact (hlg k).2
    have g2 : (ks.map (lg logs)).length ≤ 10 ^ 5 := by rw [List.length_map]; omega
    have g3 : ks.map (lg logs) ≠ [] := by simpa using h3
    obtain ⟨s, h5, h6, h7⟩ := suffix_ge L (ks.map (lg logs)) g3 g1 (by
      intro x h; obtain ⟨k, -, rfl⟩ := List.mem_map.1 h; exact (hlg k).1) g2
    obtain ⟨s', h5', h6'⟩ := suffix_fin L (ks.map (lg logs)) g3 g1 g2
    have e : s' = s := by rw [h5] at h5'; cases h5'; rfl
    rw [e] at h6'
    have h8 := log_lsum_bound (ks.map (lg logs)) g3 g1 g2
    have g2' : ((ks.map (lg logs)).length : ℝ) ≤ 10 ^ 5 := by exact_mod_cast g2
    refine ⟨s, ?_, h6, ?_, fun k hk => h7 _ (List.mem_map_of_mem hk)⟩
    · rw [← h5, sumHead, List.map_map]; rfl
    · have := abs_add_le (s - Real.log ((ks.map (lg logs)).map Real.exp).sum) (Real.log ((ks.map (lg logs)).map Real.exp).sum)
      rw [sub_add_cancel] at this
      linarith
  -- the computed exponent is never positive
  have harg : ∀ ks : List Nat, ks ≠ [] → ks.length ≤ logs.length → ∀ k ∈ ks, ∃ w, w ≤ 0 ∧ Rep w ∧ |w| ≤ 10 ^ 6 ∧
      F64.add (logXi L (F64.div (fin 1) (fin 1)) 0 (sumHead L (fun k => fin (lg logs k)) ks)) (fin (lg logs k)) = fin w := by
    intro ks h3 h4 k hk
    obtain ⟨s, h5, h6, h7, h8⟩ := hhead ks h3 h4
    have g1 := abs_le.mp h7
    have g2 := abs_le.mp (hlg k).2
    have g3 := h8 k hk
    have g4 : -(10 : ℝ) ^ 6 ≤ F64.round (-s + lg logs k) := rep_le_round ⟨-10 ^ 6, 0, by norm_num, by norm_num, by norm_num⟩ (by linarith)
    have g5 : F64.round (-s + lg logs k) ≤ 0 := round_le_rep rep_zero (by linarith)
    refine ⟨F64.round (-s + lg logs k), g5, rep_round _, abs_le.mpr ⟨g4, by linarith⟩, ?_⟩
    rw [h5, xi_one L h6 h7]
    exact rnd_small (abs_le.mpr ⟨by linarith, by linarith⟩)
  have hlen : pre.length + post.length = logs.length := by simpa using hr.perm.length_eq
  have hpre : pre = [] := by
    cases hpre : pre with
    | nil => rfl
    | cons k q =>
      exfalso
      refine hgo [] k q (by rw [hpre]; rfl) ?_
      obtain ⟨w, h3, h4, h5, h6⟩ := harg (k :: (q ++ post)) (by simp) (by rw [hpre] at hlen; simp at hlen ⊢; omega) k (by simp)
      have hln : F64.ln L (fin 1) = fin 0 := by
        have : L.lnA 1 = 0 := by simpa using L.ln_err 1 one_pos
        simp only [F64.ln]
        rw [if_pos one_pos, this, rnd_small (by norm_num), round_zero]
      unfold Stops
      rw [List.length_nil, h6, hln]
      have : F64.add (fin w) (fin 0) = fin w := by
        simp only [F64.add, add_zero]
        rw [rnd_small (h5.trans (by norm_num)), round_of_rep h4]
      rw [this]
      exact h3
  have hpost : post ≠ [] := by
    intro h; rw [hpre, h] at hlen; simp at hlen; omega
  have hone : ∀ j ∈ post, xs.getD j 0 ≤ 1 := by
    intro j hj
    have h3 := hexpj j hj
    obtain ⟨w, h4, h5, h6, h7⟩ := harg post hpost (by omega) j hj
    rw [hpre, List.length_nil, h7] at h3
    simp only [F64.exp, rnd] at h3
    split at h3
    · cases h3
    · have h8 : F64.round (L.expA w) = xs.getD j 0 := by injection h3
      rw [← h8]
      exact round_le_rep ⟨1, 0, by norm_num, by norm_num, by norm_num⟩ (hexp w h4)
  rcases hr.stop with h | ⟨k, t, α, hk, -, hα, hαd, hαS, hE⟩
  · exact absurd h hpost
  have hall : ∀ x ∈ xs, 0 ≤ x ∧ x ≤ b := by
    intro x hx'
    obtain ⟨j, hj, rfl⟩ := List.mem_iff_getElem.1 hx'
    have hj' : j ∈ pre ++ post := hr.perm.mem_iff.2 (by rw [List.mem_range, ← hr.len]; exact hj)
    rw [hpre, List.nil_append] at hj'
    have g1 := (hE j hj').1
    have g2 := hone j hj'
    have g3 : xs.getD j 0 = xs[j] := by simp [List.getD, List.getElem?_eq_getElem hj]
    rw [g3] at g1 g2
    exact ⟨g1, by rw [hb1]; exact g2⟩
  have hsum : |xs.sum - 1| ≤ 4 / 10 ^ 6 := by
    have g1 := abs_le.mp (sum_post (logs := logs) (fun k => xs.getD k 0) post (fun j hj => (hE j hj).2))
    have g2 := sum_over' hr.perm hr.len
    rw [hpre, List.nil_append] at g2
    rw [g2] at g1
    rw [hpre] at hαS
    simp only [List.length_nil, Nat.cast_zero, zero_div, sub_zero, abs_one, mul_one] at hαS
    have g3 := abs_le.mp hαS
    have g4 : (post.length : ℝ) ≤ 10 ^ 5 := by
      have : post.length ≤ 10 ^ 5 := by omega
      exact_mod_cast this
    have g5 : (post.length : ℝ) * eta ≤ 10 ^ 5 * (1 / 10 ^ 60) := mul_le_mul g4 eta_tiny eta_pos.le (by norm_num)
    rw [abs_le]
    constructor <;> linarith only [g1.1, g1.2, g3.1, g3.2, g5]
  have hcheck := (check_iff hb hn).2 ⟨⟨le_rfl, by rw [hr.len]; exact h2⟩, check_of_sum hn (fun x hx' => (hall x hx').1) hsum, hall⟩
  have hres : F64.projectCapped L (fin 1) (logs.map fin) = .ok (xs.map fin) := by rw [hp, hcheck]
  obtain ⟨ys, hys, -, -, p, hpp, -, hdist⟩ := project_f64_sound L 1 logs hl hx hres
  have hinj : Function.Injective fin := fun a b h => by injection h
  have : ys = xs := (List.map_injective_iff.2 hinj hys).symm
  rw [this, entropyProjection_unique hpp (project_one logs hne)] at hdist
  exact ⟨xs, hres, hr.len, by rw [← hb1]; exact hall, hsum, hdist⟩

end Miniboosts.Props
