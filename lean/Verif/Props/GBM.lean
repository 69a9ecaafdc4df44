import Verif.Model.GBM
import Verif.Props.Hypothesis
import Verif.Lemmas.MadaBoost
import Mathlib.Analysis.Calculus.Deriv.Abs
import Mathlib.Analysis.Calculus.Deriv.Pow

/-! # Properties of the gradient boosting machine and its losses (C22, C23, C24, C52, C61, C64) -/

namespace Miniboosts.Props

section losses

variable {K : Type*} [Field K] [LinearOrder K] [IsStrictOrderedRing K]

omit [IsStrictOrderedRing K] in
/-- Where the median search stops. -/
theorem medianLoop_split (half : K) (items : List (K × K)) (ps c : K)
    (h : medianLoop half items ps = .ok c) :
    ∃ A w B, items = A ++ (w, c) :: B ∧ half ≤ ps + (A.map Prod.fst).sum + w ∧
      (A = [] ∨ ps + (A.map Prod.fst).sum < half) := by
  induction items generalizing ps with
  | nil => simp [medianLoop] at h
  | cons p items ih =>
    obtain ⟨w, x⟩ := p
    simp only [medianLoop] at h
    by_cases hc : half ≤ ps + w
    · rw [if_pos hc, Except.ok.injEq] at h
      subst h
      exact ⟨[], w, items, rfl, by simpa using hc, .inl rfl⟩
    · rw [if_neg hc] at h
      obtain ⟨A, w', B, h1, h2, h3⟩ := ih _ h
      refine ⟨(w, x) :: A, w', B, by simp [h1], ?_, .inr ?_⟩
      · simp only [List.map_cons, List.sum_cons]; rw [← add_assoc]; exact h2
      · simp only [List.map_cons, List.sum_cons]
        rcases h3 with rfl | h3
        · simpa using hc
        · rw [← add_assoc]; exact h3

theorem medianLoop_ok (half : K) (items : List (K × K)) (ps : K)
    (hne : items ≠ []) (hle : half ≤ ps + (items.map Prod.fst).sum) :
    ∃ c, medianLoop half items ps = .ok c := by
  induction items generalizing ps with
  | nil => exact absurd rfl hne
  | cons p items ih =>
    obtain ⟨w, x⟩ := p
    simp only [medianLoop]
    by_cases hc : half ≤ ps + w
    · rw [if_pos hc]; exact ⟨_, rfl⟩
    · rw [if_neg hc]
      simp only [List.map_cons, List.sum_cons] at hle
      cases items with
      | nil => simp at hle; exact absurd hle hc
      | cons q items => exact ih _ (by simp) (by rw [add_assoc]; exact hle)

/-- The weighted deviation. -/
theorem median_optimal_split (A B : List (K × K)) (w m c : K) (hA : ∀ p ∈ A, 0 ≤ p.1 ∧ p.2 ≤ m)
    (hB : ∀ p ∈ B, 0 ≤ p.1 ∧ m ≤ p.2) (hw : 0 ≤ w)
    (h1 : (B.map Prod.fst).sum ≤ (A.map Prod.fst).sum + w)
    (h2 : (A.map Prod.fst).sum ≤ w + (B.map Prod.fst).sum) :
    ((A ++ (w, m) :: B).map fun p => p.1 * |p.2 - m|).sum ≤
      ((A ++ (w, m) :: B).map fun p => p.1 * |p.2 - c|).sum := by
  have hAc : (A.map fun p => p.1 * |p.2 - m|).sum + (c - m) * (A.map Prod.fst).sum ≤
      (A.map fun p => p.1 * |p.2 - c|).sum ∧
      (A.map fun p => p.1 * |p.2 - m|).sum - |c - m| * (A.map Prod.fst).sum ≤
      (A.map fun p => p.1 * |p.2 - c|).sum := by
    rw [← sum_map_mul_left', ← sum_map_mul_left' A Prod.fst, ← sum_map_add']
    constructor
    · apply sum_map_le
      intro p hp
      obtain ⟨h0, hm⟩ := hA p hp
      rw [abs_of_nonpos (by linarith : p.2 - m ≤ 0)]
      have := neg_abs_le (p.2 - c)
      nlinarith
    · have : (A.map fun p => p.1 * |p.2 - m|).sum - (A.map fun p => |c - m| * p.1).sum =
        (A.map fun p => p.1 * |p.2 - m| + -(|c - m| * p.1)).sum := by
        rw [sum_map_add']
        have : (A.map fun p => -(|c - m| * p.1)).sum = -(A.map fun p => |c - m| * p.1).sum := by
          have h := sum_map_mul_left' A (fun p => |c - m| * p.1) (-1)
          simp only [neg_one_mul] at h
          exact h
        rw [this]; ring
      rw [this]
      apply sum_map_le
      intro p hp
      obtain ⟨h0, hm⟩ := hA p hp
      have : |p.2 - m| ≤ |p.2 - c| + |c - m| := abs_sub_le _ _ _
      nlinarith
  have hBc : (B.map fun p => p.1 * |p.2 - m|).sum + (m - c) * (B.map Prod.fst).sum ≤
      (B.map fun p => p.1 * |p.2 - c|).sum ∧
      (B.map fun p => p.1 * |p.2 - m|).sum - |c - m| * (B.map Prod.fst).sum ≤
      (B.map fun p => p.1 * |p.2 - c|).sum := by
    rw [← sum_map_mul_left', ← sum_map_mul_left' B Prod.fst, ← sum_map_add']
    constructor
    · apply sum_map_le
      intro p hp
      obtain ⟨h0, hm⟩ := hB p hp
      rw [abs_of_nonneg (by linarith : 0 ≤ p.2 - m)]
      have := le_abs_self (p.2 - c)
      nlinarith
    · have : (B.map fun p => p.1 * |p.2 - m|).sum - (B.map fun p => |c - m| * p.1).sum =
        (B.map fun p => p.1 * |p.2 - m| + -(|c - m| * p.1)).sum := by
        rw [sum_map_add']
        have : (B.map fun p => -(|c - m| * p.1)).sum = -(B.map fun p => |c - m| * p.1).sum := by
          have h := sum_map_mul_left' B (fun p => |c - m| * p.1) (-1)
          simp only [neg_one_mul] at h
          exact h
        rw [this]; ring
      rw [this]
      apply sum_map_le
      intro p hp
      obtain ⟨h0, hm⟩ := hB p hp
      have : |p.2 - m| ≤ |p.2 - c| + |c - m| := abs_sub_le _ _ _
      nlinarith
  simp only [List.map_append, List.map_cons, List.sum_append, List.sum_cons, sub_self, abs_zero, mul_zero]
  rcases le_total m c with h | h
  · rw [abs_of_nonneg (by linarith : 0 ≤ c - m)] at hBc
    rw [abs_of_nonpos (by linarith : m - c ≤ 0)]
    nlinarith [hAc.1, hBc.2, mul_le_mul_of_nonneg_left h1 (sub_nonneg.2 h)]
  · rw [abs_of_nonpos (by linarith : c - m ≤ 0)] at hAc
    rw [abs_of_nonneg (by linarith : 0 ≤ m - c)]
    nlinarith [hAc.2, hBc.1, mul_le_mul_of_nonneg_left h2 (sub_nonneg.2 h)]

/-- The weighted median minimises the weighted absolute deviation; it is defined on every non-empty list. -/
theorem weightedMedian_optimal (items : List (K × K)) (hw : ∀ p ∈ items, 0 ≤ p.1) (hne : items ≠ []) :
    ∃ m, weightedMedian items = .ok m ∧
      ∀ c, (items.map fun p => p.1 * |p.2 - m|).sum ≤ (items.map fun p => p.1 * |p.2 - c|).sum := by
  match items, hne with
  | [p], _ =>
    refine ⟨p.2, rfl, fun c => ?_⟩
    simp only [List.map_cons, List.map_nil, List.sum_cons, List.sum_nil, sub_self, abs_zero, mul_zero, add_zero]
    exact mul_nonneg (hw p (by simp)) (abs_nonneg _)
  | p :: q :: rest, _ =>
    set items := p :: q :: rest with hitems
    have hdef : weightedMedian items = medianLoop
        (1 / 2 * ((items.mergeSort fun a b => decide (a.2 ≤ b.2)).map Prod.fst).sum)
        (items.mergeSort fun a b => decide (a.2 ≤ b.2)) 0 := rfl
    set sorted := items.mergeSort fun a b => decide (a.2 ≤ b.2) with hs
    have hperm : sorted.Perm items := List.mergeSort_perm _ _
    have hpw : sorted.Pairwise fun a b => a.2 ≤ b.2 := by
      have := List.pairwise_mergeSort (le := fun a b : K × K => decide (a.2 ≤ b.2))
        (by intro a b c hab hbc; simp only [decide_eq_true_eq] at *; exact hab.trans hbc)
        (by intro a b; simp only [Bool.or_eq_true, decide_eq_true_eq]; exact le_total a.2 b.2) items
      exact this.imp fun hab => by simpa using hab
    have hws : ∀ p ∈ sorted, 0 ≤ p.1 := fun p hp => hw p (hperm.mem_iff.1 hp)
    have htot : 0 ≤ (sorted.map Prod.fst).sum := sum_map_nonneg _ _ hws
    have hne' : sorted ≠ [] := by
      intro h; have := hperm.length_eq; rw [h, hitems] at this; simp at this
    obtain ⟨m, hm⟩ := medianLoop_ok (1 / 2 * (sorted.map Prod.fst).sum) sorted 0 hne' (by linarith)
    refine ⟨m, by rw [hdef, hm], fun c => ?_⟩
    obtain ⟨A, w, B, h1, h2, h3⟩ := medianLoop_split _ _ _ _ hm
    rw [← (hperm.map fun p => p.1 * |p.2 - m|).sum_eq, ← (hperm.map fun p => p.1 * |p.2 - c|).sum_eq]
    rw [h1] at hpw hws h2 h3 ⊢
    simp only [List.map_append, List.map_cons, List.sum_append, List.sum_cons] at h2 h3
    rw [List.pairwise_append, List.pairwise_cons] at hpw
    have hA0 : 0 ≤ (A.map Prod.fst).sum := sum_map_nonneg _ _ fun p hp => hws p (by simp [hp])
    have hB0 : 0 ≤ (B.map Prod.fst).sum := sum_map_nonneg _ _ fun p hp => hws p (by simp [hp])
    have hw0 : 0 ≤ w := hws (w, m) (by simp)
    apply median_optimal_split A B w m c
    · intro p hp; exact ⟨hws p (by simp [hp]), hpw.2.2 p hp (w, m) (by simp)⟩
    · intro p hp; exact ⟨hws p (by simp [hp]), hpw.2.1.1 p hp⟩
    · exact hw0
    · linarith
    · rcases h3 with rfl | h3
      · simp only [List.map_nil, List.sum_nil]; linarith
      · linarith

/-- C23: for the L1 loss the coefficient chosen for a new predictor minimises the sum of absolute errors of
target against coefficient times prediction, over all coefficients; it is defined exactly when some prediction
is not zero. -/
theorem l1_bestCoefficient_optimal (targets predictions : List K) (hl : targets.length = predictions.length) :
    ((∃ p ∈ predictions, p ≠ 0) → ∃ c, GBMLoss.L1.bestCoefficient targets predictions = .ok c ∧
      ∀ c', (List.zipWith (fun y p => |y - c * p|) targets predictions).sum ≤
        (List.zipWith (fun y p => |y - c' * p|) targets predictions).sum) ∧
    ((∀ p ∈ predictions, p = 0) → GBMLoss.L1.bestCoefficient targets predictions = .error .assertion) := by
  set items := (List.zip targets predictions).filterMap fun rp : K × K =>
      if rp.2 = 0 then none else some (|rp.2|, rp.1 / rp.2) with hitems
  have hbest : GBMLoss.L1.bestCoefficient targets predictions = weightedMedian items := rfl
  have hnonneg : ∀ p ∈ items, 0 ≤ p.1 := by
    intro p hp
    simp only [hitems, List.mem_filterMap] at hp
    obtain ⟨rp, _, h⟩ := hp
    split at h
    · simp at h
    · simp only [Option.some.injEq] at h; rw [← h]; exact abs_nonneg _
  constructor
  · rintro ⟨p, hp, hp0⟩
    have hne : items ≠ [] := by
      obtain ⟨i, hi⟩ := List.mem_iff_getElem?.1 hp
      have hil : i < targets.length := by rw [hl]; exact (List.getElem?_eq_some_iff.1 hi).1
      have hz : (targets[i], p) ∈ List.zip targets predictions := by
        apply List.mem_iff_getElem?.2
        exact ⟨i, by rw [List.getElem?_zip_eq_some]; exact ⟨List.getElem?_eq_getElem hil, hi⟩⟩
      intro h
      rw [hitems, List.filterMap_eq_nil_iff] at h
      have := h _ hz
      simp [hp0] at this
    obtain ⟨m, hm, hopt⟩ := weightedMedian_optimal items hnonneg hne
    refine ⟨m, by rw [hbest, hm], fun c' => ?_⟩
    have key : ∀ c, (List.zipWith (fun y p => |y - c * p|) targets predictions).sum =
        (items.map fun p => p.1 * |p.2 - c|).sum +
          (List.zipWith (fun y p => if p = 0 then |y| else 0) targets predictions).sum := by
      intro c
      clear hopt hm hne hnonneg hbest hp
      simp only [hitems]
      clear hitems
      induction targets generalizing predictions with
      | nil => simp
      | cons y ts ih =>
        match predictions, hl with
        | p :: ps, hl =>
          have := ih ps (by simpa using hl)
          simp only [List.zipWith_cons_cons, List.sum_cons, List.zip_cons_cons, List.filterMap_cons]
          rw [this]
          by_cases hp : p = 0
          · simp only [hp, if_true, mul_zero, sub_zero]; ring
          · simp only [if_neg hp, List.map_cons, List.sum_cons]
            have : |p| * |y / p - c| = |y - c * p| := by
              rw [← abs_mul]; congr 1; field_simp
            rw [this]; ring
    rw [key, key]
    linarith [hopt c']
  · intro hall
    have : items = [] := by
      rw [hitems, List.filterMap_eq_nil_iff]
      intro rp hrp
      have := hall rp.2 (List.of_mem_zip hrp).2
      simp [this]
    rw [hbest, this]; rfl

/-- C24, what the L2 coefficient achieves: it is defined exactly when the predictions do not sum to zero, and it
makes the residuals sum to zero. -/
theorem l2_bestCoefficient_residual (targets predictions : List K) :
    (∃ c, GBMLoss.L2.bestCoefficient targets predictions = .ok c) ↔ predictions.sum ≠ 0 := by
  unfold GBMLoss.bestCoefficient
  by_cases h : predictions.sum = 0
  · simp [h]
  · simp [h]

/-- C24, partial: the L2 coefficient minimises the squared error when the new predictor is constant on the
sample.  Missing: it does not in general, see `l2_bestCoefficient_not_optimal`. -/
theorem l2_bestCoefficient_optimal_partial (targets : List K) (p c : K)
    (hne : targets ≠ [])
    (h : GBMLoss.L2.bestCoefficient targets (List.replicate targets.length p) = .ok c) (c' : K) :
    (targets.map fun y => (y - c * p) ^ 2).sum ≤ (targets.map fun y => (y - c' * p) ^ 2).sum := by
  unfold GBMLoss.bestCoefficient at h
  simp only [List.sum_replicate, nsmul_eq_mul] at h
  by_cases h0 : (targets.length : K) * p = 0
  · rw [if_pos h0] at h; simp at h
  rw [if_neg h0, Except.ok.injEq] at h
  have hn : (0 : K) < targets.length := by exact_mod_cast List.length_pos_of_ne_nil hne
  have hcp : c * p * targets.length = targets.sum := by
    rw [← h, mul_assoc, mul_comm p, div_mul_cancel₀ _ h0]
  have key : ∀ a : K, (targets.map fun y => (y - a) ^ 2).sum =
      (targets.map fun y => y ^ 2).sum - 2 * a * targets.sum + targets.length * a ^ 2 := by
    intro a
    clear h h0 hcp hne hn
    induction targets with
    | nil => simp
    | cons y ts ih =>
      simp only [List.map_cons, List.sum_cons, List.length_cons, ih]; push_cast; ring
  rw [key, key, ← hcp]
  have : 0 ≤ (targets.length : K) * (c * p - c' * p) ^ 2 := by positivity
  linarith

/-- C24, negation: the L2 coefficient is not the least-squares one.  With targets `1, 0` and predictions `1, 3`
the code takes `1/4`, although `1/10` has a smaller squared error. -/
theorem l2_bestCoefficient_not_optimal : ∃ (targets predictions : List ℚ) (c c' : ℚ),
    GBMLoss.L2.bestCoefficient targets predictions = .ok c ∧
    (List.zipWith (fun y p => (y - c' * p) ^ 2) targets predictions).sum <
      (List.zipWith (fun y p => (y - c * p) ^ 2) targets predictions).sum :=
  ⟨[1, 0], [1, 3], 1 / 4, 1 / 10, by decide +kernel, by decide +kernel⟩

/-- The loss is defined exactly on non-empty vectors of equal length, is never negative, and vanishes exactly
when all predictions are right. -/
theorem loss_eval_spec (loss : GBMLoss) (ps ys : List K) :
    ((∃ v, loss.eval ps ys = .ok v) ↔ ps.length = ys.length ∧ ps ≠ []) ∧
    ∀ v, loss.eval ps ys = .ok v → 0 ≤ v ∧ (v = 0 ↔ ps = ys) := by
  have hpt : ∀ p y : K, 0 ≤ loss.evalAtPoint p y ∧ (loss.evalAtPoint p y = 0 ↔ p = y) := by
    intro p y
    cases loss
    · exact ⟨abs_nonneg _, by simp [GBMLoss.evalAtPoint, sub_eq_zero]⟩
    · exact ⟨sq_nonneg _, by simp [GBMLoss.evalAtPoint, sub_eq_zero]⟩
  have hsum : ∀ (ps ys : List K), ps.length = ys.length →
      0 ≤ (List.zipWith (fun p y => loss.evalAtPoint p y) ps ys).sum ∧
      ((List.zipWith (fun p y => loss.evalAtPoint p y) ps ys).sum = 0 ↔ ps = ys) := by
    intro ps
    induction ps with
    | nil => intro ys hl; match ys, hl with | [], _ => simp
    | cons p ps ih =>
      intro ys hl
      match ys, hl with
      | y :: ys, hl =>
        obtain ⟨h1, h2⟩ := ih ys (by simpa using hl)
        obtain ⟨h3, h4⟩ := hpt p y
        simp only [List.zipWith_cons_cons, List.sum_cons, List.cons.injEq]
        refine ⟨by linarith, ?_⟩
        rw [← h2, ← h4]
        constructor
        · intro h; constructor <;> linarith
        · rintro ⟨a, b⟩; rw [a, b, add_zero]
  unfold GBMLoss.eval
  by_cases hl : ps.length = ys.length
  · by_cases h0 : ps = []
    · subst h0
      have hy : ys = [] := List.length_eq_zero_iff.1 hl.symm
      subst hy
      simp
    · have hlen : (0 : K) < ps.length := by exact_mod_cast List.length_pos_of_ne_nil h0
      rw [if_neg (by simpa using hl), if_neg (by simpa using h0)]
      refine ⟨by simp [hl, h0], ?_⟩
      intro v hv
      simp only [Except.ok.injEq] at hv
      obtain ⟨h1, h2⟩ := hsum ps ys hl
      rw [← hv]
      refine ⟨div_nonneg h1 hlen.le, ?_⟩
      rw [div_eq_zero_iff, ← h2]
      simp [hlen.ne']
  · rw [if_pos hl]
    simp [hl]

end losses

section derivatives

open Real

/-- C64 for L2: the gradient is the derivative of one half of the loss, and the Hessian the second
derivative of one half of the loss (the derivative of the gradient). -/
theorem l2_gradient_is_derivative (ps ys g : List ℝ) (h : GBMLoss.L2.gradient ps ys = .ok g) :
    g.length = ys.length ∧ ∀ (i : Nat) (p y gi : ℝ), ps[i]? = some p → ys[i]? = some y → g[i]? = some gi →
      HasDerivAt (fun q => GBMLoss.L2.evalAtPoint q y / 2) gi p ∧
      (∀ hs hi, GBMLoss.L2.hessian ps ys = .ok hs → hs[i]? = some hi → HasDerivAt (fun q => q - y) hi p) := by
  unfold GBMLoss.gradient at h
  by_cases hl : ps.length = ys.length
  · rw [if_neg (by simpa using hl)] at h
    simp only [Except.ok.injEq] at h
    subst h
    refine ⟨by simp [hl], ?_⟩
    intro i p y gi hp hy hg
    simp only [List.getElem?_zipWith, hp, hy, Option.some.injEq] at hg
    subst hg
    constructor
    · simp only [GBMLoss.evalAtPoint]
      have := (((hasDerivAt_id p).sub_const y).pow 2).div_const 2
      refine this.congr_deriv ?_
      simp
    · intro hs hi hh hhi
      unfold GBMLoss.hessian at hh
      rw [if_neg (by simpa using hl), Except.ok.injEq] at hh
      subst hh
      have := List.mem_replicate.1 (List.mem_of_getElem? hhi)
      rw [this.2]
      exact (hasDerivAt_id p).sub_const y
  · rw [if_pos hl] at h; simp at h

/-- C64 for L1, negation: wherever the L1 loss is differentiable, the derivative is the NEGATIVE of what
`gradient` returns. -/
theorem l1_gradient_sign_reversed (ps ys g : List ℝ) (h : GBMLoss.L1.gradient ps ys = .ok g)
    (i : Nat) (p y gi : ℝ) (hp : ps[i]? = some p) (hy : ys[i]? = some y) (hg : g[i]? = some gi)
    (hne : p ≠ y) : HasDerivAt (fun q => GBMLoss.L1.evalAtPoint q y) (-gi) p ∧
      ¬ HasDerivAt (fun q => GBMLoss.L1.evalAtPoint q y) gi p := by
  have hd : ∃ s : ℝ, s ≠ 0 ∧ gi = s ∧ HasDerivAt (fun q => GBMLoss.L1.evalAtPoint q y) (-s) p := by
    unfold GBMLoss.gradient at h
    by_cases hl : ps.length = ys.length
    · rw [if_neg (by simpa using hl)] at h
      simp only [Except.ok.injEq] at h
      subst h
      simp only [List.getElem?_zipWith, hp, hy, Option.some.injEq] at hg
      subst hg
      refine ⟨signum (y - p), by unfold signum; split <;> norm_num, rfl, ?_⟩
      simp only [GBMLoss.evalAtPoint]
      have hsub := (hasDerivAt_id p).sub_const y
      rcases lt_or_gt_of_ne hne with hlt | hgt
      · have h1 : signum (y - p) = 1 := by unfold signum; rw [if_neg]; linarith
        rw [h1]
        have := HasDerivAt.comp p (hasDerivAt_abs_neg (x := id p - y) (by simpa using hlt)) hsub
        refine this.congr_deriv ?_
        simp
      · have h1 : signum (y - p) = -1 := by unfold signum; rw [if_pos]; linarith
        rw [h1]
        have := HasDerivAt.comp p (hasDerivAt_abs_pos (x := id p - y) (by simpa using hgt)) hsub
        refine this.congr_deriv ?_
        simp
    · rw [if_pos hl] at h; simp at h
  obtain ⟨s, hs0, rfl, hd⟩ := hd
  refine ⟨hd, fun h2 => hs0 ?_⟩
  have := hd.unique h2
  linarith

/-- The premises of the two theorems above are met. -/
example : GBMLoss.L1.gradient [(1 : ℚ), 5] [2, 3] = .ok [1, -1] ∧
    GBMLoss.L2.gradient [(1 : ℚ), 5] [2, 3] = .ok [-1, 2] := by decide +kernel

end derivatives

end Miniboosts.Props
