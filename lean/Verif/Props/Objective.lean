import Verif.Model.Objective
import Verif.Props.AdaBoost
import Verif.Lemmas.Basic

/-! # Properties of the objective functions (C49, C50) -/

namespace Miniboosts.Props

section field

variable {K : Type*} [Field K] [LinearOrder K] [IsStrictOrderedRing K] {H X : Type*} [Classifier H X K]

omit [IsStrictOrderedRing K] in
theorem softLoop_acc (unit : K) (ms : List K) (left acc : K) :
    softLoop unit ms left acc = acc + softLoop unit ms left 0 := by
  induction ms generalizing left acc with
  | nil => simp [softLoop]
  | cons m ms ih =>
    simp only [softLoop]
    split
    · rw [ih, ih (left - unit) (0 + unit * m)]; ring
    · ring

/-- The loop attains a dual value. -/
theorem softLoop_dual (unit : K) (hu : 0 < unit) (ms : List K) (left : K)
    (hs : ms.Pairwise (· ≤ ·)) (h0 : 0 < left) (hl : left ≤ unit * ms.length) :
    ∃ θ, (∀ m, ms.head? = some m → m ≤ θ) ∧
      softLoop unit ms left 0 = θ * left - unit * (ms.map fun m => max (θ - m) 0).sum := by
  induction ms generalizing left with
  | nil => simp at hl; linarith
  | cons m ms ih =>
    rw [List.pairwise_cons] at hs
    simp only [softLoop]
    by_cases hc : unit < left
    · rw [if_pos hc, softLoop_acc]
      obtain ⟨θ, h1, h2⟩ := ih (left - unit) hs.2 (by linarith) (by
        simp only [List.length_cons] at hl; push_cast at hl; linarith)
      have hmθ : m ≤ θ := by
        cases ms with
        | nil => simp only [List.length_cons, List.length_nil] at hl; push_cast at hl; linarith
        | cons m' ms => exact (hs.1 m' (by simp)).trans (h1 m' rfl)
      refine ⟨θ, by simpa using hmθ, ?_⟩
      rw [h2, List.map_cons, List.sum_cons, max_eq_left (by linarith)]; ring
    · rw [if_neg hc]
      refine ⟨m, by simp, ?_⟩
      have : ((m :: ms).map fun m' => max (m - m') 0) = (m :: ms).map fun _ => (0 : K) := by
        apply List.map_congr_left
        intro a ha
        apply max_eq_right
        rcases List.mem_cons.1 ha with rfl | ha
        · simp
        · linarith [hs.1 a ha]
      rw [this, sum_map_const']; ring

/-- The greedy weights of the loop. -/
def greedy (unit : K) : List K → K → List K
  | [], _ => []
  | _ :: rest, left => if unit < left then unit :: greedy unit rest (left - unit)
      else left :: rest.map fun _ => 0

theorem greedy_spec (unit : K) (hu : 0 < unit) (ms : List K) (left : K) (h0 : 0 < left)
    (hl : left ≤ unit * ms.length) :
    (greedy unit ms left).length = ms.length ∧ (∀ w ∈ greedy unit ms left, 0 ≤ w ∧ w ≤ unit) ∧
      (greedy unit ms left).sum = left ∧
      (List.zipWith (fun w m => w * m) (greedy unit ms left) ms).sum = softLoop unit ms left 0 := by
  induction ms generalizing left with
  | nil => simp at hl; linarith
  | cons m ms ih =>
    simp only [greedy, softLoop]
    by_cases hc : unit < left
    · rw [if_pos hc, if_pos hc, softLoop_acc]
      obtain ⟨h1, h2, h3, h4⟩ := ih (left - unit) (by linarith) (by
        simp only [List.length_cons] at hl; push_cast at hl; linarith)
      refine ⟨by simp [h1], ?_, by simp [h3], by simp [h4]⟩
      intro w hw
      rcases List.mem_cons.1 hw with rfl | hw
      · exact ⟨hu.le, le_rfl⟩
      · exact h2 w hw
    · rw [if_neg hc, if_neg hc]
      refine ⟨by simp, ?_, by rw [List.sum_cons, sum_map_const']; ring, ?_⟩
      · intro w hw
        rcases List.mem_cons.1 hw with rfl | hw
        · exact ⟨h0.le, not_lt.1 hc⟩
        · simp only [List.mem_map] at hw; obtain ⟨_, _, rfl⟩ := hw; exact ⟨le_rfl, hu.le⟩
      · rw [List.zipWith_cons_cons, List.sum_cons]
        have : (List.zipWith (fun w m => w * m) (ms.map fun _ => (0 : K)) ms).sum = 0 := by
          have : List.zipWith (fun w m => w * m) (ms.map fun _ => (0 : K)) ms = ms.map fun _ => (0 : K) := by
            rw [List.zipWith_map_left]
            clear hl ih
            induction ms with
            | nil => rfl
            | cons a ms ih => simp
          rw [this, sum_map_const']; ring
        rw [this]; ring

omit [Field K] [LinearOrder K] [IsStrictOrderedRing K] in
/-- Weights aligned with a permuted list can be realigned. -/
theorem perm_align {α : Type*} {ms ms' : List α} (hp : ms'.Perm ms) (ws' : List K)
    (hl : ws'.length = ms'.length) :
    ∃ ws, ws.length = ms.length ∧ (List.zip ws ms).Perm (List.zip ws' ms') := by
  induction hp generalizing ws' with
  | nil => exact ⟨ws', hl, List.Perm.refl _⟩
  | @cons x l₁ l₂ hp ih =>
    match ws', hl with
    | w :: ws', hl =>
      obtain ⟨ws, h1, h2⟩ := ih ws' (by simpa using hl)
      exact ⟨w :: ws, by simp [h1], by simpa using h2.cons (w, x)⟩
  | @swap x y l =>
    match ws', hl with
    | w :: v :: ws', hl =>
      exact ⟨v :: w :: ws', by simpa using hl, by simpa using List.Perm.swap (w, y) (v, x) _⟩
  | @trans l₁ l₂ l₃ h12 h23 ih1 ih2 =>
    obtain ⟨ws, h1, h2⟩ := ih1 ws' hl
    obtain ⟨vs, h3, h4⟩ := ih2 ws h1
    exact ⟨vs, h3, h4.trans h2⟩

omit [LinearOrder K] [IsStrictOrderedRing K] in
theorem zipWith_eq_map_zip' (a b : List K) :
    List.zipWith (fun w m => w * m) a b = (List.zip a b).map fun p => p.1 * p.2 := by
  induction a generalizing b with
  | nil => simp
  | cons x a ih => cases b <;> simp [ih]

/-- The margin vector in the order of the sample. -/
theorem evalMargins_eq (S : Examples X K) (h : H) :
    List.zipWith (fun hx y => y * hx) (confidenceAll h (S.map Prod.fst)) (S.map Prod.snd) =
      S.map fun e => e.2 * conf h e.1 := by
  unfold confidenceAll
  rw [List.map_map, zipWith_map_map]
  rfl

theorem edge_eq_zipWith (S : Examples X K) (d : List K) (h : H) :
    Spec.edge S d (conf h) = (List.zipWith (fun w m => w * m) d (S.map fun e => e.2 * conf h e.1)).sum := by
  unfold Spec.edge
  congr 1
  induction S generalizing d with
  | nil => simp
  | cons e S ih =>
    cases d with
    | nil => simp
    | cons x d => simp [ih]

/-- C49: the soft-margin objective is the minimum, over all distributions `d` on the examples with entries at
most `1/ν`, of the edge of the hypothesis (its expected margin): it is attained by one such distribution and no
other goes below.  It panics exactly when `ν` is outside `[1, m]` (or the sample has no row or no feature). -/
theorem softMargin_is_min (nu : K) (nFeature : Nat) (S : Examples X K) (h : H) (v : K)
    (hv : softMarginEval nu nFeature S h = .ok v) :
    (∃ d, d.length = S.length ∧ Spec.IsCapped nu d ∧ Spec.edge S d (conf h) = v) ∧
    ∀ d, d.length = S.length → Spec.IsCapped nu d → v ≤ Spec.edge S d (conf h) := by
  unfold softMarginEval checkSample checkNu at hv
  by_cases hc1 : 0 < S.length ∧ 0 < nFeature
  · rw [if_pos hc1] at hv
    simp only [] at hv
    by_cases hc2 : 1 ≤ nu ∧ nu ≤ (S.length : K)
    · rw [if_pos hc2] at hv
      simp only [Except.ok.injEq, evalMargins_eq] at hv
      have hnu : 0 < nu := by linarith [hc2.1]
      have hu : 0 < 1 / nu := by positivity
      set ms := S.map fun e => e.2 * conf h e.1 with hms
      set sorted := ms.mergeSort fun a b => decide (a ≤ b) with hsorted
      have hperm : sorted.Perm ms := List.mergeSort_perm _ _
      have hpw : sorted.Pairwise (· ≤ ·) := by
        have := List.pairwise_mergeSort (le := fun a b : K => decide (a ≤ b))
          (by intro a b c hab hbc; simp only [decide_eq_true_eq] at *; exact hab.trans hbc)
          (by intro a b; simp only [Bool.or_eq_true, decide_eq_true_eq]; exact le_total a b) ms
        exact this.imp fun hab => by simpa using hab
      have hlen : (1 : K) ≤ 1 / nu * sorted.length := by
        rw [hperm.length_eq, hms, List.length_map, one_div, ← div_eq_inv_mul, le_div_iff₀ hnu, one_mul]
        exact hc2.2
      constructor
      · obtain ⟨h1, h2, h3, h4⟩ := greedy_spec (1 / nu) hu sorted 1 one_pos hlen
        obtain ⟨ws, hw1, hw2⟩ := perm_align hperm (greedy (1 / nu) sorted 1) h1
        have hwsl : ws.length = S.length := by rw [hw1, hms, List.length_map]
        have hfst : ws.Perm (greedy (1 / nu) sorted 1) := by
          have := hw2.map Prod.fst
          rwa [List.map_fst_zip (by rw [hw1]), List.map_fst_zip (by rw [h1])] at this
        refine ⟨ws, hwsl, ⟨?_, ?_⟩, ?_⟩
        · intro p hp; exact h2 p (hfst.mem_iff.1 hp)
        · rw [hfst.sum_eq, h3]
        · rw [edge_eq_zipWith, ← hv, ← h4]
          have := (hw2.map fun p => p.1 * p.2).sum_eq
          rw [zipWith_eq_map_zip', zipWith_eq_map_zip']
          exact this
      · intro d hd hcap
        obtain ⟨θ, _, hθ⟩ := softLoop_dual (1 / nu) hu sorted 1 hpw one_pos hlen
        rw [← hv, hθ, (hperm.map fun m => max (θ - m) 0).sum_eq, edge_eq_zipWith, ← hms]
        have hdl : d.length = ms.length := by rw [hd, hms, List.length_map]
        have key : ∀ (d ms : List K), d.length = ms.length → (∀ p ∈ d, 0 ≤ p ∧ p ≤ 1 / nu) →
            θ * d.sum - 1 / nu * (ms.map fun m => max (θ - m) 0).sum ≤
              (List.zipWith (fun w m => w * m) d ms).sum := by
          intro d ms hl hp
          induction d generalizing ms with
          | nil =>
            match ms, hl with
            | [], _ => simp
          | cons x d ih =>
            match ms, hl with
            | m :: ms, hl =>
              have := ih ms (by simpa using hl) (fun p h => hp p (by simp [h]))
              simp only [List.sum_cons, List.map_cons, List.zipWith_cons_cons]
              obtain ⟨hx0, hx1⟩ := hp x (by simp)
              have : x * (θ - m) ≤ 1 / nu * max (θ - m) 0 := by
                calc x * (θ - m) ≤ x * max (θ - m) 0 := mul_le_mul_of_nonneg_left (le_max_left _ _) hx0
                  _ ≤ _ := mul_le_mul_of_nonneg_right hx1 (le_max_right _ _)
              linarith
        have := key d ms hdl hcap.1
        rwa [hcap.2] at this
    · rw [if_neg hc2] at hv; simp at hv
  · rw [if_neg hc1] at hv; simp at hv

/-- When the objective is defined. -/
theorem softMargin_ok_iff (nu : K) (nFeature : Nat) (S : Examples X K) (h : H) :
    (∃ v, softMarginEval nu nFeature S h = .ok v) ↔
      S ≠ [] ∧ 0 < nFeature ∧ 1 ≤ nu ∧ nu ≤ (S.length : K) := by
  unfold softMarginEval checkSample checkNu
  rw [← List.length_pos_iff]
  by_cases hc1 : 0 < S.length ∧ 0 < nFeature
  · rw [if_pos hc1]
    by_cases hc2 : 1 ≤ nu ∧ nu ≤ (S.length : K)
    · rw [if_pos hc2]
      exact ⟨fun _ => ⟨hc1.1, hc1.2, hc2⟩, fun _ => ⟨_, rfl⟩⟩
    · rw [if_neg hc2]
      exact ⟨fun ⟨v, hv⟩ => by simp at hv, fun hh => absurd hh.2.2 hc2⟩
  · rw [if_neg hc1]
    exact ⟨fun ⟨v, hv⟩ => by simp at hv, fun hh => absurd ⟨hh.1, hh.2.1⟩ hc1⟩

/-- C49: the hard-margin objective is the smallest margin of the sample. -/
theorem hardMargin_is_min_margin (nFeature : Nat) (S : Examples X K) (h : H) (v : K)
    (hv : hardMarginEval nFeature S h = .ok v) :
    (∃ e ∈ S, v = e.2 * conf h e.1) ∧ ∀ e ∈ S, v ≤ e.2 * conf h e.1 := by
  have hne := ((softMargin_ok_iff 1 nFeature S h).1 ⟨v, hv⟩).1
  have hv' := hv
  unfold hardMarginEval softMarginEval at hv
  cases hc1 : checkSample S.length nFeature with
  | error e => rw [hc1] at hv; simp at hv
  | ok u =>
    cases hc2 : checkNu (1 : K) S.length with
    | error e => rw [hc1, hc2] at hv; simp at hv
    | ok u =>
      rw [hc1, hc2] at hv
      simp only [Except.ok.injEq, evalMargins_eq] at hv
      set ms := S.map fun e => e.2 * conf h e.1 with hms
      set sorted := ms.mergeSort fun a b => decide (a ≤ b) with hsorted
      have hperm : sorted.Perm ms := List.mergeSort_perm _ _
      have hpw : sorted.Pairwise (· ≤ ·) := by
        have := List.pairwise_mergeSort (le := fun a b : K => decide (a ≤ b))
          (by intro a b c hab hbc; simp only [decide_eq_true_eq] at *; exact hab.trans hbc)
          (by intro a b; simp only [Bool.or_eq_true, decide_eq_true_eq]; exact le_total a b) ms
        exact this.imp fun hab => by simpa using hab
      cases hs : sorted with
      | nil =>
        rw [hs] at hperm
        have := hperm.length_eq
        simp [hms] at this
        exact absurd (List.length_eq_zero_iff.1 (by omega)) hne
      | cons m rest =>
        rw [hs] at hv hpw hperm
        have hvm : v = m := by rw [← hv]; simp [softLoop]
        rw [List.pairwise_cons] at hpw
        have hmem : ∀ x, x ∈ m :: rest ↔ ∃ e ∈ S, e.2 * conf h e.1 = x := by
          intro x; rw [hperm.mem_iff, hms, List.mem_map]
        constructor
        · obtain ⟨e, he, h1⟩ := (hmem m).1 (by simp)
          exact ⟨e, he, by rw [hvm, h1]⟩
        · intro e he
          rw [hvm]
          rcases List.mem_cons.1 ((hmem _).2 ⟨e, he, rfl⟩) with h1 | h1
          · rw [h1]
          · exact hpw.1 _ h1

/-- The soft-margin objective lies between the smallest margin and the average margin. -/
theorem softMargin_between (nu : K) (nFeature : Nat) (S : Examples X K) (h : H) (v w : K)
    (hv : softMarginEval nu nFeature S h = .ok v) (hw : hardMarginEval nFeature S h = .ok w) :
    w ≤ v ∧ v * S.length ≤ (S.map fun e => e.2 * conf h e.1).sum := by
  obtain ⟨hne, _, h1, h2⟩ := (softMargin_ok_iff nu nFeature S h).1 ⟨v, hv⟩
  obtain ⟨⟨d, hd, hcap, he⟩, hmin⟩ := softMargin_is_min nu nFeature S h v hv
  have hlen : (0 : K) < S.length := by exact_mod_cast List.length_pos_of_ne_nil hne
  have hnu : 0 < nu := by linarith
  constructor
  · obtain ⟨_, hminw⟩ := softMargin_is_min 1 nFeature S h w hw
    rw [← he]
    apply hminw d hd
    refine ⟨fun p hp => ⟨(hcap.1 p hp).1, (hcap.1 p hp).2.trans ?_⟩, hcap.2⟩
    rw [div_le_div_iff₀ hnu one_pos]; linarith
  · have := hmin (List.replicate S.length (1 / (S.length : K))) (by simp) (by
      refine ⟨fun p hp => ?_, ?_⟩
      · rw [List.mem_replicate] at hp
        rw [hp.2]
        refine ⟨by positivity, ?_⟩
        rw [div_le_div_iff₀ hlen hnu]; linarith
      · rw [List.sum_replicate, nsmul_eq_mul]; field_simp)
    have key : ∀ (T : List (X × K)) (c : K), (List.zipWith (fun w m => w * m) (List.replicate T.length c)
        (T.map fun e => e.2 * conf h e.1)).sum = c * (T.map fun e => e.2 * conf h e.1).sum := by
      intro T c
      induction T with
      | nil => simp
      | cons e T ih => simp only [List.length_cons, List.replicate_succ, List.map_cons,
          List.zipWith_cons_cons, List.sum_cons, ih]; ring
    rw [edge_eq_zipWith, key, one_div, ← div_eq_inv_mul, le_div_iff₀ hlen] at this
    exact this

end field

section real

open Real

variable {H X : Type*} [Classifier H X ℝ]

/-- C50: on a sample with labels `±1` the exponential-loss objective is `e` times the error rate plus `1/e`
times the rate of correct predictions; in particular it is at least the error rate. -/
theorem expLoss_dominates_error (nFeature : Nat) (S : Examples X ℝ) (hpm : Spec.PmLabels S) (h : H) (v : ℝ)
    (hv : expLossEval nFeature S h = .ok v) :
    v = (exp 1 * Spec.errors S (predict (K := ℝ) h) +
        exp (-1) * (S.length - Spec.errors S (predict (K := ℝ) h))) / S.length ∧
    (Spec.errors S (predict (K := ℝ) h) : ℝ) / S.length ≤ v := by
  unfold expLossEval at hv
  cases hc1 : checkSample S.length nFeature with
  | error e => rw [hc1] at hv; simp at hv
  | ok u =>
    rw [hc1] at hv
    simp only [Except.ok.injEq] at hv
    have hsum : (List.zipWith (fun (hx : Int) (y : ℝ) => exp (-y * (hx : ℝ)))
        (predictAll (K := ℝ) h (S.map Prod.fst)) (S.map Prod.snd)).sum =
        exp 1 * Spec.errors S (predict (K := ℝ) h) +
          exp (-1) * (S.length - Spec.errors S (predict (K := ℝ) h)) := by
      clear hv hc1
      unfold Spec.errors
      induction S with
      | nil => simp [predictAll]
      | cons e S ih =>
        have ih' := ih (fun e' he' => hpm e' (by simp [he']))
        have hp : predict (K := ℝ) h e.1 = 1 ∨ predict (K := ℝ) h e.1 = -1 := by
          unfold predict; split <;> simp
        simp only [predictAll, List.map_cons, List.zipWith_cons_cons, List.sum_cons, List.countP_cons,
          List.length_cons] at ih' ⊢
        rw [ih']
        rcases hpm e (by simp) with hy | hy <;> rcases hp with hp | hp <;> rw [hy, hp] <;> norm_num <;> ring
    have hle : (0 : ℝ) ≤ S.length := Nat.cast_nonneg _
    have herr : (Spec.errors S (predict (K := ℝ) h) : ℝ) ≤ S.length := by
      exact_mod_cast List.countP_le_length
    rw [hsum] at hv
    refine ⟨hv.symm, ?_⟩
    rw [← hv]
    apply div_le_div_of_nonneg_right _ hle
    have h1 : (1 : ℝ) ≤ exp 1 := one_le_exp zero_le_one
    have h2 := exp_pos (-1 : ℝ)
    have h3 : (0 : ℝ) ≤ Spec.errors S (predict (K := ℝ) h) := Nat.cast_nonneg _
    nlinarith

/-- The documentation describes the exponential loss of the confidences; for a hypothesis whose confidences are
not `±1` the code's value is a different one.  A concrete case where the documented value differs. -/
theorem expLoss_not_of_confidence : ∃ (S : Examples Nat ℝ) (h : Fn Nat ℝ) (v : ℝ),
    expLossEval 1 S h = .ok v ∧ v ≠ (S.map fun e => exp (-(e.2 * conf h e.1))).sum / S.length := by
  refine ⟨[(0, 1)], ⟨fun _ => 0⟩, exp (-1), ?_, ?_⟩
  · unfold expLossEval checkSample
    rw [if_pos (by simp)]
    simp [predictAll, predict, conf]
  · simp [conf]

end real

section nonvacuity

/-- The objective is defined on a three-example sample with `ν = 2`. -/
example : ∃ v, softMarginEval (2 : ℚ) 1 [((0 : Nat), (1 : ℚ)), (1, -1), (2, 1)]
    (⟨fun x => if x = 0 then 3 / 4 else if x = 1 then 1 / 4 else 1 / 2⟩ : Fn Nat ℚ) = .ok v :=
  (softMargin_ok_iff _ _ _ _).2 ⟨List.cons_ne_nil _ _, by norm_num⟩

/-- The loop on the sorted margins `-1/4, 1/2, 3/4` of that hypothesis. -/
example : softLoop (1 / 2 : ℚ) [-1 / 4, 1 / 2, 3 / 4] 1 0 = 1 / 8 := by decide +kernel

end nonvacuity

end Miniboosts.Props
