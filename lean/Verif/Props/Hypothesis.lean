import Verif.Lemmas.Hypothesis
import Mathlib.Tactic.NormNum
import Mathlib.Data.Rat.Floor

/-! # Properties of combined hypotheses (C08, C09, C10, C21, C58) -/

namespace Miniboosts.Props

variable {K : Type*} [Field K] [LinearOrder K] [IsStrictOrderedRing K] {H X : Type*}

/-- C08: construction succeeds exactly when some pair has positive weight. -/
theorem fromSlices_ok_iff (ws : List K) (hs : List H) :
    (∃ f, WeightedMajority.fromSlices ws hs = .ok f) ↔ ∃ p ∈ List.zip ws hs, 0 < p.1 := by
  rcases fromSlices_cases ws hs with ⟨h1, h2⟩ | ⟨h1, h2⟩
  · constructor
    · rintro ⟨f, hf⟩; rw [h2] at hf; simp at hf
    · rintro ⟨p, hp, hpos⟩
      have : p ∈ (List.zip ws hs).filter (fun p => decide (0 < p.1)) :=
        List.mem_filter.2 ⟨hp, by simpa using hpos⟩
      rw [h1] at this; simp at this
  · constructor
    · intro _
      obtain ⟨p, hp⟩ := List.exists_mem_of_ne_nil _ h1
      exact ⟨p, (List.mem_filter.1 hp).1, by simpa using (List.mem_filter.1 hp).2⟩
    · intro _; exact ⟨_, h2⟩

/-- C08: otherwise it panics. -/
theorem fromSlices_panics_iff (ws : List K) (hs : List H) :
    WeightedMajority.fromSlices ws hs = .error .assertion ↔ ∀ p ∈ List.zip ws hs, p.1 ≤ 0 := by
  have := fromSlices_ok_iff ws hs
  rcases fromSlices_cases ws hs with ⟨h1, h2⟩ | ⟨h1, h2⟩
  · constructor
    · intro _ p hp
      by_contra hn
      obtain ⟨f, hf⟩ := this.2 ⟨p, hp, not_le.1 hn⟩
      rw [h2] at hf; simp at hf
    · intro _; exact h2
  · constructor
    · intro h; rw [h2] at h; simp at h
    · intro h
      obtain ⟨p, hp, hpos⟩ := this.1 ⟨_, h2⟩
      exact absurd hpos (not_lt.2 (h p hp))

/-- C08: the result has positive weights summing to one, one per hypothesis; the pairs are the input
pairs of positive weight, in order, with all weights divided by the same number. -/
theorem fromSlices_spec {ws : List K} {hs : List H} {f : WeightedMajority K H}
    (h : WeightedMajority.fromSlices ws hs = .ok f) :
    Spec.IsPosProb f.weights ∧ f.weights.length = f.hypotheses.length ∧
    ∃ z > 0, (List.zip f.weights f.hypotheses).map (fun p => (p.1 * z, p.2)) =
      (List.zip ws hs).filter (fun p => decide (0 < p.1)) := by
  set kept := (List.zip ws hs).filter (fun p => decide (0 < p.1)) with hkept
  have hk : ∀ p ∈ kept, 0 < p.1 := by
    intro p hp; simpa using (List.mem_filter.1 hp).2
  rcases fromSlices_cases ws hs with ⟨h1, h2⟩ | ⟨h1, h2⟩
  · rw [h2] at h; simp at h
  · rw [h2, ← hkept] at h
    rw [← hkept] at h1
    have hz := sum_map_pos kept Prod.fst h1 hk
    simp only [Except.ok.injEq] at h
    subst h
    refine ⟨⟨?_, ?_⟩, by simp, (kept.map Prod.fst).sum, hz, ?_⟩
    · intro p hp
      obtain ⟨q, hq, rfl⟩ := List.mem_map.1 hp
      exact div_pos (hk q hq) hz
    · simp only []
      rw [sum_map_div kept Prod.fst]; exact div_self hz.ne'
    · simp only []
      generalize (kept.map Prod.fst).sum = z at hz
      clear_value kept
      clear hkept h1 hk h2
      induction kept with
      | nil => rfl
      | cons p l ih =>
        simp only [List.map_cons, List.zip_cons_cons, ih]
        rw [div_mul_cancel₀ _ hz.ne']

example : ∃ f, WeightedMajority.fromSlices [(-1 : ℚ), 3, 0, 1] ["a", "b", "c", "d"] = .ok f ∧
    f.weights = [3 / 4, 1 / 4] ∧ f.hypotheses = ["b", "d"] :=
  ⟨⟨[3 / 4, 1 / 4], ["b", "d"]⟩, by decide +kernel, rfl, rfl⟩

/-- C09: the confidence of a combined hypothesis lies between any bounds valid for its members. -/
theorem confidence_between [Classifier H X K] {ws : List K} {hs : List H}
    {f : WeightedMajority K H} (h : WeightedMajority.fromSlices ws hs = .ok f) (x : X) (lo hi : K)
    (hb : ∀ g ∈ f.hypotheses, lo ≤ conf g x ∧ conf g x ≤ hi) :
    lo ≤ conf f x ∧ conf f x ≤ hi := by
  obtain ⟨⟨hpos, hsum⟩, hlen, -⟩ := fromSlices_spec h
  rw [conf_weightedMajority]
  obtain ⟨fw, fh⟩ := f
  simp only at *
  have key : ∀ (fw : List K) (fh : List H), fw.length = fh.length → (∀ w ∈ fw, 0 < w) →
      (∀ g ∈ fh, lo ≤ conf g x ∧ conf g x ≤ hi) →
      lo * fw.sum ≤ Spec.vote conf (List.zip fw fh) x ∧
      Spec.vote conf (List.zip fw fh) x ≤ hi * fw.sum := by
    intro fw
    induction fw with
    | nil => intro fh _ _ _; simp [Spec.vote]
    | cons w fw ih =>
      intro fh hl hp hc
      cases fh with
      | nil => simp at hl
      | cons g fh =>
        have hw := hp w (by simp)
        obtain ⟨c1, c2⟩ := hc g (by simp)
        obtain ⟨i1, i2⟩ := ih fh (by simpa using hl) (fun w hw => hp w (by simp [hw]))
          (fun g hg => hc g (by simp [hg]))
        simp only [Spec.vote, List.zip_cons_cons, List.map_cons, List.sum_cons] at i1 i2 ⊢
        constructor
        · nlinarith
        · nlinarith
  have := key fw fh hlen hpos hb
  rw [hsum, mul_one, mul_one] at this
  exact this

omit [IsStrictOrderedRing K] in
/-- C09: `predict` is `+1` exactly when the confidence is `≥ 0`, otherwise `-1`. -/
theorem predict_eq_one_iff [Classifier H X K] (h : H) (x : X) :
    (predict (K := K) h x = 1 ↔ (0 : K) ≤ conf h x) ∧
    (predict (K := K) h x = -1 ↔ (conf h x : K) < 0) := by
  unfold predict
  split
  · rename_i h0; simp [h0]
  · rename_i h0; simp [not_le.1 h0, h0]

omit [IsStrictOrderedRing K] in
/-- C09: the batch versions agree with the single-row versions, row by row. -/
theorem batch_rows [Classifier H X K] (h : H) (rows : List X) (i : Nat) (hi : i < rows.length) :
    (confidenceAll (K := K) h rows)[i]? = some (conf h rows[i]) ∧
    (predictAll (K := K) h rows)[i]? = some (predict (K := K) h rows[i]) ∧
    (confidenceAll (K := K) h rows).length = rows.length ∧
    (predictAll (K := K) h rows).length = rows.length := by
  simp [confidenceAll, predictAll, hi]

/-- C10: scaling all votes by a positive constant leaves the constructed hypothesis unchanged. -/
theorem fromSlices_scale (ws : List K) (hs : List H) (c : K) (hc : 0 < c) :
    WeightedMajority.fromSlices (ws.map (c * ·)) hs = WeightedMajority.fromSlices ws hs := by
  have hz : List.zip (ws.map (c * ·)) hs = (List.zip ws hs).map fun p => (c * p.1, p.2) := by
    rw [List.zip_map_left]; rfl
  have hfil : (List.zip (ws.map (c * ·)) hs).filter (fun p => decide (0 < p.1)) =
      ((List.zip ws hs).filter (fun p => decide (0 < p.1))).map fun p => (c * p.1, p.2) := by
    rw [hz, List.filter_map]
    congr 1
    apply List.filter_congr
    intro p _
    simp [hc]
  rcases fromSlices_cases (ws.map (c * ·)) hs with ⟨h1, h2⟩ | ⟨h1, h2⟩ <;>
  rcases fromSlices_cases ws hs with ⟨h3, h4⟩ | ⟨h3, h4⟩ <;> rw [h2, h4]
  · rw [hfil] at h1; exact absurd (by simpa using h1) h3
  · rw [hfil] at h1; exact absurd (by simpa using h3) h1
  · rw [hfil]
    congr 2
    · simp only [List.map_map]
      apply List.map_congr_left
      intro p _
      simp only [Function.comp]
      have : ((List.zip ws hs).filter (fun p => decide (0 < p.1))).map
          (Prod.fst ∘ fun p : K × H => (c * p.1, p.2)) =
          ((List.zip ws hs).filter (fun p => decide (0 < p.1))).map (fun p => c * p.1) := rfl
      rw [this, sum_map_mul_left', mul_div_mul_left _ _ hc.ne']
    · simp [List.map_map, Function.comp_def]

/-- C10: normalisation never changes a prediction: the constructed hypothesis predicts the sign of
the raw vote of the positive-weight pairs. -/
theorem predict_fromSlices_eq_raw [Classifier H X K] {ws : List K} {hs : List H}
    {f : WeightedMajority K H} (h : WeightedMajority.fromSlices ws hs = .ok f) (x : X) :
    predict (K := K) f x =
      if 0 ≤ Spec.vote conf ((List.zip ws hs).filter fun p => decide (0 < p.1)) x
      then 1 else -1 := by
  obtain ⟨h1, h2⟩ := fromSlices_conf h x
  unfold predict
  rw [h1]
  have : (0 ≤ Spec.vote conf ((List.zip ws hs).filter fun p => decide (0 < p.1)) x /
      (((List.zip ws hs).filter fun p => decide (0 < p.1)).map Prod.fst).sum) ↔
      0 ≤ Spec.vote conf ((List.zip ws hs).filter fun p => decide (0 < p.1)) x := by
    constructor
    · intro h; by_contra hn; exact absurd h (not_le.2 (div_neg_of_neg_of_pos (not_le.1 hn) h2))
    · intro h; exact div_nonneg h h2.le
  simp only [this]

/-- C10: the in-place `normalize` of a combined hypothesis never changes a prediction. -/
theorem norm_predict [Classifier H X K] {f g : WeightedMajority K H} (h : f.norm = .ok g) (x : X) :
    predict (K := K) g x = predict (K := K) f x := by
  unfold WeightedMajority.norm normalize at h
  simp only [] at h
  by_cases hz : (f.weights.map fun a => |a|).sum = 0
  · simp [hz] at h
  · simp only [hz, if_false, Except.ok.injEq] at h
    have hnn : 0 ≤ (f.weights.map fun a => |a|).sum :=
      sum_map_nonneg _ _ (fun i _ => abs_nonneg i)
    have hpos : 0 < (f.weights.map fun a => |a|).sum := lt_of_le_of_ne hnn (Ne.symm hz)
    have hconf : (conf g x : K) = conf f x / (f.weights.map fun a => |a|).sum := by
      rw [← h, conf_weightedMajority, conf_weightedMajority]
      unfold Spec.vote
      simp only []
      generalize (f.weights.map fun a => |a|).sum = z
      rw [← sum_map_div, List.zip_map_left, List.map_map]
      congr 1
      apply List.map_congr_left
      intro p _
      simp [Function.comp, div_mul_eq_mul_div]
    unfold predict
    rw [hconf]
    have : (0 ≤ (conf f x : K) / (f.weights.map fun a => |a|).sum) ↔ (0 : K) ≤ conf f x := by
      constructor
      · intro h; by_contra hn; exact absurd h (not_le.2 (div_neg_of_neg_of_pos (not_le.1 hn) hpos))
      · intro h; exact div_nonneg h hpos.le
    simp only [this]

/-- C21: an aggregated hypothesis predicts `+1` on `x` exactly when some positively labelled training
example received the same predictions from all members, and `-1` otherwise. -/
theorem naiveAggregation_predict [Classifier H X K] (hs : List H) (S : Examples X K) (x : X) :
    let f := NaiveAggregation.new hs S
    (predict (K := K) f x = 1 ↔ ∃ e ∈ S, 0 < e.2 ∧
      ∀ h ∈ hs, predict (K := K) h e.1 = predict (K := K) h x) ∧
    (predict (K := K) f x = 1 ∨ predict (K := K) f x = -1) ∧
    (conf f x = (predict (K := K) f x : K)) := by
  intro f
  have hpm : ∀ (h : H) (y : X), predict (K := K) h y = 1 ∨ predict (K := K) h y = -1 := by
    intro h y; unfold predict; split <;> simp
  have hany : (f.prediction.any fun p => p == f.hypotheses.map fun h =>
      decide (predict (K := K) h x = 1)) = true ↔ ∃ e ∈ S, 0 < e.2 ∧
      ∀ h ∈ hs, predict (K := K) h e.1 = predict (K := K) h x := by
    simp only [f, NaiveAggregation.new, List.any_map, List.any_eq_true, List.mem_filter,
      decide_eq_true_eq, Function.comp, beq_iff_eq, List.map_inj_left]
    constructor
    · rintro ⟨e, ⟨he, hp⟩, hall⟩
      refine ⟨e, he, hp, fun h hh => ?_⟩
      have := hall h hh
      rcases hpm h e.1 with a | a <;> rcases hpm h x with b | b <;> simp [a, b] at this ⊢
    · rintro ⟨e, he, hp, hall⟩
      refine ⟨e, ⟨he, hp⟩, fun h hh => ?_⟩
      rw [hall h hh]
      rcases hpm h x with b | b <;> simp [b]
  have hconf : (conf f x : K) = if (f.prediction.any fun p => p == f.hypotheses.map fun h =>
      decide (predict (K := K) h x = 1)) then 1 else -1 := rfl
  by_cases hc : ∃ e ∈ S, 0 < e.2 ∧ ∀ h ∈ hs, predict (K := K) h e.1 = predict (K := K) h x
  · have h1 : (conf f x : K) = 1 := by rw [hconf, if_pos (hany.2 hc)]
    have h2 : predict (K := K) f x = 1 := by unfold predict; rw [h1]; simp
    exact ⟨by simp [h2, hc], .inl h2, by rw [h1, h2]; simp⟩
  · have h1 : (conf f x : K) = -1 := by rw [hconf, if_neg (fun h => hc (hany.1 h))]
    have h2 : predict (K := K) f x = -1 := by
      unfold predict; rw [h1, if_neg]; simp
    exact ⟨by rw [h2]; constructor
              · intro h; omega
              · intro h; exact absurd h hc, .inr h2, by rw [h1, h2]; simp⟩

/-- C21: positively labelled training rows are always predicted `+1`. -/
theorem naiveAggregation_training_positive [Classifier H X K] (hs : List H) (S : Examples X K)
    (e : X × K) (he : e ∈ S) (hy : 0 < e.2) :
    predict (K := K) (NaiveAggregation.new hs S) e.1 = 1 :=
  ((naiveAggregation_predict hs S e.1).1).2 ⟨e, he, hy, fun _ _ => rfl⟩

/-- A classifier given by a function, used in the concrete instances below. -/
structure Fn (X K : Type*) where
  f : X → K

instance : Classifier (Fn X K) X K := ⟨Fn.f⟩

example : predict (K := ℚ)
    (NaiveAggregation.new [Fn.mk fun x : ℚ => x - 1] [((2 : ℚ), (1 : ℚ)), (0, -1)]) (5 : ℚ) = 1 ∧
    predict (K := ℚ)
    (NaiveAggregation.new [Fn.mk fun x : ℚ => x - 1] [((2 : ℚ), (1 : ℚ)), (0, -1)]) (0 : ℚ) = -1 := by
  decide +kernel

section duality

omit [IsStrictOrderedRing K] in
/-- C58: the modelled edge of one hypothesis is `Σ_i d_i y_i h(x_i)`. -/
theorem edge_eq [Classifier H X K] (S : Examples X K) (d : List K) (h : H) :
    edge S d h = Spec.edge S d (conf h) := edge_eq_spec S d h

omit [IsStrictOrderedRing K] in
/-- C58: the edge of a weighted hypothesis is the edge of its vote function, and equals the weighted
sum of the member edges. -/
theorem weightedEdge_eq [Classifier H X K] (S : Examples X K) (d ws : List K) (hs : List H) :
    weightedEdge S d ws hs = Spec.edge S d (Spec.vote conf (List.zip ws hs)) ∧
    weightedEdge S d ws hs = (List.zipWith (fun w h => w * edge S d h) ws hs).sum := by
  have h1 : weightedEdge S d ws hs = Spec.edge S d (Spec.vote conf (List.zip ws hs)) := by
    rw [← innerProduct_eq_zip]
    unfold weightedEdge weightedMargins innerProduct
    simp only [weightedConf_eq_vote]
    congr 2; funext a b; ring
  refine ⟨h1, ?_⟩
  rw [h1]
  have hz : (List.zipWith (fun w h => w * edge S d h) ws hs) =
      (List.zip ws hs).map fun p => p.1 * Spec.edge S d (conf p.2) := by
    rw [List.zip, List.map_zipWith]
    simp only [edge_eq_spec]
  rw [hz]
  generalize List.zip ws hs = wh
  induction wh with
  | nil => simp [Spec.vote, Spec.edge]
  | cons p wh ih =>
    simp only [List.map_cons, List.sum_cons, ← ih]
    unfold Spec.edge Spec.vote
    rw [← sum_map_mul_left', ← sum_map_add']
    congr 1
    apply List.map_congr_left
    intro q _
    simp only [List.map_cons, List.sum_cons]; ring

/-- C58: under a probability vector the edge lies between bounds on the margins. -/
theorem edge_between_margins (S : Examples X K) (d : List K) (hlen : d.length = S.length)
    (hd : Spec.IsProb d) (g : X → K) (lo hi : K) (hm : ∀ e ∈ S, lo ≤ e.2 * g e.1 ∧ e.2 * g e.1 ≤ hi) :
    lo ≤ Spec.edge S d g ∧ Spec.edge S d g ≤ hi := by
  have key : ∀ (S : Examples X K) (d : List K), d.length = S.length → (∀ p ∈ d, 0 ≤ p) →
      (∀ e ∈ S, lo ≤ e.2 * g e.1 ∧ e.2 * g e.1 ≤ hi) →
      lo * d.sum ≤ Spec.edge S d g ∧ Spec.edge S d g ≤ hi * d.sum := by
    intro S
    induction S with
    | nil => intro d hl _ _; simp at hl; subst hl; simp [Spec.edge]
    | cons e S ih =>
      intro d hl hp hm
      cases d with
      | nil => simp at hl
      | cons a d =>
        obtain ⟨i1, i2⟩ := ih d (by simpa using hl) (fun p hp' => hp p (by simp [hp']))
          (fun e he => hm e (by simp [he]))
        have ha := hp a (by simp)
        obtain ⟨m1, m2⟩ := hm e (by simp)
        simp only [Spec.edge, List.zip_cons_cons, List.map_cons, List.sum_cons] at i1 i2 ⊢
        have := mul_le_mul_of_nonneg_left m1 ha
        have := mul_le_mul_of_nonneg_left m2 ha
        constructor <;> linarith
  have := key S d hlen hd.1 hm
  rwa [hd.2, mul_one, mul_one] at this

example : Spec.IsProb [(1 / 2 : ℚ), 1 / 3, 1 / 6] := by
  constructor
  · intro p hp; simp at hp; rcases hp with rfl | rfl | rfl <;> norm_num
  · norm_num

end duality

end Miniboosts.Props
