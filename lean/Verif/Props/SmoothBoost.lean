import Verif.Props.MadaBoost
import Verif.Lemmas.SmoothBoost

/-! # Properties of SmoothBoost (C15, C16, C17, C52, C61) -/

namespace Miniboosts.Props

open Real SmoothBoost

variable {H X : Type*} [Classifier H X ℝ]

/-- The iteration limit of SmoothBoost: `⌈2/(κγ²√(1-γ))⌉`, or `usize::MAX` when that is infinite. -/
noncomputable def smoothLimit (s₀ : SmoothBoost H) : Nat :=
  if s₀.kappa * s₀.gamma ^ 2 * √(1 - s₀.gamma) = 0 then 2 ^ 64 - 1
  else ⌈2 / (s₀.kappa * s₀.gamma ^ 2 * √(1 - s₀.gamma))⌉₊

theorem smoothLimit_eq (s₀ : SmoothBoost H) : smoothLimit s₀ = maxLoop s₀ := rfl

/-- C15: every weight vector handed to the weak learner is a strictly positive probability vector with one
entry per example and no entry above `1/(κ m)`.  (`0 ≤ γ` is what the setter `gamma` enforces.) -/
theorem smoothboost_smooth (S : Examples X ℝ) (s₀ : SmoothBoost H) (hg0 : 0 ≤ s₀.gamma)
    (wl : WeakLearner ℝ H) (n : Nat) (qs : List (List ℝ)) (s : SmoothBoost H)
    (hr : (SmoothBoost.booster S).Reachable wl s₀ n qs s) (out : BoostOut (SmoothBoost H) ℝ)
    (hb : (SmoothBoost.booster S).boost s wl (n + 1) = .ok out) :
    ∀ q ∈ qs ++ out.queries, q.length = S.length ∧ Spec.IsPosProb q ∧
      ∀ p ∈ q, p ≤ 1 / (s₀.kappa * S.length) := by
  have hi := inv_of_reachable hr
  intro q hq
  rcases List.mem_append.1 hq with h | h
  · exact hi.q hg0 q h
  · cases hf : out.flow with
    | cont => exact (inv_of_reachable (Booster.Reachable.step hr hb hf)).q hg0 q hq
    | brk k =>
      have hbc := boost_cases (wl := wl) (it := n + 1) hi.mm hi.nn
      simp only [] at hbc
      rw [show (booster S).boost s wl (n + 1) = boost S s wl (n + 1) from rfl, hbc] at hb
      by_cases h1 : s.maxIter < n + 1
      · rw [if_pos h1, Except.ok.injEq] at hb; subst hb; simp at h
      rw [if_neg h1] at hb
      by_cases h2 : (S.map (fun e => if n = 0 then 1 else mu s.gamma (score s.theta s.hypotheses e))).sum <
          (s.nSample : ℝ) * s.kappa
      · rw [if_pos h2, if_neg (Nat.succ_ne_zero n), Except.ok.injEq] at hb; subst hb; simp at h
      · rw [if_neg h2, Except.ok.injEq] at hb; subst hb; simp at hf

/-- What a call of `boost` that stops the run looks like. -/
theorem smooth_break (S : Examples X ℝ) (s₀ : SmoothBoost H)
    (wl : WeakLearner ℝ H) (n : Nat) (qs : List (List ℝ)) (s : SmoothBoost H)
    (hr : (SmoothBoost.booster S).Reachable wl s₀ n qs s) :
    (n = maxLoop s₀ ∧ (SmoothBoost.booster S).boost s wl (n + 1) = .ok ⟨s, .brk s.maxIter, []⟩) ∨
    (0 < n ∧ n < maxLoop s₀ ∧
      (S.map fun e => mu s₀.gamma (score s.theta s.hypotheses e)).sum < (S.length : ℝ) * s₀.kappa ∧
      (SmoothBoost.booster S).boost s wl (n + 1) =
        .ok ⟨{ s with current := n + 1, terminated := n }, .brk (n + 1), []⟩) ∨
    (n < maxLoop s₀ ∧ ∃ out, (SmoothBoost.booster S).boost s wl (n + 1) = .ok out ∧ out.flow = .cont) := by
  have hi := inv_of_reachable hr
  have hbc := boost_cases (wl := wl) (it := n + 1) hi.mm hi.nn
  simp only [] at hbc
  rw [show (booster S).boost s wl (n + 1) = boost S s wl (n + 1) from rfl, hbc]
  have hmax := hi.max
  have hle := hi.le
  by_cases h1 : s.maxIter < n + 1
  · left
    exact ⟨by omega, by rw [if_pos h1]⟩
  · right
    rw [if_neg h1]
    by_cases h2 : (S.map (fun e => if n = 0 then 1 else mu s.gamma (score s.theta s.hypotheses e))).sum <
          (s.nSample : ℝ) * s.kappa
    · left
      have hn : 0 < n := by
        rcases Nat.eq_zero_or_pos n with h | h
        · exfalso
          simp only [if_pos h, sum_map_const', hi.nSample, hi.kappa, mul_one] at h2
          have hm : (0 : ℝ) < S.length := by exact_mod_cast List.length_pos_iff.2 hi.ne
          have := hi.k01.2
          nlinarith
        · exact h
      refine ⟨hn, by omega, ?_, ?_⟩
      · simpa only [if_neg hn.ne', hi.gamma, hi.nSample, hi.kappa] using h2
      · rw [if_pos h2, if_neg (Nat.succ_ne_zero n)]; rfl
    · right
      refine ⟨by omega, ?_⟩
      rw [if_neg h2]
      exact ⟨_, rfl, rfl⟩

/-- C16: whatever the weak learner does, a run finishes after at most `limit + 1` calls of `boost` and makes
at most `limit` weak-learner calls; `boost` never panics. -/
theorem smoothboost_terminates (S : Examples X ℝ) (s₀ : SmoothBoost H) (wl : WeakLearner ℝ H) :
    (∃ r, (SmoothBoost.booster S).run wl (smoothLimit s₀ + 1) s₀ = some r) ∧
    (∀ n qs s, (SmoothBoost.booster S).Reachable wl s₀ n qs s →
      ∃ out, (SmoothBoost.booster S).boost s wl (n + 1) = .ok out ∧
      (qs ++ out.queries).length ≤ smoothLimit s₀) := by
  constructor
  · apply Booster.run_terminates
    intro qs s₁ out hr hb hf
    rcases smooth_break S s₀ wl _ _ _ hr with ⟨_, h⟩ | ⟨_, h, _⟩ | ⟨h, _⟩
    · rw [hb, Except.ok.injEq] at h; subst h; simp at hf
    · rw [smoothLimit_eq] at h; omega
    · rw [smoothLimit_eq] at h; omega
  · intro n qs s hr
    have hi := inv_of_reachable hr
    rw [smoothLimit_eq]
    rcases smooth_break S s₀ wl _ _ _ hr with ⟨h1, h⟩ | ⟨_, h1, _, h⟩ | ⟨h1, out, h, hf⟩
    · exact ⟨_, h, by simp only [List.append_nil]; rw [hi.qlen]; omega⟩
    · exact ⟨_, h, by simp only [List.append_nil]; rw [hi.qlen]; omega⟩
    · refine ⟨out, h, ?_⟩
      have hi2 := inv_of_reachable (Booster.Reachable.step hr h hf)
      rw [hi2.qlen]; omega

/-- C16 (Servedio's bound): if on every smooth distribution the weak learner's hypothesis has edge at least
`2γ` -- which for `±1` labels and confidences in `[-1,1]` is the documented assumption
`½ Σ d |h(x) - y| ≤ ½ - γ` -- then fewer than `2/(κγ²√(1-γ))` rounds are ever made, so the iteration limit is
never what stops the run. -/
theorem smoothboost_rounds (S : Examples X ℝ) (s₀ : SmoothBoost H) (wl : WeakLearner ℝ H)
    (hpm : Spec.PmLabels S) (hconf : ∀ k d, ∀ e ∈ S, |conf (wl k d) e.1| ≤ 1) (hg : 0 < s₀.gamma)
    (hwl : ∀ k d, d.length = S.length → Spec.IsPosProb d →
      (∀ p ∈ d, p ≤ 1 / (s₀.kappa * S.length)) → 2 * s₀.gamma ≤ Spec.edge S d (conf (wl k d)))
    (n : Nat) (qs : List (List ℝ)) (s : SmoothBoost H)
    (hr : (SmoothBoost.booster S).Reachable wl s₀ n qs s) :
    (n : ℝ) < 2 / (s₀.kappa * s₀.gamma ^ 2 * √(1 - s₀.gamma)) ∧ n < smoothLimit s₀ := by
  have hbd : ∀ k d, ∀ e ∈ S, |e.2 * conf (wl k d) e.1| ≤ 1 := by
    intro k d e he
    rw [abs_mul]
    have : |e.2| = 1 := by rcases hpm e he with h | h <;> rw [h] <;> simp
    rw [this, one_mul]; exact hconf k d e he
  have h := rounds_lt hg hbd hwl hr
  refine ⟨h, ?_⟩
  have hi := inv_of_reachable hr
  have hg1 := hi.g1
  have hne : s₀.kappa * s₀.gamma ^ 2 * √(1 - s₀.gamma) ≠ 0 := by
    have h1 := hi.k01.1
    have h2 := sqrt_pos.2 (show 0 < 1 - s₀.gamma by linarith)
    positivity
  unfold smoothLimit
  rw [if_neg hne]
  exact_mod_cast h.trans_le (Nat.le_ceil _)

/-- The documented weak-learner assumption `½ Σ d_i |h(x_i) - y_i| ≤ ½ - γ` is the edge condition used
above. -/
theorem smooth_assumption_iff_edge (S : Examples X ℝ) (hpm : Spec.PmLabels S) (d : List ℝ)
    (hl : d.length = S.length) (hd : Spec.IsPosProb d) (g : X → ℝ) (hconf : ∀ e ∈ S, |g e.1| ≤ 1) (γ : ℝ) :
    1 / 2 * ((List.zip S d).map fun p => p.2 * |g p.1.1 - p.1.2|).sum ≤ 1 / 2 - γ ↔
      2 * γ ≤ Spec.edge S d g := by
  have key : ∀ (S : Examples X ℝ) (d : List ℝ), d.length = S.length → Spec.PmLabels S →
      (∀ e ∈ S, |g e.1| ≤ 1) →
      ((List.zip S d).map fun p => p.2 * |g p.1.1 - p.1.2|).sum = d.sum - Spec.edge S d g := by
    intro S
    induction S with
    | nil => intro d hl _ _; simp at hl; subst hl; simp [Spec.edge]
    | cons e S ih =>
      intro d hl hpm hc
      cases d with
      | nil => simp at hl
      | cons a d =>
        have := ih d (by simpa using hl) (fun e he => hpm e (by simp [he])) (fun e he => hc e (by simp [he]))
        simp only [Spec.edge] at this ⊢
        simp only [List.zip_cons_cons, List.map_cons, List.sum_cons, this]
        have hce := abs_le.1 (hc e (by simp))
        rcases hpm e (by simp) with h | h
        · rw [h, abs_of_nonpos (by linarith)]; ring
        · rw [h, abs_of_nonneg (by linarith)]; ring
  rw [key S d hl hpm hconf, hd.2]
  constructor <;> intro h <;> linarith

theorem replicate_zip_fst {α : Type*} (w : ℝ) (k : Nat) (l : List α) :
    (List.zip (List.replicate k w) l).map Prod.snd = l.take k := by
  induction k generalizing l with
  | zero => simp
  | succ k ih =>
    cases l with
    | nil => simp
    | cons a l => simp [List.replicate_succ, ih]

theorem replicate_zip_snd {α : Type*} (w : ℝ) (k : Nat) (l : List α) :
    (List.zip (List.replicate k w) l).map Prod.fst = List.replicate (min k l.length) w := by
  induction k generalizing l with
  | zero => simp
  | succ k ih =>
    cases l with
    | nil => simp
    | cons a l => simp [List.replicate_succ, ih, Nat.succ_min_succ]

/-- What the final construction makes of a state with a positive `terminated`: the uniform vote over the first
`m` hypotheses, where `m` is the number of training examples. -/
theorem smooth_postprocess (s : SmoothBoost H) (ht : 0 < s.terminated) (hn : 0 < s.nSample)
    (hh : s.hypotheses ≠ []) :
    SmoothBoost.postprocess s = .ok ⟨List.replicate (min s.nSample s.hypotheses.length)
      (1 / (min s.nSample s.hypotheses.length : Nat)), s.hypotheses.take s.nSample⟩ := by
  unfold SmoothBoost.postprocess
  rw [if_neg ht.ne']
  have hw : (0 : ℝ) < 1 / s.terminated := by
    have : (0 : ℝ) < s.terminated := by exact_mod_cast ht
    positivity
  have hkeep : (List.zip (List.replicate s.nSample (1 / (s.terminated : ℝ))) s.hypotheses).filter
      (fun p => decide (0 < p.1)) = List.zip (List.replicate s.nSample (1 / (s.terminated : ℝ))) s.hypotheses := by
    rw [List.filter_eq_self]
    intro p hp
    have := (List.of_mem_zip hp).1
    rw [List.eq_of_mem_replicate this]
    simpa using hw
  have hl : 0 < s.hypotheses.length := List.length_pos_iff.2 hh
  have hk : 0 < min s.nSample s.hypotheses.length := by omega
  simp only [WeightedMajority.fromSlices, hkeep, replicate_zip_fst, replicate_zip_snd, normalize]
  generalize min s.nSample s.hypotheses.length = k at hk ⊢
  have hk' : (0 : ℝ) < k := by exact_mod_cast hk
  simp only [List.map_replicate, List.sum_replicate, abs_of_pos hw, nsmul_eq_mul]
  rw [if_neg (by positivity)]
  simp only []
  congr 3
  field_simp

/-- C17, exact form: what a run returns is the uniform vote over the *first `m`* hypotheses obtained, `m`
being the number of training examples. -/
theorem smoothboost_output (S : Examples X ℝ) (s₀ : SmoothBoost H) (wl : WeakLearner ℝ H)
    (hlim : 0 < smoothLimit s₀) (n : Nat) (qs : List (List ℝ)) (s : SmoothBoost H)
    (hr : (SmoothBoost.booster S).Reachable wl s₀ n qs s) (out : BoostOut (SmoothBoost H) ℝ) (k : Nat)
    (hb : (SmoothBoost.booster S).boost s wl (n + 1) = .ok out) (hf : out.flow = .brk k) :
    0 < n ∧ s.hypotheses.length = n ∧
    (SmoothBoost.booster S).postprocess out.state = .ok
      ⟨List.replicate (min S.length n) (1 / (min S.length n : Nat)), s.hypotheses.take S.length⟩ := by
  have hi := inv_of_reachable hr
  have hm : 0 < S.length := List.length_pos_iff.2 hi.ne
  rw [smoothLimit_eq] at hlim
  have hns := hi.nSample
  have hhl := hi.hlen
  rcases smooth_break S s₀ wl _ _ _ hr with ⟨h1, h⟩ | ⟨h0, h1, _, h⟩ | ⟨h1, out', h, hc⟩
  · rw [h, Except.ok.injEq] at hb
    subst hb
    refine ⟨by omega, hhl, ?_⟩
    have := smooth_postprocess s (by rw [hi.term]; exact hlim) (by omega)
      (by rw [← List.length_pos_iff]; omega)
    rw [hns, hhl] at this
    exact this
  · rw [h, Except.ok.injEq] at hb
    subst hb
    refine ⟨h0, hhl, ?_⟩
    have := smooth_postprocess { s with current := n + 1, terminated := n } h0 (by simp only []; omega)
      (by rw [← List.length_pos_iff]; simp only []; omega)
    simp only [hhl] at this
    rw [hns] at this
    simp only [← hns] at this ⊢
    exact this
  · rw [h, Except.ok.injEq] at hb
    subst hb
    rw [hc] at hf; simp at hf

/-- C17, the part that holds: when at most `m` rounds were made, the result is the uniform vote over all the
hypotheses obtained.  Missing: runs of more than `m` rounds, for which the claim is false
(`smoothboost_drops_hypotheses`). -/
theorem smoothboost_output_all_partial (S : Examples X ℝ) (s₀ : SmoothBoost H) (wl : WeakLearner ℝ H)
    (hlim : 0 < smoothLimit s₀) (n : Nat) (qs : List (List ℝ)) (s : SmoothBoost H)
    (hr : (SmoothBoost.booster S).Reachable wl s₀ n qs s) (out : BoostOut (SmoothBoost H) ℝ) (k : Nat)
    (hb : (SmoothBoost.booster S).boost s wl (n + 1) = .ok out) (hf : out.flow = .brk k)
    (hn : n ≤ S.length) :
    (SmoothBoost.booster S).postprocess out.state = .ok ⟨List.replicate n (1 / n), s.hypotheses⟩ := by
  obtain ⟨h0, h1, h2⟩ := smoothboost_output S s₀ wl hlim n qs s hr out k hb hf
  rw [h2, min_eq_right hn, List.take_of_length_le (by omega)]

/-- C17, negation: after more than `m` rounds the result misses the hypotheses of the later rounds. -/
theorem smoothboost_drops_hypotheses (S : Examples X ℝ) (s₀ : SmoothBoost H) (wl : WeakLearner ℝ H)
    (hlim : 0 < smoothLimit s₀) (n : Nat) (qs : List (List ℝ)) (s : SmoothBoost H)
    (hr : (SmoothBoost.booster S).Reachable wl s₀ n qs s) (out : BoostOut (SmoothBoost H) ℝ) (k : Nat)
    (hb : (SmoothBoost.booster S).boost s wl (n + 1) = .ok out) (hf : out.flow = .brk k)
    (hn : S.length < n) :
    ∃ f, (SmoothBoost.booster S).postprocess out.state = .ok f ∧ f.hypotheses.length = S.length ∧
      f.hypotheses.length < s.hypotheses.length := by
  obtain ⟨h0, h1, h2⟩ := smoothboost_output S s₀ wl hlim n qs s hr out k hb hf
  refine ⟨_, h2, ?_, ?_⟩
  · simp only [List.length_take]; omega
  · simp only [List.length_take]; omega

theorem countP_mul_le {ι : Type*} (l : List ι) (p : ι → Bool) (f : ι → ℝ) (c : ℝ)
    (h0 : ∀ i ∈ l, 0 ≤ f i) (hp : ∀ i ∈ l, p i = true → c ≤ f i) : (l.countP p : ℝ) * c ≤ (l.map f).sum := by
  induction l with
  | nil => simp
  | cons a l ih =>
    have ih' := ih (fun i hi => h0 i (by simp [hi])) (fun i hi => hp i (by simp [hi]))
    simp only [List.countP_cons, List.map_cons, List.sum_cons]
    by_cases h : p a = true
    · rw [if_pos h]
      have := hp a (by simp) h
      push_cast; linarith
    · rw [if_neg h]
      have := h0 a (by simp)
      push_cast; linarith

/-- C16/C61, end to end: under the documented assumptions `run` terminates without panic before the iteration
limit, and -- provided at most `m` rounds were made, so that no hypothesis is dropped -- fewer than
`κ m / √(1-γ)` training examples have margin at most `θ = γ/(2+γ)` under the returned hypothesis.
(The paper's bound is `κ m`; the code starts its counters at 1 instead of 0, which costs the factor.) -/
theorem smoothboost_run_margin_partial (S : Examples X ℝ) (s₀ : SmoothBoost H) (wl : WeakLearner ℝ H)
    (hvalid : checkBinary S = .ok ()) (hpm : Spec.PmLabels S)
    (hconf : ∀ k d, ∀ e ∈ S, |conf (wl k d) e.1| ≤ 1)
    (hk0 : 0 < s₀.kappa) (hk1 : s₀.kappa < 1) (hg0 : 0 < s₀.gamma) (hg1 : s₀.gamma < 1 / 2)
    (hwl : ∀ k d, d.length = S.length → Spec.IsPosProb d →
      (∀ p ∈ d, p ≤ 1 / (s₀.kappa * S.length)) → 2 * s₀.gamma ≤ Spec.edge S d (conf (wl k d))) :
    ∃ f qs, (SmoothBoost.booster S).run wl (smoothLimit s₀ + 1) s₀ = some (.ok (f, qs)) ∧
      qs.length < smoothLimit s₀ ∧
      (qs.length ≤ S.length →
        (S.countP (fun e => decide (e.2 * conf f e.1 ≤ s₀.gamma / (2 + s₀.gamma))) : ℝ) <
          s₀.kappa * S.length / √(1 - s₀.gamma)) := by
  obtain ⟨r, hrun⟩ := (smoothboost_terminates S s₀ wl).1
  unfold Booster.run at hrun ⊢
  have hpre : ∃ s', (SmoothBoost.booster S).preprocess s₀ wl = .ok s' := by
    simp only [SmoothBoost.booster, SmoothBoost.preprocess, hvalid, checkPreconditions]
    rw [if_neg (by push Not; exact ⟨⟨hk0.le, hk1⟩, hk0⟩), if_neg (by
      push Not
      refine ⟨?_, hg1⟩
      rw [div_le_iff₀ (by linarith)]; nlinarith)]
    exact ⟨_, rfl⟩
  obtain ⟨s', hs'⟩ := hpre
  simp only [hs'] at hrun ⊢
  have hrounds := smoothboost_rounds S s₀ wl hpm hconf hg0 hwl
  cases hl : (SmoothBoost.booster S).loop wl (smoothLimit s₀ + 1) s' 1 with
  | none => simp [hl] at hrun
  | some r' =>
    rcases Booster.loop_spec _ wl s₀ (Booster.Reachable.start hs') hl with
      ⟨n', qs', s'', h1, h2, e, h3, h4⟩ | ⟨n', qs', s'', out, k, h1, h2, h3, h4, qs, h5, h6⟩
    · exfalso
      obtain ⟨out, h, _⟩ := (smoothboost_terminates S s₀ wl).2 n' qs' s'' h1
      rw [h] at h3; simp at h3
    · subst h6
      have hlt := (hrounds n' qs' s'' h1).2
      have hi := inv_of_reachable h1
      obtain ⟨hn0, hhl, hpost⟩ := smoothboost_output S s₀ wl (by omega) n' qs' s'' h1 out k h3 h4
      simp only [hpost]
      have hqs : qs = qs' := by
        rcases smooth_break S s₀ wl _ _ _ h1 with ⟨_, h⟩ | ⟨_, _, _, h⟩ | ⟨_, out', h, hc⟩
        · rw [h, Except.ok.injEq] at h3; subst h3; simpa using h5
        · rw [h, Except.ok.injEq] at h3; subst h3; simpa using h5
        · rw [h, Except.ok.injEq] at h3; subst h3; rw [hc] at h4; simp at h4
      refine ⟨_, qs, rfl, by rw [hqs, hi.qlen]; exact hlt, fun hle => ?_⟩
      rw [hqs, hi.qlen] at hle
      rw [min_eq_right hle, List.take_of_length_le (by omega)]
      have hσ := sqrt_pos.2 (show 0 < 1 - s₀.gamma by linarith)
      rw [lt_div_iff₀ hσ]
      -- the stopping condition
      have hsum : (S.map fun e => mu s₀.gamma (score s''.theta s''.hypotheses e)).sum <
          (S.length : ℝ) * s₀.kappa := by
        rcases smooth_break S s₀ wl _ _ _ h1 with ⟨h, _⟩ | ⟨_, _, h, _⟩ | ⟨_, out', h, hc⟩
        · rw [smoothLimit_eq] at hlt; omega
        · exact h
        · rw [h, Except.ok.injEq] at h3; subst h3; rw [hc] at h4; simp at h4
      have hn1 : (0 : ℝ) < n' := by exact_mod_cast hn0
      have hvote : ∀ x : X, conf (⟨List.replicate n' (1 / (n' : ℝ)), s''.hypotheses⟩ :
          WeightedMajority ℝ H) x = (s''.hypotheses.map fun h => conf h x).sum / n' := by
        intro x
        have hgen : ∀ (l : List H) (w : ℝ), ((List.zip (List.replicate l.length w) l).map
            fun p => p.1 * conf p.2 x).sum = w * (l.map fun h => conf h x).sum := by
          intro l w
          induction l with
          | nil => simp
          | cons a l ih => simp only [List.length_cons, List.replicate_succ, List.zip_cons_cons,
              List.map_cons, List.sum_cons, ih]; ring
        rw [conf_weightedMajority]
        simp only [Spec.vote]
        have := hgen s''.hypotheses (1 / (n' : ℝ))
        rw [hhl] at this
        rw [this]; ring
      refine lt_of_le_of_lt (countP_mul_le S _ (fun e => mu s₀.gamma (score s''.theta s''.hypotheses e))
        (√(1 - s₀.gamma)) (fun e _ => (mu_pos (by linarith) _).le) ?_) (by linarith)
      intro e _ he
      apply mu_ge hg0.le (by linarith)
      simp only [decide_eq_true_eq, hvote] at he
      rw [← mul_div_assoc, div_le_iff₀ hn1] at he
      unfold score
      rw [hhl, hi.theta]
      linarith

/-- C61, negation for a default-constructed SmoothBoost: `SmoothBoost::init(&sample)` leaves `gamma = 0.5`, which
the precondition check rejects, so running it without calling `gamma(..)` panics on every sample. -/
theorem smoothboost_default_panics (S : Examples X ℝ) (kappa : ℝ) (wl : WeakLearner ℝ H) (fuel : Nat) :
    ∃ e, (SmoothBoost.booster S).run wl fuel ((SmoothBoost.init S).setTolerance kappa) = some (.error e) := by
  have hpre : ∃ e, (SmoothBoost.booster S).preprocess
      ((SmoothBoost.init S : SmoothBoost H).setTolerance kappa) wl = .error e := by
    simp only [SmoothBoost.booster, SmoothBoost.preprocess, SmoothBoost.init, SmoothBoost.setTolerance]
    cases checkBinary S with
    | error e => exact ⟨e, rfl⟩
    | ok u =>
      simp only [checkPreconditions]
      by_cases h1 : ¬ (0 ≤ kappa ∧ kappa < 1) ∨ kappa ≤ 0
      · rw [if_pos h1]; exact ⟨_, rfl⟩
      · rw [if_neg h1, if_pos (by norm_num)]; exact ⟨_, rfl⟩
  obtain ⟨e, he⟩ := hpre
  unfold Booster.run
  rw [he]
  exact ⟨e, rfl⟩

/-- The values of `kappa` and `gamma` with which a run on a valid sample gets through preprocessing. -/
theorem smoothboost_preprocess_ok_iff (S : Examples X ℝ) (s₀ : SmoothBoost H) (hg0 : 0 ≤ s₀.gamma)
    (wl : WeakLearner ℝ H) (hvalid : checkBinary S = .ok ()) :
    (∃ s, (SmoothBoost.booster S).preprocess s₀ wl = .ok s) ↔
      (0 < s₀.kappa ∧ s₀.kappa < 1) ∧ s₀.gamma < 1 / 2 := by
  simp only [SmoothBoost.booster, SmoothBoost.preprocess, hvalid, checkPreconditions]
  have hθ : s₀.gamma / (2 + s₀.gamma) ≤ s₀.gamma := by
    rw [div_le_iff₀ (by linarith)]; nlinarith
  constructor
  · rintro ⟨s, hs⟩
    by_cases h1 : ¬ (0 ≤ s₀.kappa ∧ s₀.kappa < 1) ∨ s₀.kappa ≤ 0
    · rw [if_pos h1] at hs; simp at hs
    rw [if_neg h1] at hs
    by_cases h2 : ¬ (s₀.gamma / (2 + s₀.gamma) ≤ s₀.gamma ∧ s₀.gamma < 1 / 2)
    · rw [if_pos h2] at hs; simp at hs
    push Not at h1 h2
    exact ⟨⟨h1.2, h1.1.2⟩, h2.2⟩
  · rintro ⟨⟨h1, h2⟩, h3⟩
    rw [if_neg (by push Not; exact ⟨⟨h1.le, h2⟩, h1⟩), if_neg (by push Not; exact ⟨hθ, h3⟩)]
    exact ⟨_, rfl⟩

/-- C52 for SmoothBoost: the result of `run` depends only on the sample, the weak learner, `kappa` and
`gamma`. -/
theorem smoothboost_run_history_independent (S : Examples X ℝ) (s t : SmoothBoost H)
    (hk : s.kappa = t.kappa) (hg : s.gamma = t.gamma) (wl : WeakLearner ℝ H) (fuel : Nat) :
    (SmoothBoost.booster S).run wl fuel s = (SmoothBoost.booster S).run wl fuel t := by
  have hpre : (SmoothBoost.booster S).preprocess s wl = (SmoothBoost.booster S).preprocess t wl := by
    simp only [SmoothBoost.booster, SmoothBoost.preprocess, checkPreconditions, hk, hg, maxLoop]
  unfold Booster.run
  rw [hpre]

section nonvacuity

/-- SmoothBoost with `κ = 1/2`, `γ = 1/4`. -/
noncomputable def exSmooth : SmoothBoost (Fn Nat ℝ) :=
  { (SmoothBoost.init exSample : SmoothBoost (Fn Nat ℝ)) with gamma := 1 / 4 }

/-- It is what the API builds. -/
example : (SmoothBoost.init exSample : SmoothBoost (Fn Nat ℝ)).setGamma (1 / 4) = .ok exSmooth := by
  unfold SmoothBoost.setGamma; rw [if_pos (by norm_num)]; rfl

/-- The end-to-end theorem applies to a run with the half-confident learner (edge exactly `2γ = 1/2`). -/
example : ∃ f qs, (SmoothBoost.booster exSample).run exLearner (smoothLimit exSmooth + 1) exSmooth =
    some (.ok (f, qs)) ∧ qs.length < smoothLimit exSmooth := by
  obtain ⟨f, qs, h1, h2, _⟩ := smoothboost_run_margin_partial exSample exSmooth exLearner exSample_valid
    (by intro e he; simp [exSample] at he; rcases he with rfl | rfl <;> simp)
    (by
      intro k d e he
      simp [exSample] at he
      rcases he with rfl | rfl
      · simp only [exLearner, conf, if_true]; rw [abs_of_pos] <;> norm_num
      · simp only [exLearner, conf]; norm_num [abs_of_neg])
    (by norm_num [exSmooth, SmoothBoost.init]) (by norm_num [exSmooth, SmoothBoost.init])
    (by norm_num [exSmooth]) (by norm_num [exSmooth])
    (by intro k d hl hd _; rw [exLearner_edge k d hl hd]; norm_num [exSmooth])
  exact ⟨f, qs, h1, h2⟩

/-- A learner that abstains. -/
noncomputable def exZero : WeakLearner ℝ (Fn Nat ℝ) := fun _ _ => ⟨fun _ => 0⟩

/-- With the abstaining learner SmoothBoost runs to its iteration limit, far beyond the two examples: the
hypotheses of `smoothboost_drops_hypotheses` are met. -/
theorem smoothboost_long_run (n : Nat) (hn : n ≤ smoothLimit exSmooth) :
    ∃ qs s, (SmoothBoost.booster exSample).Reachable exZero exSmooth n qs s ∧
      ∀ h ∈ s.hypotheses, h = ⟨fun _ => 0⟩ := by
  induction n with
  | zero =>
    obtain ⟨s, hs⟩ := (smoothboost_preprocess_ok_iff exSample exSmooth (by norm_num [exSmooth]) exZero
      exSample_valid).2 (by norm_num [exSmooth, SmoothBoost.init])
    have hr := Booster.Reachable.start hs
    have hi := inv_of_reachable hr
    have : s.hypotheses = [] := List.length_eq_zero_iff.1 hi.hlen
    exact ⟨_, _, hr, by rw [this]; simp⟩
  | succ n ih =>
    obtain ⟨qs, s, hr, hz⟩ := ih (by omega)
    have hi := inv_of_reachable hr
    rcases smooth_break exSample exSmooth exZero _ _ _ hr with ⟨h1, _⟩ | ⟨h0, h1, h2, _⟩ | ⟨h1, out, h, hf⟩
    · rw [smoothLimit_eq] at hn; omega
    · exfalso
      have hs : ∀ e ∈ exSample, √(1 - exSmooth.gamma) ≤ mu exSmooth.gamma (score s.theta s.hypotheses e) := by
        intro e _
        apply mu_ge (by norm_num [exSmooth]) (by norm_num [exSmooth])
        unfold score
        have : (s.hypotheses.map fun h => conf h e.1).sum = (0 : ℝ) := by
          have : (s.hypotheses.map fun h => conf h e.1) = s.hypotheses.map fun _ => (0 : ℝ) := by
            apply List.map_congr_left
            intro h hh
            rw [hz h hh]; rfl
          rw [this]; simp
        rw [this, hi.theta]
        have h3 : 0 ≤ (s.hypotheses.length : ℝ) * (exSmooth.gamma / (2 + exSmooth.gamma)) := by
          have : 0 ≤ exSmooth.gamma / (2 + exSmooth.gamma) := by norm_num [exSmooth]
          positivity
        linarith
      have := sum_map_le exSample (fun _ => √(1 - exSmooth.gamma)) _ hs
      rw [sum_map_const'] at this
      have h4 : (1 / 2 : ℝ) < √(1 - exSmooth.gamma) := by
        rw [lt_sqrt (by norm_num)]; norm_num [exSmooth]
      have h5 : exSmooth.kappa = 1 / 2 := rfl
      have h6 : (exSample.length : ℝ) = 2 := by norm_num [exSample]
      rw [h6] at this h2
      rw [h5] at h2
      linarith
    · refine ⟨_, _, Booster.Reachable.step hr h hf, ?_⟩
      obtain ⟨_, _, hout⟩ := boost_cont hi.mm hi.nn h hf
      rw [hout]
      intro h hh
      rcases List.mem_append.1 hh with h' | h'
      · exact hz h h'
      · simp only [List.mem_singleton] at h'; rw [h']; rfl

/-- C17 fails concretely: two examples, more than two rounds, and the later hypotheses are dropped. -/
theorem smoothboost_drops_hypotheses_witness :
    ∃ (n : Nat) (qs : List (List ℝ)) (s : SmoothBoost (Fn Nat ℝ)) (out : BoostOut (SmoothBoost (Fn Nat ℝ)) ℝ)
      (f : WeightedMajority ℝ (Fn Nat ℝ)),
      (SmoothBoost.booster exSample).Reachable exZero exSmooth n qs s ∧ 2 < n ∧
      (SmoothBoost.booster exSample).boost s exZero (n + 1) = .ok out ∧
      (SmoothBoost.booster exSample).postprocess out.state = .ok f ∧
      s.hypotheses.length = n ∧ f.hypotheses.length = 2 := by
  have hlim : 2 < smoothLimit exSmooth := by
    unfold smoothLimit
    have hg : exSmooth.gamma = 1 / 4 := rfl
    have hk : exSmooth.kappa = 1 / 2 := rfl
    rw [hg, hk]
    have h1 : 0 < √(1 - 1 / 4 : ℝ) := sqrt_pos.2 (by norm_num)
    have h2 : √(1 - 1 / 4 : ℝ) ≤ 1 := by rw [sqrt_le_one]; norm_num
    rw [if_neg (by positivity), Nat.lt_ceil, lt_div_iff₀ (by positivity)]
    push_cast
    nlinarith
  obtain ⟨qs, s, hr, _⟩ := smoothboost_long_run (smoothLimit exSmooth) le_rfl
  have hi := inv_of_reachable hr
  rcases smooth_break exSample exSmooth exZero _ _ _ hr with ⟨_, h⟩ | ⟨_, h, _⟩ | ⟨h, _⟩
  · obtain ⟨f, hf, h1, _⟩ := smoothboost_drops_hypotheses exSample exSmooth exZero (by omega) _ qs s hr _ _ h
      rfl (by simp only [exSample, List.length_cons, List.length_nil]; omega)
    exact ⟨_, qs, s, _, f, hr, hlim, h, hf, hi.hlen, h1⟩
  · rw [smoothLimit_eq] at h; omega
  · rw [smoothLimit_eq] at h; omega

end nonvacuity

end Miniboosts.Props
