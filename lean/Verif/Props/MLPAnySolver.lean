import Verif.Lemmas.MLPAnySolver
import Verif.Props.MLPBoost
import Verif.Props.Hypothesis

/-! # MLPBoost with an arbitrary solver (C115) -/

namespace Miniboosts.Props

open Real MLPBoost

variable {H X : Type*} [Classifier H X ℝ] [BEq H]

/-- What the theorems assume besides `MlpOk`: the tolerance is at least `2·10⁻⁵`, and all margins of the hypotheses of
the weak learner are between -1 and 1. -/
structure MlpNear (S : Examples X ℝ) (s₀ : MLPBoost H) (wl : WeakLearner ℝ H) : Prop extends MlpOk S s₀ where
  tol5 : 1 / 100000 ≤ s₀.halfTolerance
  bound : ∀ k d, ∀ e ∈ S, |e.2 * conf (wl k d) e.1| ≤ (1 : ℝ)

section
variable {S : Examples X ℝ} {s₀ : MLPBoost H} {solver : Solver ℝ} {noise : Nat → Nat → ℝ} {wl : WeakLearner ℝ H}

theorem near_inv (ok : MlpNear S s₀ wl) (hsolver : solver.Shaped) {n : Nat} {qs : List (List ℝ)} {s : MLPBoost H}
    (hr : (MLPBoost.booster solver noise S).Reachable wl s₀ n qs s) :
    NearInv S s₀ wl n qs s ∧ (∀ h ∈ s.hypotheses, ∃ k d, h = wl k d) ∧ ∀ d ∈ qs, d.length = S.length ∧
      Spec.IsCapped s₀.nu d := by
  induction hr with
  | start h =>
    have hi := nearInv_start (wl := wl) h
    exact ⟨hi, by rw [hi.zero rfl]; simp, by simp⟩
  | @step n qs s₁ out hr hb hf ih =>
    obtain ⟨hi, hm, hqs⟩ := ih
    have hq : ∀ d, IsExpDist s₁.eta s₀.nu S (weightedConf s₁.weights s₁.hypotheses) d → ∀ q ∈ qs ++ [d],
        q.length = S.length ∧ Spec.IsCapped s₀.nu q := by
      intro d hd q hq
      rcases List.mem_append.1 hq with h | h
      · exact hqs q h
      · simp at h; subst h
        obtain ⟨h1, h2, -, -, -⟩ := hd.capped
        exact ⟨h1, h2⟩
    have hb' : boost solver noise S s₁ wl (n + 1) = .ok out := hb
    rcases boost_cases_near hi hsolver noise ok.strategy ok.tol5 ok.one_le_nu ok.nu_le ok.beq ok.bound with
      ⟨_, h⟩ | ⟨d, -, -, hd, ⟨_, s', h, hi', -, hh, -⟩ | ⟨_, _, s', h, -⟩ | ⟨_, _, h⟩ | ⟨_, _, s', h, hi', -, hm', -⟩⟩ <;>
      rw [hb'] at h <;> (first | (cases h; done) | (rw [Except.ok.injEq] at h; subst h))
    · simp at hf
    · refine ⟨hi', ?_, hq d hd⟩
      intro k hk
      simp only [hh, List.mem_singleton] at hk
      exact ⟨_, _, hk⟩
    · simp at hf
    · refine ⟨hi', ?_, hq d hd⟩
      intro k hk
      rcases hm' k hk with h1 | h1
      · exact hm k h1
      · exact ⟨_, _, h1⟩

omit [BEq H] in
theorem near_conf_le {w : List ℝ} {hs : List H} {δ : ℝ} (hw : (∀ p ∈ w, 0 ≤ p) ∧ |w.sum - 1| ≤ δ)
    (e : X × ℝ) (hb : ∀ h ∈ hs, |e.2 * conf h e.1| ≤ (1 : ℝ)) : |e.2 * weightedConf w hs e.1| ≤ 1 + δ := by
  have key : ∀ (w : List ℝ) (hs : List H), (∀ p ∈ w, 0 ≤ p) → (∀ h ∈ hs, |e.2 * conf h e.1| ≤ (1 : ℝ)) →
      |e.2 * weightedConf w hs e.1| ≤ w.sum := by
    intro w
    induction w with
    | nil => intro hs _ _; simp [weightedConf]
    | cons a w ih =>
      intro hs hw hb
      match hs with
      | [] =>
        simp only [weightedConf, List.zipWith_nil_right, List.sum_nil, mul_zero, abs_zero]
        exact List.sum_nonneg hw
      | h :: hs =>
        have h1 := ih hs (fun p hp => hw p (List.mem_cons_of_mem _ hp)) (fun k hk => hb k (List.mem_cons_of_mem _ hk))
        have h2 := hb h (by simp)
        have h3 := hw a (by simp)
        have h4 : e.2 * weightedConf (a :: w) (h :: hs) e.1 = a * (e.2 * conf h e.1) + e.2 * weightedConf w hs e.1 := by
          simp [weightedConf]; ring
        rw [h4, List.sum_cons]
        refine (abs_add_le _ _).trans ?_
        rw [abs_mul, abs_of_nonneg h3]
        have := mul_le_mul_of_nonneg_left h2 h3
        linarith
  have h1 := key w hs hw.1 hb
  have h2 := (abs_le.1 hw.2).2
  linarith

/-- The convergence invariant with an arbitrary solver. -/
theorem near_gap (ok : MlpNear S s₀ wl) (hsolver : solver.Shaped) {ρ : ℝ}
    (hwl : ∀ k d, d.length = S.length → Spec.IsCapped s₀.nu d → ρ ≤ Spec.edge S d (conf (wl k d)))
    {n : Nat} {qs : List (List ℝ)} {s : MLPBoost H}
    (hr : (MLPBoost.booster solver noise S).Reachable wl s₀ n qs s) (hn : 1 ≤ n) (e : List ℝ)
    (he : IsExpDist s.eta s₀.nu S (weightedConf s.weights s.hypotheses) e) :
    s.eta * ρ - pot s.eta S (weightedConf s.weights s.hypotheses) e ≤
      2 * (2 + 1 / 100000) ^ 2 * s.eta ^ 2 / ((n : ℝ) + 2) := by
  induction hr generalizing e with
  | start _ => omega
  | @step n qs s₁ out hr hb hf ih =>
    obtain ⟨hi, hm, hqs⟩ := near_inv ok hsolver hr
    have hb' : boost solver noise S s₁ wl (n + 1) = .ok out := hb
    rcases boost_cases_near hi hsolver noise ok.strategy ok.tol5 ok.one_le_nu ok.nu_le ok.beq ok.bound with
      ⟨_, h⟩ | ⟨d, -, hpos, hd, ⟨hn0, s', h, hi', heta, hh, hw⟩ | ⟨_, _, s', h, -⟩ | ⟨_, _, h⟩ |
        ⟨hn1, hg, s', h, hi', heta, hm', prim, hprim, σ, c, h0, h1, hF, hc, hqual⟩⟩ <;>
      rw [hb'] at h <;> (first | (cases h; done) | (rw [Except.ok.injEq] at h; subst h))
    · simp at hf
    · simp only [] at he ⊢
      rw [heta] at he ⊢
      obtain ⟨hdl, hdc, hdp, -, -⟩ := hd.capped
      subst hn0
      have hz : ∀ x : X, weightedConf s₁.weights s₁.hypotheses x = (0 : ℝ) := by
        intro x; rw [hi.zero rfl]; simp [weightedConf]
      refine fw_gap_near (σ := 1) (c := 2 + 1 / 100000) (g := conf (wl 1 d)) (n := 0) hpos.le hd he zero_le_one ?_ ?_ ?_
        (hwl 1 d hdl hdc) (by omega)
      · intro p _
        rw [hh, hw]
        simp [weightedConf]
      · intro p hp
        rw [hz, mul_zero, sub_zero]
        linarith [ok.bound 1 d p hp]
      · apply le_of_eq; norm_num; ring
    · simp at hf
    · simp only [] at he ⊢
      rw [heta] at he ⊢
      obtain ⟨hdl, hdc, hdp, -, -⟩ := hd.capped
      have h2 : ∀ p ∈ S, |p.2 * conf (wl (n + 1) d) p.1 - p.2 * weightedConf s₁.weights s₁.hypotheses p.1| ≤
          (2 + 1 / 100000 : ℝ) := by
        intro p hp
        have h3 := ok.bound (n + 1) d p hp
        have h4 := near_conf_le (hi.near hn1) p (fun k hk => by
          obtain ⟨j, d', rfl⟩ := hm k hk; exact ok.bound j d' p hp)
        refine (abs_sub _ _).trans ?_
        linarith
      obtain ⟨e1, he1⟩ := exists_expDist s₁.eta s₀.nu S (weightedConf prim s'.hypotheses) ok.one_le_nu ok.nu_le
      have hstep := fw_gap_near (n := n) hpos.le hd he1 h0 hF hc (hqual h2) (hwl (n + 1) d hdl hdc) (fun h => ih h d hd)
      have := hprim e e1 he he1
      linarith

end

omit [BEq H] in
/-- Normalising weights whose total is close to 1. -/
theorem fromSlices_near_total {w : List ℝ} {hs : List H} (hl : w.length = hs.length) {δ : ℝ} (hδ : δ < 1)
    (hw : (∀ p ∈ w, 0 ≤ p) ∧ |w.sum - 1| ≤ δ) :
    ∃ f, WeightedMajority.fromSlices w hs = .ok f ∧ Spec.IsProb f.weights ∧ 0 < w.sum ∧
      (∀ x : X, w.sum * conf f x = weightedConf w hs x) ∧
      ∀ e : X × ℝ, (∀ h ∈ hs, |e.2 * conf h e.1| ≤ (1 : ℝ)) → |e.2 * conf f e.1| ≤ (1 : ℝ) := by
  have hpos : 0 < w.sum := by have := (abs_le.1 hw.2).1; linarith
  have hp : Spec.IsProb (w.map fun p => p / w.sum) := by
    constructor
    · intro p hp
      obtain ⟨q, hq, rfl⟩ := List.mem_map.1 hp
      exact div_nonneg (hw.1 q hq) hpos.le
    · rw [show (fun p : ℝ => p / w.sum) = (fun p => p * (w.sum)⁻¹) from funext fun p => div_eq_mul_inv _ _,
        List.sum_map_mul_right, List.map_id']
      exact mul_inv_cancel₀ hpos.ne'
  obtain ⟨f, h1, h2, h3⟩ := fromSlices_prob (X := X) (w.map fun p => p / w.sum) hs (by simpa using hl) hp
  refine ⟨f, ?_, h3, hpos, fun x => ?_, fun e hb => ?_⟩
  · rw [← h1, ← fromSlices_scale w hs (w.sum)⁻¹ (inv_pos.2 hpos)]
    simp [div_eq_inv_mul]
  · rw [h2]
    unfold weightedConf
    rw [List.zipWith_map_left]
    have key : ∀ (W : ℝ) (_ : 0 < W) (w : List ℝ) (hs : List H),
        W * (List.zipWith (fun a b => a / W * conf b x) w hs).sum = (List.zipWith (fun w h => w * conf h x) w hs).sum := by
      intro W hW w
      induction w with
      | nil => intro hs; simp
      | cons a w ih =>
        intro hs
        match hs with
        | [] => simp
        | h :: hs =>
          simp only [List.zipWith_cons_cons, List.sum_cons, mul_add, ih]
          congr 1
          field_simp
    exact key _ hpos w hs
  · rw [h2]
    have := near_conf_le (δ := 0) ⟨hp.1, by rw [hp.2]; simp⟩ e hb
    simpa using this

/-- C115, the guarantee does not depend on the solver: whatever vectors (of the right lengths) the solver returns, if
training with MLPBoost returns a vote, then its weights are a probability vector and its edge is at least
`ρ - tolerance·(1 + 10⁻⁵) - 10⁻⁵` under every distribution capped at `1/ν`. -/
theorem mlp_any_solver_margin (S : Examples X ℝ) (s₀ : MLPBoost H) (solver : Solver ℝ) (hsolver : solver.Shaped)
    (noise : Nat → Nat → ℝ) (wl : WeakLearner ℝ H) (ok : MlpNear S s₀ wl) (ρ : ℝ)
    (hwl : ∀ k d, d.length = S.length → Spec.IsCapped s₀.nu d → ρ ≤ Spec.edge S d (conf (wl k d)))
    (fuel : Nat) (f : WeightedMajority ℝ H) (qs : List (List ℝ))
    (hrun : (MLPBoost.booster solver noise S).run wl fuel s₀ = some (.ok (f, qs))) :
    Spec.SoftMarginGe S s₀.nu (conf f) (ρ - 2 * s₀.halfTolerance * (1 + 1 / 100000) - 1 / 100000) ∧
      Spec.IsProb f.weights := by
  obtain ⟨n, qs', s, out, k, hr, -, hb, hf, -, hpost⟩ := (MLPBoost.booster solver noise S).run_spec wl s₀ hrun
  obtain ⟨hi, hmem, hqs⟩ := near_inv ok hsolver hr
  set ε := s₀.halfTolerance with hε
  have hεpos : 0 < ε := ok.tol
  obtain ⟨e, he⟩ := exists_expDist s.eta s₀.nu S (weightedConf s.weights s.hypotheses) ok.one_le_nu ok.nu_le
  have hcases := boost_cases_near hi hsolver noise ok.strategy ok.tol5 ok.one_le_nu ok.nu_le ok.beq ok.bound
  have hb' : boost solver noise S s wl (n + 1) = .ok out := hb
  have hsame : out.state.weights = s.weights ∧ out.state.hypotheses = s.hypotheses := by
    rcases hcases with
      ⟨_, h⟩ | ⟨d, -, -, hd, ⟨_, s', h, -⟩ | ⟨_, _, s', h, h2⟩ | ⟨_, _, h⟩ | ⟨_, _, s', h, -⟩⟩ <;>
      rw [hb'] at h <;> (first | (cases h; done) | (rw [Except.ok.injEq] at h; subst h))
    · simp
    · simp at hf
    · exact h2
    · simp at hf
  have hpost' : WeightedMajority.fromSlices s.weights s.hypotheses = .ok f := by
    have : WeightedMajority.fromSlices out.state.weights out.state.hypotheses = .ok f := hpost
    rwa [hsame.1, hsame.2] at this
  have hn : 1 ≤ n := by
    by_contra h0
    have h1 := hi.len
    rw [hi.zero (by omega)] at h1 hpost'
    rw [List.length_eq_zero_iff.1 h1] at hpost'
    rcases fromSlices_cases (K := ℝ) [] ([] : List H) with ⟨_, h2⟩ | ⟨h1, _⟩
    · rw [h2] at hpost'; simp at hpost'
    · simp at h1
  obtain ⟨f', hf', hfp, hWpos, hfc, hfle⟩ := fromSlices_near_total (X := X) hi.len (by norm_num) (hi.near hn)
  rw [hf', Except.ok.injEq] at hpost'
  subst hpost'
  refine ⟨?_, hfp⟩
  intro d hdl hd
  have hpl := pot_le_edge he hdl hd
  set F := weightedConf (X := X) s.weights s.hypotheses with hFdef
  set L := log ((S.length : ℝ) / s₀.nu) with hL
  have hηL : s.eta * ε = L := by rw [hi.eta]; exact div_mul_cancel₀ _ hεpos.ne'
  have hmaxpos : 0 < s.maxIter := by have := hi.le; omega
  have hLpos : 0 < L := by
    by_contra h0
    have : s.maxIter = 0 := by
      rw [hi.maxIter, Nat.ceil_eq_zero]
      apply div_nonpos_of_nonpos_of_nonneg
      · rw [← hL]; linarith
      · positivity
    omega
  have hηpos : 0 < s.eta := by
    by_contra h0
    have := mul_nonpos_of_nonpos_of_nonneg (not_lt.1 h0) hεpos.le
    linarith
  have hdprob : Spec.IsProb d := ⟨fun p hp => (hd.1 p hp).1, hd.2⟩
  have hρ1 : ρ ≤ 1 :=
    (hwl 1 d hdl hd).trans ((le_abs_self _).trans (specEdge_abs_le S d hdl hdprob _ (ok.bound 1 d)))
  have hpot : s.eta * (ρ - ε * (1 + 2 / 100000)) ≤ pot s.eta S F e := by
    rcases hcases with
      ⟨h0, h⟩ | ⟨d', -, -, hd', ⟨_, s', h, -⟩ | ⟨_, hg, s', h, -⟩ | ⟨_, _, h⟩ | ⟨_, _, s', h, -⟩⟩ <;>
      rw [hb'] at h <;> (first | (cases h; done) | (rw [Except.ok.injEq] at h; subst h))
    · have hgap := near_gap ok hsolver hwl hr hn e he
      have hnn : 8 * L / ε ^ 2 ≤ (n : ℝ) := by
        rw [← h0, hi.maxIter]; exact Nat.le_ceil _
      have h1 : 2 * (2 + 1 / 100000) ^ 2 * s.eta ^ 2 / ((n : ℝ) + 2) ≤ s.eta * (ε * (1 + 2 / 100000)) := by
        rw [div_le_iff₀ (by positivity)]
        rw [div_le_iff₀ (by positivity)] at hnn
        rw [← hηL] at hnn
        have h2 : 8 * s.eta ≤ n * ε := by
          have : ε * (8 * s.eta) ≤ ε * (n * ε) := by linarith
          exact le_of_mul_le_mul_left this hεpos
        have h3 : 8 * s.eta ≤ ((n : ℝ) + 2) * ε := by linarith
        have h4 := mul_le_mul_of_nonneg_left h3 hηpos.le
        have h5 : 0 < s.eta * (((n : ℝ) + 2) * ε) := by positivity
        nlinarith
      linarith
    · simp at hf
    · have hu : d' = e := by
        have h1 : projectCapped _ _ = .ok d' := hd'
        have h2 : projectCapped _ _ = .ok e := he
        rw [h1, Except.ok.injEq] at h2; exact h2
      subst hu
      obtain ⟨h1, h2, -⟩ := hd'.capped
      have h3 : ρ ≤ bestEdge S wl (qs' ++ [d']) := by
        apply bestEdge_ge hρ1
        intro j q hq
        rcases List.mem_append.1 hq with h | h
        · obtain ⟨a, b⟩ := hqs q h
          exact hwl j q a b
        · simp at h; subst h; exact hwl j q h1 h2
      have h4 : ρ - ε ≤ pot s.eta S F d' / s.eta := by linarith
      rw [le_div_iff₀ hηpos] at h4
      have : 0 < s.eta * ε := by positivity
      linarith
    · simp at hf
  have hF : ρ - 2 * ε * (1 + 1 / 100000) ≤ Spec.edge S d F := by
    have : s.eta * (ρ - 2 * ε * (1 + 1 / 100000)) ≤ s.eta * Spec.edge S d F := by
      have : s.eta * (ρ - 2 * ε * (1 + 1 / 100000)) = s.eta * (ρ - ε * (1 + 2 / 100000)) - L := by rw [← hηL]; ring
      linarith
    exact le_of_mul_le_mul_left this hηpos
  have hfF : Spec.edge S d F = s.weights.sum * Spec.edge S d (conf f') := by
    rw [specEdge_congr d (G := fun x => s.weights.sum * conf f' x + 0 * conf f' x) (fun p _ => by rw [hfc]; ring)]
    rw [edge_sub]; ring
  have hfb : |Spec.edge S d (conf f')| ≤ 1 := by
    apply specEdge_abs_le S d hdl hdprob
    intro p hp
    exact hfle p fun h hh => by
      obtain ⟨j, d', rfl⟩ := hmem h hh; exact ok.bound j d' p hp
  have hW := (hi.near hn).2
  have h5 : |(s.weights.sum - 1) * Spec.edge S d (conf f')| ≤ 1 / 100000 := by
    rw [abs_mul]
    calc |s.weights.sum - 1| * |Spec.edge S d (conf f')| ≤ |s.weights.sum - 1| * 1 :=
          mul_le_mul_of_nonneg_left hfb (abs_nonneg _)
      _ ≤ 1 / 100000 := by rw [mul_one]; exact hW
  have := (abs_le.1 h5).2
  linarith

/-- C115, the possible outcomes: whatever vectors (of the right lengths) the solver returns, training either returns a
vote after at most `⌈8 ln(m/ν)/(tolerance/2)²⌉` calls of the weak learner, all with distributions capped at `1/ν`, or
panics at the check of the weights. -/
theorem mlp_any_solver_outcome (S : Examples X ℝ) (s₀ : MLPBoost H) (solver : Solver ℝ) (hsolver : solver.Shaped)
    (noise : Nat → Nat → ℝ) (wl : WeakLearner ℝ H) (ok : MlpNear S s₀ wl) (hvalid : checkBinary S = .ok ())
    (hnu : s₀.nu < S.length) :
    (MLPBoost.booster solver noise S).run wl (mlpLimit S s₀ + 1) s₀ = some (.error .assertion) ∨
    ∃ f qs, (MLPBoost.booster solver noise S).run wl (mlpLimit S s₀ + 1) s₀ = some (.ok (f, qs)) ∧
      qs.length ≤ mlpLimit S s₀ ∧ ∀ d ∈ qs, d.length = S.length ∧ Spec.IsCapped s₀.nu d := by
  have hpos : 0 < mlpLimit S s₀ := by
    unfold mlpLimit
    rw [Nat.ceil_pos]
    apply div_pos _ (by have := ok.tol; positivity)
    have : 0 < log ((S.length : ℝ) / s₀.nu) := by
      apply log_pos
      rw [lt_div_iff₀ (by linarith [ok.one_le_nu]), one_mul]; exact hnu
    linarith
  obtain ⟨r, hr⟩ := (MLPBoost.booster solver noise S).run_terminates wl s₀ (mlpLimit S s₀) (by
    intro qs s out hr hb
    obtain ⟨hi, -, -⟩ := near_inv ok hsolver hr
    have hb' : boost solver noise S s wl (mlpLimit S s₀ + 1) = .ok out := hb
    have hlim : s.maxIter = mlpLimit S s₀ := hi.maxIter
    rcases boost_cases_near hi hsolver noise ok.strategy ok.tol5 ok.one_le_nu ok.nu_le ok.beq ok.bound with
      ⟨_, h⟩ | ⟨d, h0, -⟩
    · rw [hb', Except.ok.injEq] at h; subst h; simp
    · omega)
  have hpre : ∃ s, (MLPBoost.booster solver noise S).preprocess s₀ wl = .ok s := by
    show ∃ s, preprocess S s₀ = .ok s
    unfold preprocess
    rw [hvalid]
    simp only []
    rw [if_neg ok.tol.ne']
    exact ⟨_, rfl⟩
  obtain ⟨s, hs⟩ := hpre
  have hr' := hr
  unfold Booster.run at hr
  rw [hs] at hr
  simp only [] at hr
  cases hl : (MLPBoost.booster solver noise S).loop wl (mlpLimit S s₀ + 1) s 1 with
  | none => rw [hl] at hr; simp at hr
  | some x =>
    rw [hl] at hr
    have hstart : (MLPBoost.booster solver noise S).Reachable wl s₀ 0 [] s := .start hs
    rcases (MLPBoost.booster solver noise S).loop_spec wl s₀ hstart hl with
      ⟨n, qs, s', h1, -, e, h2, h3⟩ | ⟨n, qs, s', out, k, h1, h2, h3, h4, qs', h5, h6⟩
    · left
      obtain ⟨hi, -, -⟩ := near_inv ok hsolver h1
      have hb' : boost solver noise S s' wl (n + 1) = .error e := h2
      have he : e = .assertion := by
        rcases boost_cases_near hi hsolver noise ok.strategy ok.tol5 ok.one_le_nu ok.nu_le ok.beq ok.bound with
          ⟨_, h⟩ | ⟨d, -, -, -, ⟨_, s', h, -⟩ | ⟨_, _, s', h, -⟩ | ⟨_, _, h⟩ | ⟨_, _, s', h, -⟩⟩ <;>
          rw [hb'] at h <;> cases h
        rfl
      subst h3
      simp only [Option.some.injEq] at hr
      rw [hr', ← hr, he]
    · right
      subst h6
      simp only [] at hr
      obtain ⟨hi, -, hqs⟩ := near_inv ok hsolver h1
      have hb' : boost solver noise S s' wl (n + 1) = .ok out := h3
      have hlim : s'.maxIter = mlpLimit S s₀ := hi.maxIter
      have hsame : 1 ≤ n ∧ out.state.weights = s'.weights ∧ out.state.hypotheses = s'.hypotheses ∧
          (qs ++ out.queries).length ≤ mlpLimit S s₀ ∧ ∀ d ∈ qs ++ out.queries, d.length = S.length ∧ Spec.IsCapped s₀.nu d := by
        have hql := hi.qlen
        have hle := hi.le
        rcases boost_cases_near hi hsolver noise ok.strategy ok.tol5 ok.one_le_nu ok.nu_le ok.beq ok.bound with
          ⟨h0, h⟩ | ⟨d, h0, -, hd, ⟨_, s', h, -⟩ | ⟨hn, _, s', h, h2⟩ | ⟨_, _, h⟩ | ⟨_, _, s', h, -⟩⟩ <;>
          rw [hb'] at h <;> (first | (cases h; done) | (rw [Except.ok.injEq] at h; subst h))
        · exact ⟨by omega, rfl, rfl, by simp; omega, by simpa using hqs⟩
        · simp at h4
        · obtain ⟨h7, h8, -⟩ := hd.capped
          refine ⟨hn, h2.1, h2.2, by simp; omega, ?_⟩
          intro q hq
          rcases List.mem_append.1 hq with h | h
          · exact hqs q h
          · simp at h; subst h; exact ⟨h7, h8⟩
        · simp at h4
      obtain ⟨hn, hsw, hsh, hq1, hq2⟩ := hsame
      obtain ⟨f, hf, -⟩ := fromSlices_near_total (X := X) hi.len (by norm_num) (hi.near hn)
      have hpost : (MLPBoost.booster solver noise S).postprocess out.state = .ok f := by
        show WeightedMajority.fromSlices out.state.weights out.state.hypotheses = .ok f
        rw [hsw, hsh, hf]
      rw [hpost] at hr
      simp only [Option.some.injEq] at hr
      have h5' : qs' = qs ++ out.queries := by simpa using h5
      exact ⟨f, _, by rw [hr', ← hr], by rw [h5']; exact hq1, by rw [h5']; exact hq2⟩

/-! ### The theorems apply -/

/-- A solver that knows nothing. -/
def zeroSolver : Solver ℝ := fun p =>
  { x := List.replicate p.A.nCols 0, z := List.replicate p.A.nRows 0, objVal := 0, status := .solved }

theorem zeroSolver_shaped : zeroSolver.Shaped := fun p => by simp [zeroSolver]

theorem exMlp_near : MlpNear exSample exMlp exLearner := by
  refine ⟨exMlp_ok, by norm_num [exMlp], ?_⟩
  intro k d e he
  simp [exSample] at he
  rcases he with rfl | rfl
  · simp only [exLearner, conf, if_true]; rw [abs_le]; constructor <;> norm_num
  · simp only [exLearner, conf]; rw [abs_le]; constructor <;> norm_num

/-- Even with a solver that always answers zero a run may return, and `mlp_any_solver_margin` applies to it. -/
example (noise : Nat → Nat → ℝ) :
    ∃ f qs, (MLPBoost.booster zeroSolver noise exSample).run exLearner (mlpLimit exSample exMlp + 1) exMlp =
        some (.ok (f, qs)) ∧ Spec.SoftMarginGe exSample 1 (conf f) (29 / 100 : ℝ) := by
  have hedge : ∀ k d, d.length = exSample.length → Spec.IsCapped (1 : ℝ) d →
      Spec.edge exSample d (conf (exLearner k d)) = 1 / 2 := by
    intro k d hl hd
    obtain ⟨hpos, hsum⟩ := hd
    match d, hl with
    | [a, b], _ =>
      simp only [List.sum_cons, List.sum_nil, add_zero] at hsum
      simp [Spec.edge, exSample, exLearner, conf]
      linarith
  rcases mlp_any_solver_outcome exSample exMlp zeroSolver zeroSolver_shaped noise exLearner exMlp_near exSample_valid
    (by norm_num [exMlp, exSample]) with h | ⟨f, qs, h, -⟩
  · exfalso
    have hlog := Real.log_two_gt_d9
    -- the second round stops
    obtain ⟨s, hs⟩ : ∃ s, preprocess exSample exMlp = .ok s := by
      unfold preprocess
      rw [exSample_valid]
      simp only []
      rw [if_neg exMlp_ok.tol.ne']
      exact ⟨_, rfl⟩
    have hi := nearInv_start (wl := exLearner) hs
    have hmax : 2 ≤ s.maxIter := by
      rw [hi.maxIter, Nat.succ_le_iff, Nat.lt_ceil]
      norm_num [exSample, exMlp]
      linarith
    have hlim : mlpLimit exSample exMlp = s.maxIter := hi.maxIter.symm
    rcases boost_cases_near hi zeroSolver_shaped noise exMlp_near.strategy exMlp_near.tol5 exMlp_near.one_le_nu exMlp_near.nu_le exMlp_near.beq
        exMlp_near.bound with ⟨h0, -⟩ | ⟨d, -, -, hd, ⟨-, s', hb, hi', heta, hh, hw⟩ | ⟨h0, -⟩ | ⟨h0, -⟩ | ⟨h0, -⟩⟩
    · omega
    · obtain ⟨hl, hc, -⟩ := hd.capped
      have hm' : s'.maxIter = s.maxIter := by rw [hi'.maxIter, hi.maxIter]
      have stop : ∀ d', IsExpDist s'.eta exMlp.nu exSample (weightedConf s'.weights s'.hypotheses) d' → 0 < s'.eta →
          ¬ exMlp.halfTolerance < bestEdge exSample exLearner ([d] ++ [d']) -
            pot s'.eta exSample (weightedConf s'.weights s'.hypotheses) d' / s'.eta := by
        intro d' hd' hpos
        obtain ⟨hl', hc', -⟩ := hd'.capped
        have e1 : bestEdge exSample exLearner ([d] ++ [d']) ≤ 1 / 2 := by
          rw [bestEdge_snoc]
          exact (min_le_right _ _).trans (hedge _ d' hl' hc').le
        have e2 : 1 / 2 ≤ pot s'.eta exSample (weightedConf s'.weights s'.hypotheses) d' / s'.eta := by
          rw [le_div_iff₀ hpos]
          have e3 := edge_le_pot hd'
          have e4 : Spec.edge exSample d' (weightedConf s'.weights s'.hypotheses) = 1 / 2 := by
            rw [hh, hw, ← hedge 1 d' hl' hc']
            apply specEdge_congr
            intro e _
            simp [weightedConf, exLearner]
          rw [e4] at e3
          linarith
        have : exMlp.halfTolerance = 1 / 10 := rfl
        linarith
      obtain ⟨k, hk⟩ : ∃ k, mlpLimit exSample exMlp + 1 = k + 2 := ⟨mlpLimit exSample exMlp - 1, by omega⟩
      have hb1 : (MLPBoost.booster zeroSolver noise exSample).boost s exLearner 1 = _ := hb
      rcases boost_cases_near hi' zeroSolver_shaped noise exMlp_near.strategy exMlp_near.tol5 exMlp_near.one_le_nu exMlp_near.nu_le
          exMlp_near.beq exMlp_near.bound with ⟨h0, -⟩ | ⟨d', -, hpos, hd', ⟨h0, -⟩ | ⟨-, -, s2, hb2, hw2, hh2⟩ | ⟨-, h0, -⟩ | ⟨-, h0, -⟩⟩
      · omega
      · omega
      · have hb2' : (MLPBoost.booster zeroSolver noise exSample).boost s' exLearner (1 + 1) = _ := hb2
        rw [hk] at h
        unfold Booster.run at h
        rw [show (MLPBoost.booster zeroSolver noise exSample).preprocess exMlp exLearner = .ok s from hs] at h
        simp only [] at h
        rw [Booster.loop, hb1] at h
        simp only [] at h
        rw [Booster.loop, hb2'] at h
        simp only [Option.map_some, Except.map] at h
        obtain ⟨f, hf, -⟩ := fromSlices_near_total (X := Nat) hi'.len (by norm_num) (hi'.near le_rfl)
        rw [show (MLPBoost.booster zeroSolver noise exSample).postprocess s2 = .ok f by
          show WeightedMajority.fromSlices s2.weights s2.hypotheses = .ok f
          rw [hw2, hh2, hf]] at h
        simp at h
      · exact stop d' hd' hpos h0
      · exact stop d' hd' hpos h0
    all_goals omega
  · refine ⟨f, qs, h, ?_⟩
    have := (mlp_any_solver_margin exSample exMlp zeroSolver zeroSolver_shaped noise exLearner exMlp_near (1 / 2)
      (fun k d hl hd => (hedge k d hl hd).ge) _ f qs h).1
    intro d hl hd
    have h1 := this d hl hd
    norm_num [exMlp] at h1 ⊢
    linarith

end Miniboosts.Props
