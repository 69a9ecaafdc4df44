import Verif.Lemmas.FrankWolfeTotal
import Verif.Lemmas.MLPBoostAny
import Verif.Props.ReturnsConic

/-! # C33, C61: CERLPBoost with every Frank-Wolfe strategy -/

set_option linter.unusedSectionVars false

namespace Miniboosts.Props

open Miniboosts Spec Real

variable {H X : Type*} [Classifier H X ℝ] [BEq H]

/-- What the theorems below assume: parameters in range (what the setters enforce), `PartialEq` that respects the predictions, and
margins in `[-1, 1]`.  No assumption on the strategy. -/
structure CerlpAny (S : Examples X ℝ) (s₀ : CERLPBoost H) (wl : WeakLearner ℝ H) : Prop where
  tol : 0 < s₀.halfTolerance
  one_le_nu : 1 ≤ s₀.nu
  nu_le : s₀.nu ≤ S.length
  fwNu : s₀.frankWolfe.nu = s₀.nu
  beq : ∀ f h : H, (f == h) = true → ∀ e ∈ S, conf f e.1 = (conf h e.1 : ℝ)
  bound : ∀ k d, ∀ e ∈ S, |e.2 * conf (wl k d) e.1| ≤ (1 : ℝ)

/-- What holds after `n` rounds, whatever the strategy. -/
structure CerlpInv (S : Examples X ℝ) (s₀ : CERLPBoost H) (wl : WeakLearner ℝ H) (n : Nat) (s : CERLPBoost H) : Prop where
  valid : checkBinary S = .ok ()
  nu : s.nu = s₀.nu
  tol : s.halfTolerance = s₀.halfTolerance
  eta : s.eta = log ((S.length : ℝ) / s₀.nu) / s₀.halfTolerance
  fwEta : s.frankWolfe.eta = s.eta
  fwNu : s.frankWolfe.nu = s₀.frankWolfe.nu
  maxIter : s.maxIter = cerlpLimit S s₀
  le : n ≤ s.maxIter
  len : s.weights.length = s.hypotheses.length
  zero : n = 0 → s.weights = []
  sub : SubProb s.weights
  pos : 1 ≤ n → ∃ x ∈ s.weights, 0 < x
  mem : ∀ h ∈ s.hypotheses, ∃ k d, h = wl k d

theorem edge_abs_le (S : Examples X ℝ) (d : List ℝ) (hd : Spec.IsProb d) (h : H) (hl : d.length = S.length)
    (hb : ∀ e ∈ S, |e.2 * conf h e.1| ≤ (1 : ℝ)) : |Miniboosts.edge S d h| ≤ 1 := by
  rw [edge_eq_spec]
  have := ERLP.edge_bounds hl hd (conf h) hb
  exact abs_le.2 this

/-- One call of `boost`, whatever the strategy. -/
theorem cerlp_any_step {S : Examples X ℝ} {s₀ s : CERLPBoost H} {wl : WeakLearner ℝ H} (ok : CerlpAny S s₀ wl) {n : Nat}
    (hi : CerlpInv S s₀ wl n s) :
    (n = cerlpLimit S s₀ ∧ CERLPBoost.boost S s wl (n + 1) = .ok { state := s, flow := .brk n, queries := [] }) ∨
    (n < cerlpLimit S s₀ ∧ ∃ d, IsExpDist s.eta s₀.nu S (weightedConf s.weights s.hypotheses) d ∧
      ((Spec.edge S d (conf (wl (n + 1) d)) - Spec.edge S d (weightedConf s.weights s.hypotheses) ≤ s₀.halfTolerance ∧
        CERLPBoost.boost S s wl (n + 1) =
          .ok { state := { s with dist := d, terminated := n + 1 }, flow := .brk (n + 1), queries := [d] }) ∨
      (s₀.halfTolerance < Spec.edge S d (conf (wl (n + 1) d)) - Spec.edge S d (weightedConf s.weights s.hypotheses) ∧
        ∃ s', CERLPBoost.boost S s wl (n + 1) = .ok { state := s', flow := .cont, queries := [d] } ∧
          CerlpInv S s₀ wl (n + 1) s'))) := by
  have hle := hi.le
  have hmaxI := hi.maxIter
  by_cases hmax : s.maxIter < n + 1
  · left
    have hn : s.maxIter = n := by omega
    refine ⟨by omega, ?_⟩
    unfold CERLPBoost.boost
    rw [if_pos hmax, hn]
  right
  refine ⟨by omega, ?_⟩
  obtain ⟨d, hd⟩ := exists_expDist s.eta s₀.nu S (weightedConf s.weights s.hypotheses) ok.one_le_nu ok.nu_le
  refine ⟨d, hd, ?_⟩
  have hd' : expDistribution s.eta s.nu S s.weights s.hypotheses = .ok d := by
    rw [hi.nu]; exact (expDistribution_iff _ _ _ _ _ _).2 hd
  obtain ⟨hdl, -, hdp, -, -⟩ := hd.capped
  have hdprob : Spec.IsProb d := ⟨fun p hp => (hdp.1 p hp).le, hdp.2⟩
  have htol := ok.tol
  have hetapos : 0 < s.eta := by
    rw [hi.eta]
    apply div_pos _ ok.tol
    by_contra h0
    have h1 : cerlpLimit S s₀ = 0 := by
      unfold cerlpLimit
      rw [Nat.ceil_eq_zero]
      apply div_nonpos_of_nonpos_of_nonneg
      · linarith
      · positivity
    omega
  unfold CERLPBoost.boost
  rw [if_neg hmax, hd']
  simp only [edge_eq_spec, weightedEdge_eq_spec]
  set h := wl (n + 1) d with hh
  by_cases h1 : Spec.edge S d (conf h) - Spec.edge S d (weightedConf s.weights s.hypotheses) ≤ s₀.halfTolerance
  · left
    exact ⟨h1, if_pos (by rw [hi.tol]; exact h1)⟩
  right
  refine ⟨not_le.1 h1, ?_⟩
  rw [if_neg (by rw [hi.tol]; exact h1)]
  -- the registered hypothesis
  have hreg : ∃ hs ws h', (if s.hypotheses.findIdx (fun f => f == h) = s.hypotheses.length then
        ({ s with dist := d, hypotheses := s.hypotheses ++ [h], weights := s.weights ++ [0] } : CERLPBoost H)
        else { s with dist := d }) = { s with dist := d, hypotheses := hs, weights := ws } ∧
      ws.length = hs.length ∧ hs[s.hypotheses.findIdx (fun f => f == h)]? = some h' ∧ (∀ e ∈ S, conf h' e.1 = (conf h e.1 : ℝ)) ∧
      (∀ x : X, weightedConf ws hs x = weightedConf s.weights s.hypotheses x) ∧ SubProb ws ∧ ∀ k ∈ hs, ∃ i q, k = wl i q := by
    by_cases hp : s.hypotheses.findIdx (fun f => f == h) = s.hypotheses.length
    · refine ⟨s.hypotheses ++ [h], s.weights ++ [0], h, if_pos hp, by simp [hi.len], by rw [hp]; simp, fun _ _ => rfl, ?_, ?_, ?_⟩
      · intro x
        rw [weightedConf_snoc _ _ _ _ hi.len]; ring
      · refine ⟨?_, by simp [hi.sub.2]⟩
        intro x hx
        rcases List.mem_append.1 hx with h3 | h3
        · exact hi.sub.1 x h3
        · simp at h3; rw [h3]
      · intro k hk
        rcases List.mem_append.1 hk with h3 | h3
        · exact hi.mem k h3
        · rw [List.mem_singleton] at h3; exact ⟨_, _, h3⟩
    · have hlt : s.hypotheses.findIdx (fun f => f == h) < s.hypotheses.length :=
        lt_of_le_of_ne List.findIdx_le_length hp
      exact ⟨s.hypotheses, s.weights, s.hypotheses[s.hypotheses.findIdx (fun f => f == h)], if_neg hp, hi.len, by simp [hlt],
        ok.beq _ _ (List.findIdx_getElem (w := hlt)), fun _ => rfl, hi.sub, hi.mem⟩
  obtain ⟨hs, ws, h', e1, e2, e3, e4, e5, e6, e7⟩ := hreg
  have hhs : (if s.hypotheses.findIdx (fun f => f == h) = s.hypotheses.length then
        ({ s with dist := d, hypotheses := s.hypotheses ++ [h], weights := s.weights ++ [0] } : CERLPBoost H)
        else { s with dist := d }).hypotheses = hs := by rw [e1]
  have hgap : weightedEdge S d ws hs < Miniboosts.edge S d h' := by
    rw [weightedEdge_eq_spec, edge_eq_spec, specEdge_congr d (F := conf h') (G := conf h) e4,
      specEdge_congr d (F := weightedConf ws hs) (G := weightedConf s.weights s.hypotheses) (fun e _ => e5 e.1)]
    linarith
  obtain ⟨w', n1, n2, n3, n4⟩ := nextIterate_total s.frankWolfe (by rw [hi.fwEta]; exact hetapos) (n + 1) (by omega) S d hdl hs
    (s.hypotheses.findIdx (fun f => f == h)) ws h' (by rw [hi.fwNu, ok.fwNu]; exact ok.one_le_nu)
    (by rw [hi.fwNu, ok.fwNu]; exact ok.nu_le) e6 e2 e3 (by
      intro k hk
      obtain ⟨i, q, rfl⟩ := e7 k hk
      exact edge_abs_le S d hdprob _ hdl (ok.bound i q)) hgap
  rw [e1]
  simp only []
  rw [n1]
  refine ⟨_, rfl, ⟨hi.valid, hi.nu, hi.tol, hi.eta, hi.fwEta, hi.fwNu, hi.maxIter, by simp only []; omega, by simp only []; omega,
    by omega, n2, fun _ => n4, e7⟩⟩

theorem cerlp_any_inv {S : Examples X ℝ} {s₀ s : CERLPBoost H} {wl : WeakLearner ℝ H} (ok : CerlpAny S s₀ wl) {n : Nat}
    {qs : List (List ℝ)} (hr : (CERLPBoost.booster S).Reachable wl s₀ n qs s) : CerlpInv S s₀ wl n s := by
  induction hr with
  | start h =>
    simp only [CERLPBoost.booster, CERLPBoost.preprocess] at h
    cases hc : checkBinary S with
    | error e => rw [hc] at h; simp at h
    | ok u =>
      rw [hc, Except.ok.injEq] at h
      subst h
      constructor <;> simp [CERLPBoost.regularizationParam, CERLPBoost.maxLoop, hc, cerlpLimit, SubProb]
  | @step n qs s₁ out hr hb hf ih =>
    rcases cerlp_any_step ok ih with ⟨-, h⟩ | ⟨-, d, -, ⟨-, h⟩ | ⟨-, s', h, hi'⟩⟩
    · rw [show CERLPBoost.boost S s₁ wl (n + 1) = .ok out from hb, Except.ok.injEq] at h; subst h; cases hf
    · rw [show CERLPBoost.boost S s₁ wl (n + 1) = .ok out from hb, Except.ok.injEq] at h; subst h; cases hf
    · rw [show CERLPBoost.boost S s₁ wl (n + 1) = .ok out from hb, Except.ok.injEq] at h; subst h; exact hi'

/-- C33 for every strategy: a call of `boost` never panics; unless the iteration limit is reached it asks the weak learner once, with a
distribution capped at `1/ν` that has no zero entries, and it stops exactly when the answer's edge exceeds that of the current vote by
at most half of the tolerance. -/
theorem cerlp_round_any (S : Examples X ℝ) (s₀ : CERLPBoost H) (wl : WeakLearner ℝ H) (ok : CerlpAny S s₀ wl)
    (n : Nat) (qs : List (List ℝ)) (s : CERLPBoost H) (hr : (CERLPBoost.booster S).Reachable wl s₀ n qs s) :
    ∃ out, (CERLPBoost.booster S).boost s wl (n + 1) = .ok out ∧
      ((n = cerlpLimit S s₀ ∧ out.queries = [] ∧ out.flow = .brk n) ∨
       (n < cerlpLimit S s₀ ∧ ∃ d, out.queries = [d] ∧ d.length = S.length ∧ Spec.IsCapped s₀.nu d ∧
        Spec.IsPosProb d ∧
        (out.flow = .cont ↔ s₀.halfTolerance < Spec.edge S d (conf (wl (n + 1) d)) -
          Spec.edge S d (Spec.vote conf (List.zip s.weights s.hypotheses))))) := by
  have hi := cerlp_any_inv ok hr
  have hv : Spec.vote conf (List.zip s.weights s.hypotheses) = weightedConf (X := X) s.weights s.hypotheses := by
    funext x; rw [weightedConf_eq_vote]
  rw [hv]
  rcases cerlp_any_step ok hi with ⟨h0, h⟩ | ⟨h0, d, hd, ⟨hg, h⟩ | ⟨hg, s', h, -⟩⟩
  · exact ⟨_, h, Or.inl ⟨h0, rfl, rfl⟩⟩
  · obtain ⟨h1, h2, h3, -, -⟩ := hd.capped
    exact ⟨_, h, Or.inr ⟨h0, d, rfl, h1, h2, h3, by simp [not_lt.2 hg]⟩⟩
  · obtain ⟨h1, h2, h3, -, -⟩ := hd.capped
    exact ⟨_, h, Or.inr ⟨h0, d, rfl, h1, h2, h3, by simp [hg]⟩⟩

/-- C61 for CERLPBoost with any of the four strategies: `run` ends within `⌈8 ln(m/ν)/(tolerance/2)²⌉ + 1` calls of `boost`; it
returns if and only if the sample is valid, `ν < n` and the first answer -- to the uniform distribution -- has an edge above half of
the tolerance. -/
theorem cerlp_returns_iff_any (S : Examples X ℝ) (s₀ : CERLPBoost H) (wl : WeakLearner ℝ H) (ok : CerlpAny S s₀ wl) :
    (∃ r, (CERLPBoost.booster S).run wl (cerlpLimit S s₀ + 1) s₀ = some r) ∧
    ((∃ f qs, (CERLPBoost.booster S).run wl (cerlpLimit S s₀ + 1) s₀ = some (.ok (f, qs))) ↔
      checkBinary S = .ok () ∧ s₀.nu < S.length ∧
        s₀.halfTolerance < Spec.edge S (List.replicate S.length (1 / (S.length : ℝ)))
          (conf (wl 1 (List.replicate S.length (1 / (S.length : ℝ)))))) := by
  have hterm : ∃ r, (CERLPBoost.booster S).run wl (cerlpLimit S s₀ + 1) s₀ = some r := by
    refine Booster.run_terminates _ wl s₀ (cerlpLimit S s₀) ?_
    intro qs s out hr hb hf
    rcases cerlp_any_step ok (cerlp_any_inv ok hr) with ⟨-, h⟩ | ⟨h0, -⟩
    · rw [show CERLPBoost.boost S s wl (cerlpLimit S s₀ + 1) = .ok out from hb, Except.ok.injEq] at h
      subst h
      cases hf
    · omega
  refine ⟨hterm, ?_⟩
  have hzero : ∀ (s : CERLPBoost H), s.weights = [] → ∀ x : X, weightedConf s.weights s.hypotheses x = 0 := by
    intro s h x; rw [h]; unfold weightedConf; simp
  have hlimpos : s₀.nu < S.length → 0 < cerlpLimit S s₀ := by
    intro hlt
    unfold cerlpLimit
    rw [Nat.ceil_pos]
    apply div_pos _ (by have := ok.tol; positivity)
    have : 0 < log ((S.length : ℝ) / s₀.nu) := by
      apply log_pos
      rw [lt_div_iff₀ (by linarith [ok.one_le_nu]), one_mul]; exact hlt
    linarith
  have hnone : ∀ (s : CERLPBoost H) f, s.weights = [] → (CERLPBoost.booster S).postprocess s = .ok f → False := by
    intro s f h hf
    have hf : WeightedMajority.fromSlices s.weights s.hypotheses = .ok f := hf
    rw [h] at hf
    rcases fromSlices_cases (K := ℝ) [] s.hypotheses with ⟨_, h2⟩ | ⟨h1, _⟩
    · rw [h2] at hf; cases hf
    · simp at h1
  rw [run_returns_iff _ _ _ _ hterm]
  constructor
  · rintro ⟨n, qs, s, out, k, f, hr, hb, hf, hp⟩
    have hi := cerlp_any_inv ok hr
    -- the first round continued
    have hn : 0 < n := by
      rcases Nat.eq_zero_or_pos n with h0 | h0
      · exfalso
        subst h0
        rcases cerlp_any_step ok hi with ⟨-, h⟩ | ⟨-, d, -, ⟨-, h⟩ | ⟨-, s', h, -⟩⟩
        · rw [show CERLPBoost.boost S s wl (0 + 1) = .ok out from hb, Except.ok.injEq] at h; subst h
          exact hnone _ f (hi.zero rfl) hp
        · rw [show CERLPBoost.boost S s wl (0 + 1) = .ok out from hb, Except.ok.injEq] at h; subst h
          exact hnone _ f (hi.zero rfl) hp
        · rw [show CERLPBoost.boost S s wl (0 + 1) = .ok out from hb, Except.ok.injEq] at h; subst h; cases hf
      · exact h0
    obtain ⟨q, t, o, a, b, c⟩ := reachable_earlier hr 0 hn
    have ht := cerlp_any_inv ok a
    refine ⟨hi.valid, ?_, ?_⟩
    · refine lt_of_le_of_ne ok.nu_le fun h5 => ?_
      have : cerlpLimit S s₀ = 0 := by
        unfold cerlpLimit
        rw [h5, div_self (by have := ok.one_le_nu; rw [h5] at this; linarith)]
        simp
      have := hi.le
      have := hi.maxIter
      omega
    · rcases cerlp_any_step ok ht with ⟨-, h⟩ | ⟨-, d, hd, ⟨-, h⟩ | ⟨hg, s', h, -⟩⟩
      · rw [show CERLPBoost.boost S t wl (0 + 1) = .ok o from b, Except.ok.injEq] at h; subst h; cases c
      · rw [show CERLPBoost.boost S t wl (0 + 1) = .ok o from b, Except.ok.injEq] at h; subst h; cases c
      · have hz := hzero t (ht.zero rfl)
        have hzz : Spec.edge S d (weightedConf t.weights t.hypotheses) = 0 := by
          unfold Spec.edge; simp [hz]
        rw [expDist_zero hz hd] at hg hzz
        rw [hzz] at hg
        simp only [Nat.zero_add] at hg
        linarith
  · rintro ⟨hv, hlt, hedge⟩
    have hpre : ∃ s, (CERLPBoost.booster S).preprocess s₀ wl = .ok s := by
      simp only [CERLPBoost.booster, CERLPBoost.preprocess, hv]; exact ⟨_, rfl⟩
    obtain ⟨s, hs⟩ := hpre
    have hstart : (CERLPBoost.booster S).Reachable wl s₀ 0 [] s := .start hs
    obtain ⟨r, hrun⟩ := hterm
    unfold Booster.run at hrun
    simp only [hs] at hrun
    cases hl : (CERLPBoost.booster S).loop wl (cerlpLimit S s₀ + 1) s 1 with
    | none => simp [hl] at hrun
    | some r' =>
      rcases Booster.loop_spec _ wl s₀ hstart hl with
        ⟨n', qs', s'', g1, g2, e, g3, g4⟩ | ⟨n', qs', s'', out', k', g1, g2, g3, g4, qs'', g5, g6⟩
      · exfalso
        rcases cerlp_any_step ok (cerlp_any_inv ok g1) with ⟨-, h⟩ | ⟨-, d, -, ⟨-, h⟩ | ⟨-, s', h, -⟩⟩ <;>
          (rw [show CERLPBoost.boost S s'' wl (n' + 1) = .error e from g3] at h; cases h)
      · have hi := cerlp_any_inv ok g1
        have hn : 1 ≤ n' := by
          by_contra h0
          have h0 : n' = 0 := by omega
          subst h0
          rcases cerlp_any_step ok hi with ⟨h8, -⟩ | ⟨-, d, hd, ⟨hg, -⟩ | ⟨-, s', h, -⟩⟩
          · have := hlimpos hlt; omega
          · have hz := hzero s'' (hi.zero rfl)
            have hzz : Spec.edge S d (weightedConf s''.weights s''.hypotheses) = 0 := by
              unfold Spec.edge; simp [hz]
            rw [expDist_zero hz hd] at hg hzz
            rw [hzz] at hg
            simp only [Nat.zero_add] at hg
            linarith
          · rw [show CERLPBoost.boost S s'' wl (0 + 1) = .ok out' from g3, Except.ok.injEq] at h; subst h; cases g4
        have hsame : out'.state.weights = s''.weights ∧ out'.state.hypotheses = s''.hypotheses := by
          rcases cerlp_any_step ok hi with ⟨-, h⟩ | ⟨-, d, -, ⟨-, h⟩ | ⟨-, s', h, -⟩⟩
          · rw [show CERLPBoost.boost S s'' wl (n' + 1) = .ok out' from g3, Except.ok.injEq] at h; subst h; exact ⟨rfl, rfl⟩
          · rw [show CERLPBoost.boost S s'' wl (n' + 1) = .ok out' from g3, Except.ok.injEq] at h; subst h; exact ⟨rfl, rfl⟩
          · rw [show CERLPBoost.boost S s'' wl (n' + 1) = .ok out' from g3, Except.ok.injEq] at h; subst h; cases g4
        have hpost : ∃ f, (CERLPBoost.booster S).postprocess out'.state = .ok f := by
          show ∃ f, WeightedMajority.fromSlices out'.state.weights out'.state.hypotheses = .ok f
          rw [hsame.1, hsame.2, fromSlices_ok_iff]
          obtain ⟨x, hx, hx0⟩ := hi.pos hn
          obtain ⟨i, hi', rfl⟩ := List.getElem_of_mem hx
          have hl : i < s''.hypotheses.length := by rw [← hi.len]; exact hi'
          exact ⟨(s''.weights[i], s''.hypotheses[i]), List.mem_iff_getElem.2 ⟨i, by simp [hi', hl], by simp⟩, hx0⟩
        obtain ⟨f, hf⟩ := hpost
        exact ⟨n', qs', s'', out', k', f, g1, g3, g4, hf⟩

/-- The hypotheses are met for every strategy a user can choose: the run of the example learner returns with each of the four. -/
theorem exCerlp_any (t : FWType) : CerlpAny exSample (exCerlp.setFwType t) exLearner := by
  refine ⟨?_, le_rfl, ?_, rfl, ?_, ?_⟩
  · norm_num [exCerlp, CERLPBoost.setFwType, CERLPBoost.setTolerance, CERLPBoost.init]
  · norm_num [exCerlp, CERLPBoost.setFwType, CERLPBoost.setTolerance, CERLPBoost.init, exSample]
  · intro f h hfh e _
    have : f = h := by simpa [BEq.beq] using hfh
    rw [this]
  · intro k d e he
    simp [exSample] at he
    rcases he with rfl | rfl
    · simp only [exLearner, conf, if_true]; rw [abs_of_pos] <;> norm_num
    · simp only [exLearner, conf]; norm_num [abs_of_neg]

example (t : FWType) : ∃ f qs, (CERLPBoost.booster exSample).run exLearner (cerlpLimit exSample (exCerlp.setFwType t) + 1)
    (exCerlp.setFwType t) = some (.ok (f, qs)) := by
  refine (cerlp_returns_iff_any exSample _ exLearner (exCerlp_any t)).2.2 ⟨exSample_valid, ?_, ?_⟩
  · norm_num [exCerlp, CERLPBoost.setFwType, CERLPBoost.setTolerance, CERLPBoost.init, exSample]
  · norm_num [exCerlp, CERLPBoost.setFwType, CERLPBoost.setTolerance, CERLPBoost.init, exSample, Spec.edge, exLearner, conf,
      List.replicate]

/-! ## MLPBoost -/

/-- The assumptions of the theorems on MLPBoost with any strategy.  The blended pairwise one loses weight when it steps towards a
hypothesis that already has some (`blendedPairwise_loses_mass`), so for it the weak learner must not repeat itself. -/
structure MlpAny (S : Examples X ℝ) (s₀ : MLPBoost H) (wl : WeakLearner ℝ H) : Prop where
  strategy : s₀.primary.fwType ≠ .blendedPairwise ∨ ((∀ i j d d', i < j → (wl i d == wl j d') = false) ∧
    ∀ i d, ∀ e ∈ S, |e.2 * conf (wl i d) e.1| ≤ (1 : ℝ))
  fwNu : s₀.primary.nu = s₀.nu
  tol : 0 < s₀.halfTolerance
  one_le_nu : 1 ≤ s₀.nu
  nu_le : s₀.nu ≤ S.length
  beq : ∀ f h : H, (f == h) = true → ∀ e ∈ S, conf f e.1 = (conf h e.1 : ℝ)

theorem MlpAny.now {S : Examples X ℝ} {s₀ s : MLPBoost H} {wl : WeakLearner ℝ H} (ok : MlpAny S s₀ wl) {n : Nat}
    (hfrom : ∀ f ∈ s.hypotheses, ∃ k d, k ≤ n ∧ f = wl k d) :
    s₀.primary.fwType ≠ .blendedPairwise ∨ ((∀ d, ∀ f ∈ s.hypotheses, (f == wl (n + 1) d) = false) ∧
      (∀ d, ∀ e ∈ S, |e.2 * conf (wl (n + 1) d) e.1| ≤ (1 : ℝ)) ∧ ∀ f ∈ s.hypotheses, ∀ e ∈ S, |e.2 * conf f e.1| ≤ (1 : ℝ)) := by
  refine ok.strategy.imp_right fun h => ⟨?_, fun d e he => h.2 _ _ e he, ?_⟩
  · intro d f hf
    obtain ⟨k, q, hk, rfl⟩ := hfrom f hf
    exact h.1 k (n + 1) q d (by omega)
  · intro f hf
    obtain ⟨k, q, hk, rfl⟩ := hfrom f hf
    exact h.2 k q

theorem mlp_any_inv {S : Examples X ℝ} {s₀ s : MLPBoost H} {wl : WeakLearner ℝ H} (ok : MlpAny S s₀ wl) {solver : Solver ℝ}
    (hsolver : solver.Correct) {noise : Nat → Nat → ℝ} {n : Nat} {qs : List (List ℝ)}
    (hr : (MLPBoost.booster solver noise S).Reachable wl s₀ n qs s) : MLPBoost.Inv S s₀ wl n qs s ∧ s.primary.nu = s₀.nu ∧
      ∀ f ∈ s.hypotheses, ∃ k d, k ≤ n ∧ f = wl k d := by
  induction hr with
  | start h =>
    refine ⟨MLPBoost.inv_start h, ?_⟩
    simp only [MLPBoost.booster, MLPBoost.preprocess] at h
    cases hc : checkBinary S with
    | error e => rw [hc] at h; cases h
    | ok u =>
      rw [hc] at h
      simp only [] at h
      split at h
      · cases h
      · rw [Except.ok.injEq] at h
        subst h
        simp only [MLPBoost.initParams]
        exact ⟨ok.fwNu, by simp⟩
  | @step n qs s₁ out hr hb hf ih =>
    obtain ⟨hi, hnu, hfrom⟩ := ih
    rcases MLPBoost.boost_cases_any hi hsolver noise hnu (ok.now hfrom) ok.tol ok.one_le_nu ok.nu_le ok.beq with
      ⟨_, h⟩ | ⟨d, -, -, hd, ⟨h0, s', h, hi', -, hh, -, hp⟩ | ⟨_, _, s', h, -⟩ | ⟨_, _, s', h, hi', -, hh, hp⟩⟩
    all_goals
      rw [show MLPBoost.boost solver noise S s₁ wl (n + 1) = .ok out from hb, Except.ok.injEq] at h; subst h
    · cases hf
    · refine ⟨hi', hp, ?_⟩
      intro f hf
      rw [hh] at hf
      exact ⟨1, d, by omega, by simpa using hf⟩
    · cases hf
    · refine ⟨hi', hp, ?_⟩
      intro f hf
      rcases hh f hf with h | h
      · obtain ⟨k, q, hk, e⟩ := hfrom f h
        exact ⟨k, q, by omega, e⟩
      · exact ⟨n + 1, d, le_rfl, h⟩

/-- C34, C69 with the line search too: a call of `boost` never panics, asks the weak learner once (unless the limit is reached) with
a distribution capped at `1/ν` without zero entries, and after at least one round the weights are a probability vector, one per
hypothesis; the stopping rule is the one of `mlp_round`. -/
theorem mlp_round_any (S : Examples X ℝ) (s₀ : MLPBoost H) (wl : WeakLearner ℝ H) (ok : MlpAny S s₀ wl) (solver : Solver ℝ)
    (hsolver : solver.Correct) (noise : Nat → Nat → ℝ) (n : Nat) (qs : List (List ℝ)) (s : MLPBoost H)
    (hr : (MLPBoost.booster solver noise S).Reachable wl s₀ n qs s) :
    s.weights.length = s.hypotheses.length ∧ (1 ≤ n → Spec.IsProb s.weights) ∧
    ∃ out, (MLPBoost.booster solver noise S).boost s wl (n + 1) = .ok out ∧
      ((n = mlpLimit S s₀ ∧ out.queries = [] ∧ out.flow = .brk n) ∨
       (n < mlpLimit S s₀ ∧ ∃ d, out.queries = [d] ∧ d.length = S.length ∧ Spec.IsCapped s₀.nu d ∧
        Spec.IsPosProb d ∧ (n = 0 → out.flow = .cont) ∧
        (1 ≤ n → ∃ v, Spec.IsSmoothedMargin S s₀.nu (mlpEta S s₀) (Spec.vote conf (List.zip s.weights s.hypotheses)) v ∧
          (out.flow = .cont ↔ s₀.halfTolerance <
            ((qs ++ [d]).mapIdx fun k q => Spec.edge S q (conf (wl (k + 1) q))).foldl min 1 - v)))) := by
  obtain ⟨hi, hnu, hfrom⟩ := mlp_any_inv ok hsolver hr
  refine ⟨hi.len, hi.prob, ?_⟩
  have hv : Spec.vote conf (List.zip s.weights s.hypotheses) = weightedConf (X := X) s.weights s.hypotheses := by
    funext x; rw [weightedConf_eq_vote]
  have hlim : s.maxIter = mlpLimit S s₀ := hi.maxIter
  have heta : mlpEta S s₀ = s.eta := hi.eta.symm
  rw [hv, heta]
  rcases MLPBoost.boost_cases_any hi hsolver noise hnu (ok.now hfrom) ok.tol ok.one_le_nu ok.nu_le ok.beq with
      ⟨h0, h⟩ | ⟨d, h0, hpos, hd, ⟨hn, s', h, -⟩ | ⟨hn, hg, s', h, -⟩ | ⟨hn, hg, s', h, -⟩⟩
  · exact ⟨_, h, Or.inl ⟨by rw [← hlim, h0], rfl, rfl⟩⟩
  all_goals
    obtain ⟨h1, h2, h3, -, -⟩ := hd.capped
    refine ⟨_, h, Or.inr ⟨by omega, d, rfl, h1, h2, h3, ?_, ?_⟩⟩
  · intro _; rfl
  · intro _; omega
  · intro _; omega
  · intro _
    refine ⟨_, MLPBoost.isSmoothedMargin_pot hd hpos, ?_⟩
    simp only [reduceCtorEq, false_iff, not_lt]
    exact hg
  · intro _; rfl
  · intro _
    refine ⟨_, MLPBoost.isSmoothedMargin_pot hd hpos, ?_⟩
    simp only [true_iff]
    exact hg

/-- C61 for MLPBoost with parameters in range and a correct solver: `run` always ends, and it returns if and only if the sample is
valid and `ν < n` -- with the classic, short-step or line-search strategy for every weak learner, with the blended pairwise strategy
for every weak learner that never gives the same answer in two rounds. -/
theorem mlp_returns_iff_any (S : Examples X ℝ) (s₀ : MLPBoost H) (wl : WeakLearner ℝ H) (ok : MlpAny S s₀ wl) (solver : Solver ℝ)
    (hsolver : solver.Correct) (noise : Nat → Nat → ℝ) :
    (∃ r, (MLPBoost.booster solver noise S).run wl (mlpLimit S s₀ + 1) s₀ = some r) ∧
    ((∃ f qs, (MLPBoost.booster solver noise S).run wl (mlpLimit S s₀ + 1) s₀ = some (.ok (f, qs))) ↔
      checkBinary S = .ok () ∧ s₀.nu < S.length) := by
  have hterm : ∃ r, (MLPBoost.booster solver noise S).run wl (mlpLimit S s₀ + 1) s₀ = some r := by
    refine Booster.run_terminates _ wl s₀ (mlpLimit S s₀) ?_
    intro qs s out hr hb hf
    obtain ⟨-, -, out', ho, h1⟩ := mlp_round_any S s₀ wl ok solver hsolver noise _ _ _ hr
    rw [ho, Except.ok.injEq] at hb; subst hb
    rcases h1 with ⟨-, -, h2⟩ | ⟨h2, -⟩
    · rw [h2] at hf; cases hf
    · omega
  refine ⟨hterm, ?_⟩
  constructor
  · rintro ⟨f, qs, h⟩
    obtain ⟨s, hs⟩ := run_ok_preprocess h
    have hv : checkBinary S = .ok () := by
      simp only [MLPBoost.booster, MLPBoost.preprocess] at hs
      cases hc : checkBinary S with
      | ok u => rfl
      | error e => rw [hc] at hs; cases hs
    exact ⟨hv, lt_of_le_of_ne ok.nu_le fun h5 => mlp_nu_eq_m_panics S s₀ solver noise h5 wl _ f qs h⟩
  · rintro ⟨hv, hlt⟩
    have hlim : 0 < mlpLimit S s₀ := by
      unfold mlpLimit
      rw [Nat.ceil_pos]
      apply div_pos _ (by have := ok.tol; positivity)
      have : 0 < log ((S.length : ℝ) / s₀.nu) := by
        apply log_pos
        rw [lt_div_iff₀ (by linarith [ok.one_le_nu]), one_mul]; exact hlt
      linarith
    rw [run_returns_iff _ _ _ _ hterm]
    have hpre : ∃ s, (MLPBoost.booster solver noise S).preprocess s₀ wl = .ok s := by
      show ∃ s, MLPBoost.preprocess S s₀ = .ok s
      unfold MLPBoost.preprocess
      rw [hv]
      simp only []
      rw [if_neg ok.tol.ne']
      exact ⟨_, rfl⟩
    obtain ⟨s, hs⟩ := hpre
    have hstart : (MLPBoost.booster solver noise S).Reachable wl s₀ 0 [] s := .start hs
    obtain ⟨r, hrun⟩ := hterm
    unfold Booster.run at hrun
    simp only [hs] at hrun
    cases hl : (MLPBoost.booster solver noise S).loop wl (mlpLimit S s₀ + 1) s 1 with
    | none => simp [hl] at hrun
    | some r' =>
      rcases Booster.loop_spec _ wl s₀ hstart hl with
        ⟨n', qs', s'', g1, g2, e, g3, g4⟩ | ⟨n', qs', s'', out', k', g1, g2, g3, g4, qs'', g5, g6⟩
      · exfalso
        obtain ⟨-, -, o, ho, -⟩ := mlp_round_any S s₀ wl ok solver hsolver noise _ _ _ g1
        rw [ho] at g3; cases g3
      · obtain ⟨hi, hnu, hfrom⟩ := mlp_any_inv ok hsolver g1
        rcases MLPBoost.boost_cases_any hi hsolver noise hnu (ok.now hfrom) ok.tol ok.one_le_nu ok.nu_le ok.beq with
          ⟨h0, h⟩ | ⟨d, -, -, hd, ⟨_, s', h, -⟩ | ⟨hn, _, s', h, hw, hh⟩ | ⟨_, _, s', h, -⟩⟩
        all_goals
          rw [show MLPBoost.boost solver noise S s'' wl (n' + 1) = .ok out' from g3, Except.ok.injEq] at h
        · have hn : 1 ≤ n' := by
            rw [← h0, show s''.maxIter = mlpLimit S s₀ from hi.maxIter]; exact hlim
          obtain ⟨f, hf, -, -⟩ := fromSlices_prob (X := X) s''.weights s''.hypotheses hi.len (hi.prob hn)
          exact ⟨n', qs', s'', out', k', f, g1, g3, g4, by rw [h]; exact hf⟩
        · rw [h] at g4; cases g4
        · obtain ⟨f, hf, -, -⟩ := fromSlices_prob (X := X) s''.weights s''.hypotheses hi.len (hi.prob hn)
          refine ⟨n', qs', s'', out', k', f, g1, g3, g4, ?_⟩
          show WeightedMajority.fromSlices out'.state.weights out'.state.hypotheses = .ok f
          rw [h]
          simp only [hw, hh]
          exact hf
        · rw [h] at g4; cases g4

/-- The hypotheses are met with the line search, which no other theorem about MLPBoost covers. -/
theorem exMlp_any (t : FWType) (ht : t ≠ .blendedPairwise) (wl : WeakLearner ℝ (Fn Nat ℝ)) :
    MlpAny exSample (exMlp.setFwType t) wl := by
  refine ⟨.inl ht, rfl, exMlp_ok.tol, exMlp_ok.one_le_nu, exMlp_ok.nu_le, exMlp_ok.beq⟩

example (noise : Nat → Nat → ℝ) : ∃ solver : Solver ℝ, solver.Correct ∧ ∃ f qs,
    (MLPBoost.booster solver noise exSample).run exLearner (mlpLimit exSample (exMlp.setFwType .lineSearch) + 1)
      (exMlp.setFwType .lineSearch) = some (.ok (f, qs)) := by
  obtain ⟨solver, hsolver⟩ := exists_correct_solver
  refine ⟨solver, hsolver, (mlp_returns_iff_any exSample _ exLearner (exMlp_any _ (by decide) _) solver hsolver noise).2.2
    ⟨exSample_valid, ?_⟩⟩
  norm_num [exMlp, MLPBoost.setFwType, exSample]

/-- A weak learner that answers with a different confidence in every round. -/
noncomputable def freshLearner : WeakLearner ℝ (Fn Nat ℝ) := fun k _ => ⟨fun x => if x = 0 then 1 / ((k : ℝ) + 1) else -(1 / ((k : ℝ) + 1))⟩

/-- The hypotheses are met with the blended pairwise strategy too. -/
theorem exMlp_fresh : MlpAny exSample (exMlp.setFwType .blendedPairwise) freshLearner := by
  refine ⟨.inr ⟨?_, ?_⟩, rfl, exMlp_ok.tol, exMlp_ok.one_le_nu, exMlp_ok.nu_le, exMlp_ok.beq⟩
  · intro i j d d' hij
    have hne : freshLearner i d ≠ freshLearner j d' := by
      intro h
      have h1 := congrArg (fun g : Fn Nat ℝ => g.f 0) h
      simp [freshLearner] at h1
      omega
    simp [BEq.beq, hne]
  · intro i d e he
    have h1 : |1 / ((i : ℝ) + 1)| ≤ 1 := by
      rw [abs_of_nonneg (by positivity), div_le_one (by positivity)]
      have : (0 : ℝ) ≤ i := by positivity
      linarith
    simp [exSample] at he
    rcases he with rfl | rfl
    · simpa [freshLearner, conf] using h1
    · simpa [freshLearner, conf] using h1

example (noise : Nat → Nat → ℝ) : ∃ solver : Solver ℝ, solver.Correct ∧ ∃ f qs,
    (MLPBoost.booster solver noise exSample).run freshLearner (mlpLimit exSample (exMlp.setFwType .blendedPairwise) + 1)
      (exMlp.setFwType .blendedPairwise) = some (.ok (f, qs)) := by
  obtain ⟨solver, hsolver⟩ := exists_correct_solver
  refine ⟨solver, hsolver, (mlp_returns_iff_any exSample _ freshLearner exMlp_fresh solver hsolver noise).2.2
    ⟨exSample_valid, ?_⟩⟩
  norm_num [exMlp, MLPBoost.setFwType, exSample]

end Miniboosts.Props
