import Verif.Spec.Config
import Verif.Props.AdaBoost
import Verif.Props.AdaBoostV
import Verif.Props.MadaBoost
import Verif.Props.SmoothBoost
import Verif.Props.LPBoostBound
import Verif.Props.ERLPBoost
import Verif.Props.SoftBoost
import Verif.Props.CERLPBoost
import Verif.Props.MLPBoost

/-! # C83: configuring a booster: for every chain of configuration calls, the last value of each parameter counts -/

set_option linter.unusedSectionVars false

namespace Miniboosts.Props

open Miniboosts Real

variable {H X : Type*}

theorem lastOf_cons {C α : Type*} (sel : C → Option α) (c : C) (cs : List C) (d : α) :
    Spec.lastOf sel (c :: cs) d = Spec.lastOf sel cs ((sel c).getD d) := by
  unfold Spec.lastOf
  rw [List.filterMap_cons]
  cases sel c with
  | none => rfl
  | some a =>
    show (a :: List.filterMap sel cs).getLast?.getD d = (List.filterMap sel cs).getLast?.getD a
    cases h : List.filterMap sel cs with
    | nil => rfl
    | cons x xs => rw [List.getLast?_cons_cons]; cases h2 : (x :: xs).getLast? with
      | none => simp at h2
      | some y => rfl

/-- One observed parameter of a configured booster. -/
theorem configure_last {C σ α : Type*} {call : σ → C → Except Panic σ} {obs : σ → α} {sel : C → Option α}
    (h : ∀ s c s', call s c = .ok s' → obs s' = (sel c).getD (obs s)) :
    ∀ (cs : List C) (s s' : σ), configure call s cs = .ok s' → obs s' = Spec.lastOf sel cs (obs s)
  | [], s, s', e => by simp only [configure, Except.ok.injEq] at e; rw [e]; rfl
  | c :: cs, s, s', e => by
    rw [lastOf_cons]
    simp only [configure] at e
    cases hc : call s c with
    | error p => simp [hc] at e
    | ok s₁ =>
      simp only [hc] at e
      rw [configure_last h cs s₁ s' e, h s c s₁ hc]

/-- When a chain goes through. -/
theorem configure_ok_iff {C σ : Type*} {call : σ → C → Except Panic σ} {I : σ → Prop} {P : C → Prop}
    (h1 : ∀ s c, I s → ((∃ s', call s c = .ok s') ↔ P c)) (h2 : ∀ s c s', I s → call s c = .ok s' → I s') :
    ∀ (cs : List C) (s : σ), I s → ((∃ s', configure call s cs = .ok s') ↔ ∀ c ∈ cs, P c)
  | [], s, _ => by simp [configure]
  | c :: cs, s, hI => by
    simp only [configure, List.mem_cons, forall_eq_or_imp]
    cases hc : call s c with
    | error p =>
      have : ¬ P c := fun hp => by obtain ⟨s', h⟩ := (h1 s c hI).2 hp; rw [hc] at h; simp at h
      simp [this]
    | ok s₁ =>
      have hp : P c := (h1 s c hI).1 ⟨s₁, hc⟩
      simp only [configure_ok_iff h1 h2 cs s₁ (h2 s c s₁ hI hc), hp, true_and]

/-- An invariant kept by every call. -/
theorem configure_inv {C σ : Type*} {call : σ → C → Except Panic σ} {I : σ → Prop}
    (h2 : ∀ s c s', I s → call s c = .ok s' → I s') :
    ∀ (cs : List C) (s s' : σ), I s → configure call s cs = .ok s' → I s'
  | [], s, s', hI, e => by simp only [configure, Except.ok.injEq] at e; rwa [← e]
  | c :: cs, s, s', hI, e => by
    simp only [configure] at e
    cases hc : call s c with
    | error p => simp [hc] at e
    | ok s₁ => simp only [hc] at e; exact configure_inv h2 cs s₁ s' (h2 s c s₁ hI hc) e

theorem two_le_length {S : Examples X ℝ} (h : checkBinary S = .ok ()) : 2 ≤ S.length := by
  unfold checkBinary isValidBinary at h
  split at h
  · simp at h
  · split at h
    · simp at h
    · split at h
      · simp at h
      · rename_i h1 h2 h3
        push Not at h3
        have := List.Sublist.length_le (List.dedup_sublist ((S.map Prod.snd).map asI32))
        rw [h3] at this
        simpa using this

/-! ## AdaBoost -/

/-- C83: every chain of calls on a fresh AdaBoost goes through; the tolerance is the last one given, `1/(m+1)` when none is, and
the round limit the last one given. -/
theorem adaboost_configured (S : Examples X ℝ) (cs : List LimitCall) :
    ∃ s : AdaBoost H, configure AdaBoost.call (AdaBoost.init S) cs = .ok s ∧
      s.tolerance = Spec.lastOf Spec.limitTol cs (1 / ((S.length : ℝ) + 1)) ∧
      s.forceQuitAt = Spec.lastOf Spec.limitQuit cs none := by
  obtain ⟨s, hs⟩ := (configure_ok_iff (call := AdaBoost.call (H := H)) (I := fun _ => True) (P := fun _ => True)
    (fun s c _ => by cases c <;> simp [AdaBoost.call]) (fun _ _ _ _ _ => trivial) cs (AdaBoost.init S) trivial).2 (fun _ _ => trivial)
  refine ⟨s, hs, ?_, ?_⟩
  · exact configure_last (obs := AdaBoost.tolerance) (fun s c s' h => by
      cases c <;> simp only [AdaBoost.call, Except.ok.injEq] at h <;> rw [← h] <;> rfl) cs _ s hs
  · exact configure_last (obs := AdaBoost.forceQuitAt) (fun s c s' h => by
      cases c <;> simp only [AdaBoost.call, Except.ok.injEq] at h <;> rw [← h] <;> rfl) cs _ s hs

/-- C83: only the last values count: two chains that end with the same values give the same run for every weak learner. -/
theorem adaboost_chains_agree [Classifier H X ℝ] (S : Examples X ℝ) (cs cs' : List LimitCall)
    (ht : Spec.lastOf Spec.limitTol cs (1 / ((S.length : ℝ) + 1)) = Spec.lastOf Spec.limitTol cs' (1 / ((S.length : ℝ) + 1)))
    (hq : Spec.lastOf Spec.limitQuit cs none = Spec.lastOf Spec.limitQuit cs' none) (s s' : AdaBoost H)
    (h : configure AdaBoost.call (AdaBoost.init S) cs = .ok s) (h' : configure AdaBoost.call (AdaBoost.init S) cs' = .ok s')
    (wl : WeakLearner ℝ H) (fuel : Nat) :
    (AdaBoost.booster S).run wl fuel s = (AdaBoost.booster S).run wl fuel s' := by
  obtain ⟨t, e, a, b⟩ := adaboost_configured (H := H) S cs
  obtain ⟨t', e', a', b'⟩ := adaboost_configured (H := H) S cs'
  rw [h, Except.ok.injEq] at e; rw [h', Except.ok.injEq] at e'
  subst e e'
  exact adaboost_run_history_independent S s s' (by rw [a, a', ht]) (by rw [b, b', hq]) wl fuel

theorem log_two_gt : (1 / 2 : ℝ) < log 2 := by have := Real.log_two_gt_d9; linarith

/-- The rounds of the default limit are enough for hypotheses of twice the tolerance. -/
theorem adaboost_limit_enough {m : Nat} (hm : 2 ≤ m) {τ g : ℝ} (hτ : 0 < τ) (hτ1 : τ ≤ 1 / 2) (hg : 2 * τ ≤ g) :
    2 * log m < g ^ 2 * (⌊log (m : ℝ) / τ ^ 2⌋₊ : ℝ) := by
  have hL : (1 / 2 : ℝ) < log m := lt_of_lt_of_le log_two_gt (log_le_log (by norm_num) (by exact_mod_cast hm))
  have hfl : log (m : ℝ) / τ ^ 2 < ⌊log (m : ℝ) / τ ^ 2⌋₊ + 1 := Nat.lt_floor_add_one _
  have hτ2 : 0 < τ ^ 2 := by positivity
  rw [div_lt_iff₀ hτ2] at hfl
  set T := (⌊log (m : ℝ) / τ ^ 2⌋₊ : ℝ) with hT
  have hT0 : 0 ≤ T := Nat.cast_nonneg _
  have hg2 : 4 * τ ^ 2 ≤ g ^ 2 := by nlinarith
  have hτ4 : τ ^ 2 ≤ 1 / 4 := by nlinarith
  nlinarith [mul_le_mul_of_nonneg_right hg2 hT0]

/-- C83 for AdaBoost, from the constructor: after any chain of calls in which `force_quit_at` does not occur and the tolerance
ends at `τ ∈ (0, 1/2]`, if every hypothesis of the weak learner has edge at least `2τ`, the run returns a hypothesis without
training error. -/
theorem adaboost_configured_zero_error [Classifier H X ℝ] (S : Examples X ℝ) (cs : List LimitCall)
    (hcs : ∀ n, LimitCall.forceQuitAt n ∉ cs) {τ : ℝ} (hτe : Spec.lastOf Spec.limitTol cs (1 / ((S.length : ℝ) + 1)) = τ)
    (hτ : 0 < τ) (hτ1 : τ ≤ 1 / 2) (wl : WeakLearner ℝ H) (hvalid : checkBinary S = .ok ()) (hpm : Spec.PmLabels S)
    (hconf : ∀ k d, ∀ e ∈ S, |conf (wl k d) e.1| ≤ (1 : ℝ))
    (hwl : ∀ k d, d.length = S.length → Spec.IsPosProb d → 2 * τ ≤ Spec.edge S d (conf (wl k d))) :
    ∃ s f qs, configure AdaBoost.call (AdaBoost.init S) cs = .ok s ∧
      (AdaBoost.booster S).run wl (⌊log (S.length : ℝ) / τ ^ 2⌋₊ + 1) s = some (.ok (f, qs)) ∧
      Spec.errors S (predict (K := ℝ) f) = 0 := by
  obtain ⟨s, hs, ht, hq⟩ := adaboost_configured (H := H) S cs
  have hq' : s.forceQuitAt = none := by
    rw [hq]
    unfold Spec.lastOf
    rw [List.filterMap_eq_nil_iff.2]
    · rfl
    · intro c hc
      cases c with
      | tolerance t => rfl
      | forceQuitAt n => exact absurd hc (hcs n)
  have hlim : adaboostLimit S s = ⌊log (S.length : ℝ) / τ ^ 2⌋₊ := by unfold adaboostLimit; rw [hq', ht, hτe]
  obtain ⟨f, qs, hrun, he⟩ := adaboost_run_zero_error S s wl hvalid hpm hconf (2 * τ) (by linarith) hwl
    (by rw [hlim]; exact adaboost_limit_enough (two_le_length hvalid) hτ hτ1 le_rfl)
  rw [hlim] at hrun
  exact ⟨s, f, qs, hs, hrun, he⟩

/-- C83 for `AdaBoost::init(&sample)` without any further call: edges of at least `2/(m+1)` are enough. -/
theorem adaboost_default_zero_error [Classifier H X ℝ] (S : Examples X ℝ) (wl : WeakLearner ℝ H) (hvalid : checkBinary S = .ok ())
    (hpm : Spec.PmLabels S) (hconf : ∀ k d, ∀ e ∈ S, |conf (wl k d) e.1| ≤ (1 : ℝ))
    (hwl : ∀ k d, d.length = S.length → Spec.IsPosProb d → 2 / ((S.length : ℝ) + 1) ≤ Spec.edge S d (conf (wl k d))) :
    ∃ n f qs, (AdaBoost.booster S).run wl n (AdaBoost.init S) = some (.ok (f, qs)) ∧ Spec.errors S (predict (K := ℝ) f) = 0 := by
  have h2 : (2 : ℝ) ≤ S.length := by exact_mod_cast two_le_length hvalid
  obtain ⟨s, f, qs, h1, h2, h3⟩ := adaboost_configured_zero_error S [] (by simp) (τ := 1 / ((S.length : ℝ) + 1)) rfl (by positivity)
    (by rw [div_le_div_iff₀ (by linarith) (by norm_num)]; linarith) wl hvalid hpm hconf
    (fun k d hd hp => by have := hwl k d hd hp; rw [mul_one_div]; exact this)
  simp only [configure, Except.ok.injEq] at h1
  exact ⟨_, f, qs, h1 ▸ h2, h3⟩

/-! ## AdaBoostV -/

/-- C83: every chain of calls on a fresh AdaBoostV goes through; default tolerance `1/m`. -/
theorem adaboostv_configured (S : Examples X ℝ) (cs : List LimitCall) :
    ∃ s : AdaBoostV H, configure AdaBoostV.call (AdaBoostV.init S) cs = .ok s ∧
      s.tolerance = Spec.lastOf Spec.limitTol cs (1 / (S.length : ℝ)) ∧
      s.forceQuitAt = Spec.lastOf Spec.limitQuit cs none := by
  obtain ⟨s, hs⟩ := (configure_ok_iff (call := AdaBoostV.call (H := H)) (I := fun _ => True) (P := fun _ => True)
    (fun s c _ => by cases c <;> simp [AdaBoostV.call]) (fun _ _ _ _ _ => trivial) cs (AdaBoostV.init S) trivial).2 (fun _ _ => trivial)
  refine ⟨s, hs, ?_, ?_⟩
  · exact configure_last (obs := AdaBoostV.tolerance) (fun s c s' h => by
      cases c <;> simp only [AdaBoostV.call, Except.ok.injEq] at h <;> rw [← h] <;> rfl) cs _ s hs
  · exact configure_last (obs := AdaBoostV.forceQuitAt) (fun s c s' h => by
      cases c <;> simp only [AdaBoostV.call, Except.ok.injEq] at h <;> rw [← h] <;> rfl) cs _ s hs

/-- C83: two chains that end with the same values give the same run. -/
theorem adaboostv_chains_agree [Classifier H X ℝ] (S : Examples X ℝ) (cs cs' : List LimitCall)
    (ht : Spec.lastOf Spec.limitTol cs (1 / (S.length : ℝ)) = Spec.lastOf Spec.limitTol cs' (1 / (S.length : ℝ)))
    (hq : Spec.lastOf Spec.limitQuit cs none = Spec.lastOf Spec.limitQuit cs' none) (s s' : AdaBoostV H)
    (h : configure AdaBoostV.call (AdaBoostV.init S) cs = .ok s) (h' : configure AdaBoostV.call (AdaBoostV.init S) cs' = .ok s')
    (wl : WeakLearner ℝ H) (fuel : Nat) :
    (AdaBoostV.booster S).run wl fuel s = (AdaBoostV.booster S).run wl fuel s' := by
  obtain ⟨t, e, a, b⟩ := adaboostv_configured (H := H) S cs
  obtain ⟨t', e', a', b'⟩ := adaboostv_configured (H := H) S cs'
  rw [h, Except.ok.injEq] at e; rw [h', Except.ok.injEq] at e'
  subst e e'
  exact adaboostv_run_history_independent S s s' (by rw [a, a', ht]) (by rw [b, b', hq]) wl fuel

/-- C83 for AdaBoostV, from the constructor: with the limit the code computes, every margin is at least `g - τ - τ/(2T)`, where
`T = ⌊2 ln(m)/τ²⌋ ≥ 1` is the number of rounds; in particular at least `g - 3τ/2`. -/
theorem adaboostv_configured_margin [Classifier H X ℝ] (S : Examples X ℝ) (cs : List LimitCall)
    (hcs : ∀ n, LimitCall.forceQuitAt n ∉ cs) {τ : ℝ} (hτe : Spec.lastOf Spec.limitTol cs (1 / (S.length : ℝ)) = τ)
    (hτ : 0 < τ) (hτ1 : τ ≤ 1) (wl : WeakLearner ℝ H) (hvalid : checkBinary S = .ok ()) (hpm : Spec.PmLabels S)
    (hconf : ∀ k d, ∀ e ∈ S, |conf (wl k d) e.1| ≤ (1 : ℝ)) (g : ℝ) (hg : τ - 1 < g)
    (hwl : ∀ k d, d.length = S.length → Spec.IsPosProb d → g ≤ Spec.edge S d (conf (wl k d))) :
    ∃ s f qs, configure AdaBoostV.call (AdaBoostV.init S) cs = .ok s ∧ 0 < ⌊2 * log (S.length : ℝ) / τ ^ 2⌋₊ ∧
      (AdaBoostV.booster S).run wl (⌊2 * log (S.length : ℝ) / τ ^ 2⌋₊ + 1) s = some (.ok (f, qs)) ∧
      ∀ e ∈ S, g - τ - τ / (2 * ⌊2 * log (S.length : ℝ) / τ ^ 2⌋₊) ≤ e.2 * conf f e.1 ∧ g - 3 / 2 * τ ≤ e.2 * conf f e.1 := by
  obtain ⟨s, hs, ht, hq⟩ := adaboostv_configured (H := H) S cs
  have hq' : s.forceQuitAt = none := by
    rw [hq]
    unfold Spec.lastOf
    rw [List.filterMap_eq_nil_iff.2]
    · rfl
    · intro c hc
      cases c with
      | tolerance t => rfl
      | forceQuitAt n => exact absurd hc (hcs n)
  have hlim : adaboostvLimit S s = ⌊2 * log (S.length : ℝ) / τ ^ 2⌋₊ := by unfold adaboostvLimit; rw [hq', ht, hτe]
  have hL : (1 / 2 : ℝ) < log S.length :=
    lt_of_lt_of_le log_two_gt (log_le_log (by norm_num) (by exact_mod_cast two_le_length hvalid))
  have hpos : 0 < ⌊2 * log (S.length : ℝ) / τ ^ 2⌋₊ := by
    rw [Nat.floor_pos, le_div_iff₀ (by positivity)]
    nlinarith
  rw [hτe] at ht
  obtain ⟨f, qs, hrun, he⟩ := adaboostv_run_margin_at_limit S s wl hvalid hpm hconf g (by rw [ht]; exact hτ) (by rw [ht]; linarith) hwl hq'
    (by rw [hlim]; exact hpos)
  rw [hlim] at hrun he
  rw [ht] at he
  refine ⟨s, f, qs, hs, hpos, hrun, fun e hm => ⟨he e hm, ?_⟩⟩
  have h1 := he e hm
  have h2 : (1 : ℝ) ≤ ⌊2 * log (S.length : ℝ) / τ ^ 2⌋₊ := by exact_mod_cast hpos
  have h3 : τ / (2 * ⌊2 * log (S.length : ℝ) / τ ^ 2⌋₊) ≤ τ / 2 := by
    apply div_le_div_of_nonneg_left hτ.le (by norm_num)
    linarith
  linarith

/-! ## MadaBoost -/

/-- C83: every chain of calls on a fresh MadaBoost goes through; default tolerance `1/(m+1)`. -/
theorem madaboost_configured (S : Examples X ℝ) (cs : List LimitCall) :
    ∃ s : MadaBoost H, configure MadaBoost.call (MadaBoost.init S) cs = .ok s ∧
      s.tolerance = Spec.lastOf Spec.limitTol cs (1 / ((S.length : ℝ) + 1)) ∧
      s.forceQuitAt = Spec.lastOf Spec.limitQuit cs none := by
  obtain ⟨s, hs⟩ := (configure_ok_iff (call := MadaBoost.call (H := H)) (I := fun _ => True) (P := fun _ => True)
    (fun s c _ => by cases c <;> simp [MadaBoost.call]) (fun _ _ _ _ _ => trivial) cs (MadaBoost.init S) trivial).2 (fun _ _ => trivial)
  refine ⟨s, hs, ?_, ?_⟩
  · exact configure_last (obs := MadaBoost.tolerance) (fun s c s' h => by
      cases c <;> simp only [MadaBoost.call, Except.ok.injEq] at h <;> rw [← h] <;> rfl) cs _ s hs
  · exact configure_last (obs := MadaBoost.forceQuitAt) (fun s c s' h => by
      cases c <;> simp only [MadaBoost.call, Except.ok.injEq] at h <;> rw [← h] <;> rfl) cs _ s hs

/-- C83: two chains that end with the same values give the same run. -/
theorem madaboost_chains_agree [Classifier H X ℝ] (S : Examples X ℝ) (cs cs' : List LimitCall)
    (ht : Spec.lastOf Spec.limitTol cs (1 / ((S.length : ℝ) + 1)) = Spec.lastOf Spec.limitTol cs' (1 / ((S.length : ℝ) + 1)))
    (hq : Spec.lastOf Spec.limitQuit cs none = Spec.lastOf Spec.limitQuit cs' none) (s s' : MadaBoost H)
    (h : configure MadaBoost.call (MadaBoost.init S) cs = .ok s) (h' : configure MadaBoost.call (MadaBoost.init S) cs' = .ok s')
    (wl : WeakLearner ℝ H) (fuel : Nat) :
    (MadaBoost.booster S).run wl fuel s = (MadaBoost.booster S).run wl fuel s' := by
  obtain ⟨t, e, a, b⟩ := madaboost_configured (H := H) S cs
  obtain ⟨t', e', a', b'⟩ := madaboost_configured (H := H) S cs'
  rw [h, Except.ok.injEq] at e; rw [h', Except.ok.injEq] at e'
  subst e e'
  exact madaboost_run_history_independent S s s' (by rw [a, a', ht]) (by rw [b, b', hq]) wl fuel

/-! ## SmoothBoost -/

/-- C83: a chain of calls on a fresh SmoothBoost goes through exactly when every `gamma` lies in `[0, 1/2)`; defaults `κ = 1/2`
and `γ = 1/2` (with which `run` panics, `smoothboost_default_panics`). -/
theorem smoothboost_configured (S : Examples X ℝ) (cs : List SmoothCall) :
    ((∃ s : SmoothBoost H, configure SmoothBoost.call (SmoothBoost.init S) cs = .ok s) ↔
      ∀ g, SmoothCall.gamma g ∈ cs → 0 ≤ g ∧ g < 1 / 2) ∧
    ∀ s : SmoothBoost H, configure SmoothBoost.call (SmoothBoost.init S) cs = .ok s →
      s.kappa = Spec.lastOf Spec.smoothTol cs (1 / 2) ∧ s.gamma = Spec.lastOf Spec.smoothGamma cs (1 / 2) := by
  constructor
  · rw [configure_ok_iff (call := SmoothBoost.call (H := H)) (I := fun _ => True)
      (P := fun c => ∀ g, c = .gamma g → 0 ≤ g ∧ g < 1 / 2) ?_ (fun _ _ _ _ _ => trivial) cs (SmoothBoost.init S) trivial]
    · constructor
      · intro h g hg; exact h _ hg g rfl
      · rintro h c hc g rfl; exact h g hc
    · intro s c _
      cases c with
      | tolerance t => simp [SmoothBoost.call]
      | gamma g =>
        simp only [SmoothBoost.call, SmoothBoost.setGamma, SmoothCall.gamma.injEq, forall_eq']
        split <;> simp_all
  · intro s hs
    constructor
    · exact configure_last (obs := SmoothBoost.kappa) (fun s c s' h => by
        cases c with
        | tolerance t => simp only [SmoothBoost.call, Except.ok.injEq] at h; rw [← h]; rfl
        | gamma g =>
          simp only [SmoothBoost.call, SmoothBoost.setGamma] at h
          split at h <;> simp only [Except.ok.injEq, reduceCtorEq] at h
          rw [← h]; rfl) cs _ s hs
    · exact configure_last (obs := SmoothBoost.gamma) (fun s c s' h => by
        cases c with
        | tolerance t => simp only [SmoothBoost.call, Except.ok.injEq] at h; rw [← h]; rfl
        | gamma g =>
          simp only [SmoothBoost.call, SmoothBoost.setGamma] at h
          split at h <;> simp only [Except.ok.injEq, reduceCtorEq] at h
          rw [← h]; rfl) cs _ s hs

/-- C83: two chains that go through and end with the same values give the same run. -/
theorem smoothboost_chains_agree [Classifier H X ℝ] (S : Examples X ℝ) (cs cs' : List SmoothCall)
    (ht : Spec.lastOf Spec.smoothTol cs (1 / 2) = Spec.lastOf Spec.smoothTol cs' (1 / 2))
    (hg : Spec.lastOf Spec.smoothGamma cs (1 / 2) = Spec.lastOf Spec.smoothGamma cs' (1 / 2)) (s s' : SmoothBoost H)
    (h : configure SmoothBoost.call (SmoothBoost.init S) cs = .ok s) (h' : configure SmoothBoost.call (SmoothBoost.init S) cs' = .ok s')
    (wl : WeakLearner ℝ H) (fuel : Nat) :
    (SmoothBoost.booster S).run wl fuel s = (SmoothBoost.booster S).run wl fuel s' := by
  obtain ⟨a, b⟩ := (smoothboost_configured S cs).2 s h
  obtain ⟨a', b'⟩ := (smoothboost_configured S cs').2 s' h'
  exact smoothboost_run_history_independent S s s' (by rw [a, a', ht]) (by rw [b, b', hg]) wl fuel

/-! ## LPBoost -/

/-- C83: a chain of calls on a fresh LPBoost goes through exactly when every `nu` lies in `[1, m]`; defaults `ν = 1`, tolerance
`1/m`. -/
theorem lpboost_configured (S : Examples X ℝ) (cs : List NuCall) :
    ((∃ s : LPBoost ℝ H, configure LPBoost.call (LPBoost.init S) cs = .ok s) ↔
      ∀ v, NuCall.nu v ∈ cs → 1 ≤ v ∧ v ≤ (S.length : ℝ)) ∧
    ∀ s : LPBoost ℝ H, configure LPBoost.call (LPBoost.init S) cs = .ok s →
      s.nu = Spec.lastOf Spec.nuNu cs 1 ∧ s.tolerance = Spec.lastOf Spec.nuTol cs (1 / (S.length : ℝ)) ∧ s.nSample = S.length := by
  have hI : ∀ (s : LPBoost ℝ H) c s', s.nSample = S.length → LPBoost.call s c = .ok s' → s'.nSample = S.length := by
    intro s c s' h e
    cases c with
    | tolerance t => simp only [LPBoost.call, Except.ok.injEq] at e; rw [← e]; exact h
    | nu v =>
      simp only [LPBoost.call, LPBoost.setNu, checkNu] at e
      split at e <;> simp only [Except.ok.injEq, reduceCtorEq] at e
      rw [← e]; exact h
  constructor
  · rw [configure_ok_iff (call := LPBoost.call (H := H)) (I := fun s => s.nSample = S.length)
      (P := fun c => ∀ v, c = .nu v → 1 ≤ v ∧ v ≤ (S.length : ℝ)) ?_ hI cs (LPBoost.init S) rfl]
    · constructor
      · intro h v hv; exact h _ hv v rfl
      · rintro h c hc v rfl; exact h v hc
    · intro s c hs
      cases c with
      | tolerance t => simp [LPBoost.call]
      | nu v =>
        simp only [LPBoost.call, LPBoost.setNu, checkNu, NuCall.nu.injEq, forall_eq', hs]
        by_cases h : 1 ≤ v ∧ v ≤ (S.length : ℝ)
        · simp [h]
        · simp [h]
  · intro s hs
    refine ⟨?_, ?_, configure_inv hI cs _ s rfl hs⟩
    · exact configure_last (obs := LPBoost.nu) (fun s c s' h => by
        cases c with
        | tolerance t => simp only [LPBoost.call, Except.ok.injEq] at h; rw [← h]; rfl
        | nu v =>
          simp only [LPBoost.call, LPBoost.setNu] at h
          split at h <;> simp only [Except.ok.injEq, reduceCtorEq] at h
          rw [← h]; rfl) cs _ s hs
    · exact configure_last (obs := LPBoost.tolerance) (fun s c s' h => by
        cases c with
        | tolerance t => simp only [LPBoost.call, Except.ok.injEq] at h; rw [← h]; rfl
        | nu v =>
          simp only [LPBoost.call, LPBoost.setNu] at h
          split at h <;> simp only [Except.ok.injEq, reduceCtorEq] at h
          rw [← h]; rfl) cs _ s hs

theorem lastOf_mem {C α : Type*} {sel : C → Option α} {cs : List C} {d : α} :
    Spec.lastOf sel cs d = d ∨ ∃ c ∈ cs, sel c = some (Spec.lastOf sel cs d) := by
  unfold Spec.lastOf
  cases h : (List.filterMap sel cs).getLast? with
  | none => exact .inl rfl
  | some a =>
    right
    obtain ⟨c, hc, hs⟩ := List.mem_filterMap.1 (List.mem_of_getLast? h)
    exact ⟨c, hc, hs⟩

theorem lastNu_range {S : Examples X ℝ} (hS : S ≠ []) {cs : List NuCall} (h : ∀ v, NuCall.nu v ∈ cs → 1 ≤ v ∧ v ≤ (S.length : ℝ)) :
    1 ≤ Spec.lastOf Spec.nuNu cs 1 ∧ Spec.lastOf Spec.nuNu cs 1 ≤ (S.length : ℝ) := by
  rcases lastOf_mem (sel := Spec.nuNu) (cs := cs) (d := 1) with e | ⟨c, hc, e⟩
  · rw [e]; exact ⟨le_rfl, by exact_mod_cast List.length_pos_iff.2 hS⟩
  · cases c with
    | tolerance t => simp [Spec.nuNu] at e
    | nu v => simp only [Spec.nuNu, Option.some.injEq] at e; rw [← e]; exact h v hc

/-- C83 for LPBoost, from the constructor: after any chain of legal calls that leaves a positive tolerance `τ`, the run returns
and, when every hypothesis has edge at least `ρ`, all margins are at least `ρ - τ`. -/
theorem lpboost_configured_margin [Classifier H X ℝ] (S : Examples X ℝ) (cs : List NuCall)
    (hcs : ∀ v, NuCall.nu v ∈ cs → 1 ≤ v ∧ v ≤ (S.length : ℝ)) {τ : ℝ} (hτe : Spec.lastOf Spec.nuTol cs (1 / (S.length : ℝ)) = τ)
    (hτ : 0 < τ) (solver : Solver ℝ) (hsolver : solver.Correct) (wl : WeakLearner ℝ H) (hvalid : checkBinary S = .ok ())
    (hpm : Spec.PmLabels S) (hconf : ∀ k d, ∀ e ∈ S, |conf (wl k d) e.1| ≤ (1 : ℝ)) :
    ∃ s f qs, configure LPBoost.call (LPBoost.init S) cs = .ok s ∧
      (LPBoost.booster solver S).run wl ((⌊2 / τ⌋₊ + 1) ^ S.length + 1) s = some (.ok (f, qs)) ∧
      ∀ ρ ≤ (1 : ℝ), (∀ k d, d.length = S.length → Spec.IsProb d → ρ ≤ Spec.edge S d (conf (wl k d))) →
        Spec.IsProb f.weights ∧ ∀ e ∈ S, ρ - τ ≤ e.2 * conf f e.1 := by
  obtain ⟨s, hs⟩ := (lpboost_configured (H := H) S cs).1.2 hcs
  obtain ⟨h1, h2, h3⟩ := (lpboost_configured S cs).2 s hs
  obtain ⟨n1, n2⟩ := lastNu_range (checkBinary_ne_nil hvalid) hcs
  rw [hτe] at h2
  obtain ⟨f, qs, hr⟩ := lpboost_returns_always S s h3 hpm (by rw [h2]; exact hτ) hvalid (by rw [h1]; exact n1) (by rw [h1]; exact n2)
    solver hsolver wl hconf
  rw [h2] at hr
  refine ⟨s, f, qs, hs, hr, fun ρ hρ hwl => ?_⟩
  have := lpboost_margin S s h3 solver hsolver wl ρ hρ hwl _ f qs hr
  rwa [h2] at this

/-- C83: two chains that go through and end with the same values give the same run. -/
theorem lpboost_chains_agree [Classifier H X ℝ] (S : Examples X ℝ) (cs cs' : List NuCall)
    (hn : Spec.lastOf Spec.nuNu cs 1 = Spec.lastOf Spec.nuNu cs' 1)
    (ht : Spec.lastOf Spec.nuTol cs (1 / (S.length : ℝ)) = Spec.lastOf Spec.nuTol cs' (1 / (S.length : ℝ))) (s s' : LPBoost ℝ H)
    (h : configure LPBoost.call (LPBoost.init S) cs = .ok s) (h' : configure LPBoost.call (LPBoost.init S) cs' = .ok s')
    (solver : Solver ℝ) (wl : WeakLearner ℝ H) (fuel : Nat) :
    (LPBoost.booster solver S).run wl fuel s = (LPBoost.booster solver S).run wl fuel s' := by
  obtain ⟨a, b, c⟩ := (lpboost_configured S cs).2 s h
  obtain ⟨a', b', c'⟩ := (lpboost_configured S cs').2 s' h'
  exact lpboost_history_independent S s s' solver wl fuel (by rw [a, a', hn]) (by rw [b, b', ht]) (by rw [c, c'])

/-! ## ERLPBoost -/

/-- C83: `ERLPBoost::init` needs a non-empty sample; a chain of calls then goes through exactly when every `nu` lies in `[1, m]`;
defaults `ν = 1`, tolerance `1/100`; the stored value is half the tolerance. -/
theorem erlp_configured (S : Examples X ℝ) (hS : S ≠ []) :
    ∃ s₀ : ERLPBoost H, ERLPBoost.init S = .ok s₀ ∧ ∀ cs : List NuCall,
      ((∃ s, configure ERLPBoost.call s₀ cs = .ok s) ↔ ∀ v, NuCall.nu v ∈ cs → 1 ≤ v ∧ v ≤ (S.length : ℝ)) ∧
      ∀ s, configure ERLPBoost.call s₀ cs = .ok s →
        s.nu = Spec.lastOf Spec.nuNu cs 1 ∧ 2 * s.halfTolerance = Spec.lastOf Spec.nuTol cs (1 / 100) ∧ s.nSample = S.length := by
  have h0 : S.length ≠ 0 := fun h => hS (List.length_eq_zero_iff.1 h)
  refine ⟨_, by unfold ERLPBoost.init; rw [if_neg h0], fun cs => ?_⟩
  have hI : ∀ (s : ERLPBoost H) c s', s.nSample = S.length → ERLPBoost.call s c = .ok s' → s'.nSample = S.length := by
    intro s c s' h e
    cases c with
    | tolerance t => simp only [ERLPBoost.call, Except.ok.injEq] at e; rw [← e]; exact h
    | nu v =>
      simp only [ERLPBoost.call, ERLPBoost.setNu] at e
      split at e <;> simp only [Except.ok.injEq, reduceCtorEq] at e
      rw [← e]; exact h
  constructor
  · rw [configure_ok_iff (call := ERLPBoost.call (H := H)) (I := fun s => s.nSample = S.length)
      (P := fun c => ∀ v, c = .nu v → 1 ≤ v ∧ v ≤ (S.length : ℝ)) ?_ hI cs _ rfl]
    · constructor
      · intro h v hv; exact h _ hv v rfl
      · rintro h c hc v rfl; exact h v hc
    · intro s c hs
      cases c with
      | tolerance t => simp [ERLPBoost.call]
      | nu v =>
        simp only [ERLPBoost.call, ERLPBoost.setNu, NuCall.nu.injEq, forall_eq', hs]
        by_cases h : 1 ≤ v ∧ v ≤ (S.length : ℝ)
        · simp [h]
        · simp [h]
  · intro s hs
    refine ⟨?_, ?_, configure_inv hI cs _ s rfl hs⟩
    · exact configure_last (obs := ERLPBoost.nu) (fun s c s' h => by
        cases c with
        | tolerance t => simp only [ERLPBoost.call, Except.ok.injEq] at h; rw [← h]; rfl
        | nu v =>
          simp only [ERLPBoost.call, ERLPBoost.setNu] at h
          split at h <;> simp only [Except.ok.injEq, reduceCtorEq] at h
          rw [← h]; rfl) cs _ s hs
    · have := configure_last (obs := fun s : ERLPBoost H => 2 * s.halfTolerance) (sel := Spec.nuTol) (fun s c s' h => by
        cases c with
        | tolerance t =>
          simp only [ERLPBoost.call, Except.ok.injEq] at h; rw [← h]
          simp only [ERLPBoost.setTolerance, Spec.nuTol, Option.getD_some]; ring
        | nu v =>
          simp only [ERLPBoost.call, ERLPBoost.setNu] at h
          split at h <;> simp only [Except.ok.injEq, reduceCtorEq] at h
          rw [← h]; rfl) cs _ s hs
      rw [this]
      norm_num

/-- C83 for ERLPBoost, from the constructor: after any chain of legal calls that leaves a tolerance `τ ∈ (0, 2)`, the run returns a
vote of the weak learner's hypotheses, provided the first hypothesis has edge more than `τ/2 - 1`. -/
theorem erlp_configured_returns [Classifier H X ℝ] (S : Examples X ℝ) (cs : List NuCall)
    (hcs : ∀ v, NuCall.nu v ∈ cs → 1 ≤ v ∧ v ≤ (S.length : ℝ)) {τ ν : ℝ} (hτe : Spec.lastOf Spec.nuTol cs (1 / 100) = τ)
    (hν : Spec.lastOf Spec.nuNu cs 1 = ν)
    (hτ : 0 < τ) (hτ2 : τ < 2) (solver : Solver ℝ) (hsolver : solver.Correct) (hrep : solver.Reports)
    (fuel : Nat) (hfuel : ERLP.enough S.length ≤ fuel) (wl : WeakLearner ℝ H) (hvalid : checkBinary S = .ok ())
    (hb : ∀ k d, ∀ e ∈ S, |e.2 * conf (wl k d) e.1| ≤ (1 : ℝ))
    (hfirst : ∀ d, d.length = S.length → Spec.IsCapped ν d → τ / 2 - 1 < Spec.edge S d (conf (wl 1 d))) :
    ∃ s₀ s f n qs, ERLPBoost.init S = .ok s₀ ∧ configure ERLPBoost.call s₀ cs = .ok s ∧
      (ERLPBoost.booster solver fuel S).run wl n s = some (.ok (f, qs)) ∧ Spec.IsProb f.weights ∧
      ∀ h ∈ f.hypotheses, ∃ k d, h = wl k d := by
  have hS := checkBinary_ne_nil hvalid
  obtain ⟨s₀, h0, h⟩ := erlp_configured (H := H) S hS
  obtain ⟨s, hs⟩ := (h cs).1.2 hcs
  obtain ⟨h1, h2, h3⟩ := (h cs).2 s hs
  obtain ⟨n1, n2⟩ := lastNu_range hS hcs
  rw [hτe] at h2
  have h2' : s.halfTolerance = τ / 2 := by linarith
  obtain ⟨f, qs, hr, r2, r3⟩ := erlp_returns S s h3 hvalid (by rw [h2']; linarith) (by rw [h2']; linarith) (by rw [h1]; exact n1)
    (by rw [h1]; exact n2) solver hsolver hrep fuel hfuel wl hb (by rw [h1, h2', hν]; exact hfirst)
  exact ⟨s₀, s, f, _, qs, h0, hs, hr, r2, r3⟩

/-- C83: two chains that go through and end with the same values give the same run. -/
theorem erlp_chains_agree [Classifier H X ℝ] (S : Examples X ℝ) (hS : S ≠ []) (cs cs' : List NuCall)
    (hn : Spec.lastOf Spec.nuNu cs 1 = Spec.lastOf Spec.nuNu cs' 1)
    (ht : Spec.lastOf Spec.nuTol cs (1 / 100) = Spec.lastOf Spec.nuTol cs' (1 / 100)) (s₀ s s' : ERLPBoost H)
    (h0 : ERLPBoost.init S = .ok s₀)
    (h : configure ERLPBoost.call s₀ cs = .ok s) (h' : configure ERLPBoost.call s₀ cs' = .ok s')
    (solver : Solver ℝ) (fuel : Nat) (wl : WeakLearner ℝ H) (k : Nat) :
    (ERLPBoost.booster solver fuel S).run wl k s = (ERLPBoost.booster solver fuel S).run wl k s' := by
  obtain ⟨t, e, g⟩ := erlp_configured (H := H) S hS
  rw [h0, Except.ok.injEq] at e
  subst e
  obtain ⟨a, b, c⟩ := (g cs).2 s h
  obtain ⟨a', b', c'⟩ := (g cs').2 s' h'
  exact erlp_history_independent S s s' solver fuel wl k (by rw [a, a', hn]) (by linarith) (by rw [c, c'])

/-! ## SoftBoost -/

/-- C83: `SoftBoost::init` needs a non-empty sample; a chain of calls then goes through exactly when every `nu` lies in `[1, m]`;
defaults `ν = 1`, tolerance `1/m`. -/
theorem softboost_configured (S : Examples X ℝ) (hS : S ≠ []) :
    ∃ s₀ : SoftBoost H, SoftBoost.init S = .ok s₀ ∧ ∀ cs : List NuCall,
      ((∃ s, configure (SoftBoost.call S) s₀ cs = .ok s) ↔ ∀ v, NuCall.nu v ∈ cs → 1 ≤ v ∧ v ≤ (S.length : ℝ)) ∧
      ∀ s, configure (SoftBoost.call S) s₀ cs = .ok s →
        s.nu = Spec.lastOf Spec.nuNu cs 1 ∧ s.tolerance = Spec.lastOf Spec.nuTol cs (1 / (S.length : ℝ)) := by
  have h0 : S.length ≠ 0 := fun h => hS (List.length_eq_zero_iff.1 h)
  refine ⟨_, by unfold SoftBoost.init; rw [if_neg h0], fun cs => ?_⟩
  constructor
  · rw [configure_ok_iff (call := SoftBoost.call (H := H) S) (I := fun _ => True)
      (P := fun c => ∀ v, c = .nu v → 1 ≤ v ∧ v ≤ (S.length : ℝ)) ?_ (fun _ _ _ _ _ => trivial) cs _ trivial]
    · constructor
      · intro h v hv; exact h _ hv v rfl
      · rintro h c hc v rfl; exact h v hc
    · intro s c hs
      cases c with
      | tolerance t => simp [SoftBoost.call]
      | nu v =>
        simp only [SoftBoost.call, SoftBoost.setNu, NuCall.nu.injEq, forall_eq']
        by_cases h : 1 ≤ v ∧ v ≤ (S.length : ℝ)
        · simp [h]
        · simp [h]
  · intro s hs
    constructor
    · exact configure_last (obs := SoftBoost.nu) (fun s c s' h => by
        cases c with
        | tolerance t => simp only [SoftBoost.call, Except.ok.injEq] at h; rw [← h]; rfl
        | nu v =>
          simp only [SoftBoost.call, SoftBoost.setNu] at h
          split at h <;> simp only [Except.ok.injEq, reduceCtorEq] at h
          rw [← h]; rfl) cs _ s hs
    · exact configure_last (obs := SoftBoost.tolerance) (fun s c s' h => by
        cases c with
        | tolerance t => simp only [SoftBoost.call, Except.ok.injEq] at h; rw [← h]; rfl
        | nu v =>
          simp only [SoftBoost.call, SoftBoost.setNu] at h
          split at h <;> simp only [Except.ok.injEq, reduceCtorEq] at h
          rw [← h]; rfl) cs _ s hs

/-- C83 for SoftBoost, from the constructor: after any chain of legal calls that leaves a non-zero tolerance and `ν < m`, the run
returns the best vote over the hypotheses it collected. -/
theorem softboost_configured_returns [Classifier H X ℝ] (S : Examples X ℝ) (cs : List NuCall)
    (hcs : ∀ v, NuCall.nu v ∈ cs → 1 ≤ v ∧ v ≤ (S.length : ℝ)) {ν : ℝ} (hτe : Spec.lastOf Spec.nuTol cs (1 / (S.length : ℝ)) ≠ 0)
    (hν : Spec.lastOf Spec.nuNu cs 1 = ν) (hνlt : ν < S.length)
    (solver : Solver ℝ) (hsolver : solver.Correct) (hsig : solver.Signals)
    (fuel : Nat) (hfuel : SoftQP.enough S.length ≤ fuel) (wl : WeakLearner ℝ H) (hvalid : checkBinary S = .ok ()) :
    ∃ s₀ s f n qs, SoftBoost.init S = .ok s₀ ∧ configure (SoftBoost.call S) s₀ cs = .ok s ∧
      (SoftBoost.booster solver fuel S).run wl n s = some (.ok (f, qs)) ∧
      ∀ v : List (ℝ × H), (∀ p ∈ v, 0 ≤ p.1 ∧ ∃ i q, qs[i]? = some q ∧ p.2 = wl (i + 1) q) → (v.map Prod.fst).sum = 1 →
        ∀ ρ, Spec.SoftMarginGe S ν (Spec.vote conf v) ρ → Spec.SoftMarginGe S ν (conf f) ρ := by
  have hS := checkBinary_ne_nil hvalid
  obtain ⟨s₀, h0, h⟩ := softboost_configured (H := H) S hS
  obtain ⟨s, hs⟩ := (h cs).1.2 hcs
  obtain ⟨h1, h2⟩ := (h cs).2 s hs
  obtain ⟨n1, n2⟩ := lastNu_range hS hcs
  obtain ⟨f, qs, hr⟩ := softboost_returns S s hvalid (by rw [h2]; exact hτe) (by rw [h1]; exact n1) (by rw [h1, hν]; exact hνlt)
    solver hsolver hsig fuel hfuel wl
  refine ⟨s₀, s, f, _, qs, h0, hs, hr, fun v hv hv1 ρ hρ => ?_⟩
  have := softboost_output_optimal S s solver hsolver fuel wl _ f qs hr v hv hv1 ρ (by rw [h1, hν]; exact hρ)
  rwa [h1, hν] at this

/-- C83: two chains that go through and end with the same values give the same run. -/
theorem softboost_chains_agree [Classifier H X ℝ] (S : Examples X ℝ) (hS : S ≠ []) (cs cs' : List NuCall)
    (hn : Spec.lastOf Spec.nuNu cs 1 = Spec.lastOf Spec.nuNu cs' 1)
    (ht : Spec.lastOf Spec.nuTol cs (1 / (S.length : ℝ)) = Spec.lastOf Spec.nuTol cs' (1 / (S.length : ℝ))) (s₀ s s' : SoftBoost H)
    (h0 : SoftBoost.init S = .ok s₀)
    (h : configure (SoftBoost.call S) s₀ cs = .ok s) (h' : configure (SoftBoost.call S) s₀ cs' = .ok s')
    (solver : Solver ℝ) (fuel : Nat) (wl : WeakLearner ℝ H) (k : Nat) :
    (SoftBoost.booster solver fuel S).run wl k s = (SoftBoost.booster solver fuel S).run wl k s' := by
  obtain ⟨t, e, g⟩ := softboost_configured (H := H) S hS
  rw [h0, Except.ok.injEq] at e
  subst e
  obtain ⟨a, b⟩ := (g cs).2 s h
  obtain ⟨a', b'⟩ := (g cs').2 s' h'
  exact softboost_history_independent S s s' solver fuel wl k (by rw [a, a', hn]) (by rw [b, b', ht])

/-! ## CERLPBoost -/

/-- C83: a chain of calls on a fresh CERLPBoost goes through exactly when every `nu` lies in `[1, m]`; defaults `ν = 1`, tolerance
`1/100`, short steps; the Frank-Wolfe part always works with the same `ν`. -/
theorem cerlp_configured (S : Examples X ℝ) (cs : List FwCall) :
    ((∃ s : CERLPBoost H, configure (CERLPBoost.call S) (CERLPBoost.init S) cs = .ok s) ↔
      ∀ v, FwCall.nu v ∈ cs → 1 ≤ v ∧ v ≤ (S.length : ℝ)) ∧
    ∀ s : CERLPBoost H, configure (CERLPBoost.call S) (CERLPBoost.init S) cs = .ok s →
      s.nu = Spec.lastOf Spec.fwNu cs 1 ∧ 2 * s.halfTolerance = Spec.lastOf Spec.fwTol cs (1 / 100) ∧
      s.frankWolfe.fwType = Spec.lastOf Spec.fwStrategy cs .shortStep ∧ s.frankWolfe.nu = s.nu := by
  have hcall : ∀ (s : CERLPBoost H) v s', CERLPBoost.call S s (.nu v) = .ok s' →
      s' = CERLPBoost.regularizationParam { s with nu := v, frankWolfe := { s.frankWolfe with nu := v } } := by
    intro s v s' e
    simp only [CERLPBoost.call, CERLPBoost.setNu] at e
    split at e <;> simp only [Except.ok.injEq, reduceCtorEq] at e
    exact e.symm
  constructor
  · rw [configure_ok_iff (call := CERLPBoost.call (H := H) S) (I := fun _ => True)
      (P := fun c => ∀ v, c = .nu v → 1 ≤ v ∧ v ≤ (S.length : ℝ)) ?_ (fun _ _ _ _ _ => trivial) cs _ trivial]
    · constructor
      · intro h v hv; exact h _ hv v rfl
      · rintro h c hc v rfl; exact h v hc
    · intro s c hs
      cases c with
      | tolerance t => simp [CERLPBoost.call]
      | strategy t => simp [CERLPBoost.call]
      | nu v =>
        simp only [CERLPBoost.call, CERLPBoost.setNu, checkNu, FwCall.nu.injEq, forall_eq']
        by_cases h : 1 ≤ v ∧ v ≤ (S.length : ℝ)
        · simp [h]
        · simp [h]
  · intro s hs
    refine ⟨?_, ?_, ?_, ?_⟩
    · exact configure_last (obs := CERLPBoost.nu) (fun s c s' h => by
        cases c with
        | tolerance t => simp only [CERLPBoost.call, Except.ok.injEq] at h; rw [← h]; rfl
        | strategy t => simp only [CERLPBoost.call, Except.ok.injEq] at h; rw [← h]; rfl
        | nu v => rw [hcall s v s' h]; rfl) cs _ s hs
    · have := configure_last (obs := fun s : CERLPBoost H => 2 * s.halfTolerance) (sel := Spec.fwTol) (fun s c s' h => by
        cases c with
        | tolerance t =>
          simp only [CERLPBoost.call, Except.ok.injEq] at h; rw [← h]
          simp only [CERLPBoost.setTolerance, Spec.fwTol, Option.getD_some]; ring
        | strategy t => simp only [CERLPBoost.call, Except.ok.injEq] at h; rw [← h]; rfl
        | nu v => rw [hcall s v s' h]; rfl) cs _ s hs
      rw [this]
      simp only [CERLPBoost.init]
      norm_num
    · exact configure_last (obs := fun s : CERLPBoost H => s.frankWolfe.fwType) (fun s c s' h => by
        cases c with
        | tolerance t => simp only [CERLPBoost.call, Except.ok.injEq] at h; rw [← h]; rfl
        | strategy t => simp only [CERLPBoost.call, Except.ok.injEq] at h; rw [← h]; rfl
        | nu v => rw [hcall s v s' h]; rfl) cs _ s hs
    · refine configure_inv (I := fun s : CERLPBoost H => s.frankWolfe.nu = s.nu) (fun s c s' hi h => ?_) cs _ s rfl hs
      cases c with
      | tolerance t => simp only [CERLPBoost.call, Except.ok.injEq] at h; rw [← h]; exact hi
      | strategy t => simp only [CERLPBoost.call, Except.ok.injEq] at h; rw [← h]; exact hi
      | nu v => rw [hcall s v s' h]; rfl

theorem lastFwNu_range {S : Examples X ℝ} (hS : S ≠ []) {cs : List FwCall} (h : ∀ v, FwCall.nu v ∈ cs → 1 ≤ v ∧ v ≤ (S.length : ℝ)) :
    1 ≤ Spec.lastOf Spec.fwNu cs 1 ∧ Spec.lastOf Spec.fwNu cs 1 ≤ (S.length : ℝ) := by
  rcases lastOf_mem (sel := Spec.fwNu) (cs := cs) (d := 1) with e | ⟨c, hc, e⟩
  · rw [e]; exact ⟨le_rfl, by exact_mod_cast List.length_pos_iff.2 hS⟩
  · cases c with
    | tolerance t => simp [Spec.fwNu] at e
    | strategy t => simp [Spec.fwNu] at e
    | nu v => simp only [Spec.fwNu, Option.some.injEq] at e; rw [← e]; exact h v hc

/-- C83 for CERLPBoost, from the constructor: after any chain of legal calls that leaves a tolerance `τ > 0`, `ν < m` and the
classic or short-step strategy, if every hypothesis has edge at least `ρ > τ/2` under every distribution with entries at most `1/ν`,
the run returns a hypothesis with soft margin at least `ρ - τ`. -/
theorem cerlp_configured_margin [Classifier H X ℝ] [BEq H] (S : Examples X ℝ) (cs : List FwCall)
    (hcs : ∀ v, FwCall.nu v ∈ cs → 1 ≤ v ∧ v ≤ (S.length : ℝ)) {τ ν ρ : ℝ} (hτe : Spec.lastOf Spec.fwTol cs (1 / 100) = τ)
    (hν : Spec.lastOf Spec.fwNu cs 1 = ν) (hst : Spec.lastOf Spec.fwStrategy cs .shortStep = .classic ∨
      Spec.lastOf Spec.fwStrategy cs .shortStep = .shortStep)
    (hτ : 0 < τ) (hνlt : ν < S.length) (hρ : τ / 2 < ρ) (wl : WeakLearner ℝ H) (hvalid : checkBinary S = .ok ()) (hpm : Spec.PmLabels S)
    (hbeq : ∀ f h : H, (f == h) = true → ∀ e ∈ S, conf f e.1 = (conf h e.1 : ℝ))
    (hconf : ∀ k d, ∀ e ∈ S, |conf (wl k d) e.1| ≤ (1 : ℝ))
    (hwl : ∀ k d, d.length = S.length → Spec.IsCapped ν d → ρ ≤ Spec.edge S d (conf (wl k d))) :
    ∃ s f n qs, configure (CERLPBoost.call S) (CERLPBoost.init S) cs = .ok s ∧
      (CERLPBoost.booster S).run wl n s = some (.ok (f, qs)) ∧
      Spec.SoftMarginGe S ν (conf f) (ρ - τ) ∧ Spec.IsProb f.weights := by
  obtain ⟨s, hs⟩ := (cerlp_configured (H := H) S cs).1.2 hcs
  obtain ⟨h1, h2, h3, -⟩ := (cerlp_configured S cs).2 s hs
  have hS := checkBinary_ne_nil hvalid
  obtain ⟨n1, n2⟩ := lastFwNu_range hS hcs
  rw [hν] at h1 n1 n2
  rw [hτe] at h2
  have ok : CerlpOk S s := ⟨by rw [h3]; exact hst, by linarith, by rw [h1]; exact n1, by rw [h1]; exact n2, hbeq⟩
  obtain ⟨f, qs, hr⟩ := cerlp_returns S s ok hvalid (by rw [h1]; exact hνlt) wl
    (fun d hd hc => by rw [h1] at hc; have := hwl 1 d hd hc; linarith)
  have hm := cerlp_soft_margin S s ok hpm wl hconf ρ (by rw [h1]; exact hwl) _ f qs hr
  rw [h1] at hm
  refine ⟨s, f, _, qs, hs, hr, fun d hd hc => ?_, ?_⟩
  · have := (hm d hd hc).1
    rw [h2] at this; exact this
  · have hm0 : (0 : ℝ) < S.length := by exact_mod_cast List.length_pos_iff.2 hS
    refine (hm (List.replicate S.length (1 / (S.length : ℝ))) (by simp) ⟨?_, ?_⟩).2
    · intro p hp
      rw [List.eq_of_mem_replicate hp]
      exact ⟨by positivity, one_div_le_one_div_of_le (by linarith) n2⟩
    · rw [List.sum_replicate, nsmul_eq_mul]; field_simp

/-- C83: two chains that go through and end with the same values give the same run. -/
theorem cerlp_chains_agree [Classifier H X ℝ] [BEq H] (S : Examples X ℝ) (cs cs' : List FwCall)
    (hn : Spec.lastOf Spec.fwNu cs 1 = Spec.lastOf Spec.fwNu cs' 1)
    (ht : Spec.lastOf Spec.fwTol cs (1 / 100) = Spec.lastOf Spec.fwTol cs' (1 / 100))
    (hf : Spec.lastOf Spec.fwStrategy cs .shortStep = Spec.lastOf Spec.fwStrategy cs' .shortStep) (s s' : CERLPBoost H)
    (h : configure (CERLPBoost.call S) (CERLPBoost.init S) cs = .ok s)
    (h' : configure (CERLPBoost.call S) (CERLPBoost.init S) cs' = .ok s') (wl : WeakLearner ℝ H) (fuel : Nat) :
    (CERLPBoost.booster S).run wl fuel s = (CERLPBoost.booster S).run wl fuel s' := by
  obtain ⟨a, b, c, d⟩ := (cerlp_configured S cs).2 s h
  obtain ⟨a', b', c', d'⟩ := (cerlp_configured S cs').2 s' h'
  exact cerlp_history_independent S s s' wl (by rw [a, a', hn]) (by linarith) (by rw [d, d', a, a', hn]) (by rw [c, c', hf]) fuel

/-! ## MLPBoost -/

/-- C83: `MLPBoost::init` needs a non-empty sample; a chain of calls then goes through exactly when every `nu` lies in `[1, m]`;
defaults `ν = 1`, tolerance `1/100`, short steps. -/
theorem mlp_configured (S : Examples X ℝ) (hS : S ≠ []) :
    ∃ s₀ : MLPBoost H, MLPBoost.init S = .ok s₀ ∧ ∀ cs : List FwCall,
      ((∃ s, configure MLPBoost.call s₀ cs = .ok s) ↔ ∀ v, FwCall.nu v ∈ cs → 1 ≤ v ∧ v ≤ (S.length : ℝ)) ∧
      ∀ s, configure MLPBoost.call s₀ cs = .ok s →
        s.nu = Spec.lastOf Spec.fwNu cs 1 ∧ 2 * s.halfTolerance = Spec.lastOf Spec.fwTol cs (1 / 100) ∧
        s.primary.fwType = Spec.lastOf Spec.fwStrategy cs .shortStep ∧ s.primary.nu = s.nu := by
  have h0 : S.length ≠ 0 := fun h => hS (List.length_eq_zero_iff.1 h)
  refine ⟨_, by unfold MLPBoost.init; rw [if_neg h0], fun cs => ?_⟩
  have hcall : ∀ (s : MLPBoost H) v s', MLPBoost.call s (.nu v) = .ok s' →
      s' = { s with nu := v, primary := { s.primary with nu := v } } := by
    intro s v s' e
    simp only [MLPBoost.call, MLPBoost.setNu] at e
    split at e <;> simp only [Except.ok.injEq, reduceCtorEq] at e
    exact e.symm
  have hI : ∀ (s : MLPBoost H) c s', s.nSample = S.length → MLPBoost.call s c = .ok s' → s'.nSample = S.length := by
    intro s c s' h e
    cases c with
    | tolerance t => simp only [MLPBoost.call, Except.ok.injEq] at e; rw [← e]; exact h
    | strategy t => simp only [MLPBoost.call, Except.ok.injEq] at e; rw [← e]; exact h
    | nu v => rw [hcall s v s' e]; exact h
  constructor
  · rw [configure_ok_iff (call := MLPBoost.call (H := H)) (I := fun s => s.nSample = S.length)
      (P := fun c => ∀ v, c = .nu v → 1 ≤ v ∧ v ≤ (S.length : ℝ)) ?_ hI cs _ rfl]
    · constructor
      · intro h v hv; exact h _ hv v rfl
      · rintro h c hc v rfl; exact h v hc
    · intro s c hs
      cases c with
      | tolerance t => simp [MLPBoost.call]
      | strategy t => simp [MLPBoost.call]
      | nu v =>
        simp only [MLPBoost.call, MLPBoost.setNu, FwCall.nu.injEq, forall_eq', hs]
        by_cases h : 1 ≤ v ∧ v ≤ (S.length : ℝ)
        · simp [h]
        · simp [h]
  · intro s hs
    refine ⟨?_, ?_, ?_, ?_⟩
    · exact configure_last (obs := MLPBoost.nu) (fun s c s' h => by
        cases c with
        | tolerance t => simp only [MLPBoost.call, Except.ok.injEq] at h; rw [← h]; rfl
        | strategy t => simp only [MLPBoost.call, Except.ok.injEq] at h; rw [← h]; rfl
        | nu v => rw [hcall s v s' h]; rfl) cs _ s hs
    · have := configure_last (obs := fun s : MLPBoost H => 2 * s.halfTolerance) (sel := Spec.fwTol) (fun s c s' h => by
        cases c with
        | tolerance t =>
          simp only [MLPBoost.call, Except.ok.injEq] at h; rw [← h]
          simp only [MLPBoost.setTolerance, Spec.fwTol, Option.getD_some]; ring
        | strategy t => simp only [MLPBoost.call, Except.ok.injEq] at h; rw [← h]; rfl
        | nu v => rw [hcall s v s' h]; rfl) cs _ s hs
      rw [this]
      norm_num
    · exact configure_last (obs := fun s : MLPBoost H => s.primary.fwType) (fun s c s' h => by
        cases c with
        | tolerance t => simp only [MLPBoost.call, Except.ok.injEq] at h; rw [← h]; rfl
        | strategy t => simp only [MLPBoost.call, Except.ok.injEq] at h; rw [← h]; rfl
        | nu v => rw [hcall s v s' h]; rfl) cs _ s hs
    · refine configure_inv (I := fun s : MLPBoost H => s.primary.nu = s.nu) (fun s c s' hi h => ?_) cs _ s rfl hs
      cases c with
      | tolerance t => simp only [MLPBoost.call, Except.ok.injEq] at h; rw [← h]; exact hi
      | strategy t => simp only [MLPBoost.call, Except.ok.injEq] at h; rw [← h]; exact hi
      | nu v => rw [hcall s v s' h]

/-- C83 for MLPBoost, from the constructor: after any chain of legal calls that leaves a tolerance `τ > 0`, `ν < m` and the classic or
short-step strategy, the run returns a hypothesis with soft margin at least `ρ - τ`, whenever every hypothesis has edge at least `ρ`
under every distribution with entries at most `1/ν`. -/
theorem mlp_configured_margin [Classifier H X ℝ] [BEq H] (S : Examples X ℝ) (cs : List FwCall)
    (hcs : ∀ v, FwCall.nu v ∈ cs → 1 ≤ v ∧ v ≤ (S.length : ℝ)) {τ ν : ℝ} (hτe : Spec.lastOf Spec.fwTol cs (1 / 100) = τ)
    (hν : Spec.lastOf Spec.fwNu cs 1 = ν) (hst : Spec.lastOf Spec.fwStrategy cs .shortStep = .classic ∨
      Spec.lastOf Spec.fwStrategy cs .shortStep = .shortStep)
    (hτ : 0 < τ) (hνlt : ν < S.length) (solver : Solver ℝ) (hsolver : solver.Correct) (noise : Nat → Nat → ℝ)
    (wl : WeakLearner ℝ H) (hvalid : checkBinary S = .ok ()) (hpm : Spec.PmLabels S)
    (hbeq : ∀ f h : H, (f == h) = true → ∀ e ∈ S, conf f e.1 = (conf h e.1 : ℝ))
    (hconf : ∀ k d, ∀ e ∈ S, |conf (wl k d) e.1| ≤ (1 : ℝ)) :
    ∃ s₀ s f n qs, MLPBoost.init S = .ok s₀ ∧ configure MLPBoost.call s₀ cs = .ok s ∧
      (MLPBoost.booster solver noise S).run wl n s = some (.ok (f, qs)) ∧ Spec.IsProb f.weights ∧
      ∀ ρ : ℝ, (∀ k d, d.length = S.length → Spec.IsCapped ν d → ρ ≤ Spec.edge S d (conf (wl k d))) →
        Spec.SoftMarginGe S ν (conf f) (ρ - τ) := by
  have hS := checkBinary_ne_nil hvalid
  obtain ⟨s₀, h0, h⟩ := mlp_configured (H := H) S hS
  obtain ⟨s, hs⟩ := (h cs).1.2 hcs
  obtain ⟨h1, h2, h3, -⟩ := (h cs).2 s hs
  obtain ⟨n1, n2⟩ := lastFwNu_range hS hcs
  rw [hν] at h1 n1 n2
  rw [hτe] at h2
  have ok : MlpOk S s := ⟨by rw [h3]; exact hst, by linarith, by rw [h1]; exact n1, by rw [h1]; exact n2, hbeq⟩
  obtain ⟨f, qs, hr⟩ := mlp_returns S s ok solver hsolver noise hvalid (by rw [h1]; exact hνlt) wl
  have hm := fun ρ hwl => mlp_soft_margin S s ok solver hsolver noise hpm wl hconf ρ hwl _ f qs hr
  rw [h1, h2] at hm
  have hlow : ∀ k d, d.length = S.length → Spec.IsCapped ν d → (-1 : ℝ) ≤ Spec.edge S d (conf (wl k d)) := by
    intro k d hd hc
    refine (ERLP.edge_bounds hd ⟨fun p hp => (hc.1 p hp).1, hc.2⟩ (conf (wl k d)) (fun e he => ?_)).1
    have := hconf k d e he
    rcases hpm e he with h | h <;> rw [h] <;> simpa using this
  exact ⟨s₀, s, f, _, qs, h0, hs, hr, (hm (-1) hlow).2, fun ρ hwl => (hm ρ hwl).1⟩

/-- C83: two chains that go through and end with the same values give the same run. -/
theorem mlp_chains_agree [Classifier H X ℝ] [BEq H] (S : Examples X ℝ) (hS : S ≠ []) (cs cs' : List FwCall)
    (hn : Spec.lastOf Spec.fwNu cs 1 = Spec.lastOf Spec.fwNu cs' 1)
    (ht : Spec.lastOf Spec.fwTol cs (1 / 100) = Spec.lastOf Spec.fwTol cs' (1 / 100))
    (hf : Spec.lastOf Spec.fwStrategy cs .shortStep = Spec.lastOf Spec.fwStrategy cs' .shortStep) (s₀ s s' : MLPBoost H)
    (h0 : MLPBoost.init S = .ok s₀)
    (h : configure MLPBoost.call s₀ cs = .ok s) (h' : configure MLPBoost.call s₀ cs' = .ok s')
    (solver : Solver ℝ) (noise : Nat → Nat → ℝ) (wl : WeakLearner ℝ H) (fuel : Nat) :
    (MLPBoost.booster solver noise S).run wl fuel s = (MLPBoost.booster solver noise S).run wl fuel s' := by
  obtain ⟨t, e, g⟩ := mlp_configured (H := H) S hS
  rw [h0, Except.ok.injEq] at e
  subst e
  obtain ⟨a, b, c, d⟩ := (g cs).2 s h
  obtain ⟨a', b', c', d'⟩ := (g cs').2 s' h'
  exact mlp_history_independent S s s' solver noise wl (by rw [a, a', hn]) (by linarith) (by rw [d, d', a, a', hn]) (by rw [c, c', hf]) fuel

/-! ## The hypotheses are met -/

theorem exSample_pm : Spec.PmLabels exSample := by
  intro e he; simp [exSample] at he; rcases he with rfl | rfl <;> simp

theorem exLearner_conf (k : Nat) (d : List ℝ) : ∀ e ∈ exSample, |conf (exLearner k d) e.1| ≤ (1 : ℝ) := by
  intro e he
  simp [exSample] at he
  rcases he with rfl | rfl
  · simp only [exLearner, conf, if_true]; rw [abs_of_pos] <;> norm_num
  · simp only [exLearner, conf]; norm_num [abs_of_neg]

/-- Three calls of which the last counts, a learner of edge `1/2 = 2τ`. -/
example : ∃ s f qs, configure AdaBoost.call (AdaBoost.init exSample) [.tolerance 7, .tolerance (-3), .tolerance (1 / 4)] = .ok s ∧
    (AdaBoost.booster exSample).run exLearner (⌊log ((exSample.length : ℕ) : ℝ) / (1 / 4) ^ 2⌋₊ + 1) s = some (.ok (f, qs)) ∧
    Spec.errors exSample (predict (K := ℝ) f) = 0 :=
  adaboost_configured_zero_error exSample _ (by simp) (τ := 1 / 4) rfl (by norm_num) (by norm_num) exLearner exSample_valid exSample_pm
    exLearner_conf (fun k d hl hd => by rw [exLearner_edge k d hl hd]; norm_num)

/-- The same for AdaBoostV; the margins are at least `1/8`. -/
example : ∃ s f qs, configure AdaBoostV.call (AdaBoostV.init exSample) [.tolerance 7, .tolerance (1 / 4)] = .ok s ∧
    0 < ⌊2 * log ((exSample.length : ℕ) : ℝ) / (1 / 4) ^ 2⌋₊ ∧
    (AdaBoostV.booster exSample).run exLearner (⌊2 * log ((exSample.length : ℕ) : ℝ) / (1 / 4) ^ 2⌋₊ + 1) s = some (.ok (f, qs)) ∧
    ∀ e ∈ exSample, (1 / 2 : ℝ) - 1 / 4 - 1 / 4 / (2 * ⌊2 * log ((exSample.length : ℕ) : ℝ) / (1 / 4) ^ 2⌋₊) ≤ e.2 * conf f e.1 ∧
      (1 / 2 : ℝ) - 3 / 2 * (1 / 4) ≤ e.2 * conf f e.1 :=
  adaboostv_configured_margin exSample _ (by simp) (τ := 1 / 4) rfl (by norm_num) (by norm_num) exLearner exSample_valid exSample_pm
    exLearner_conf (1 / 2) (by norm_num) (fun k d hl hd => by rw [exLearner_edge k d hl hd])

/-- Two chains that differ in all but the last values. -/
example (s s' : LPBoost ℝ (Fn Nat ℝ))
    (h : configure LPBoost.call (LPBoost.init exSample) [.nu 2, .tolerance (1 / 8), .nu 1] = .ok s)
    (h' : configure LPBoost.call (LPBoost.init exSample) [.tolerance 5, .tolerance (1 / 8)] = .ok s')
    (solver : Solver ℝ) (wl : WeakLearner ℝ (Fn Nat ℝ)) (fuel : Nat) :
    (LPBoost.booster solver exSample).run wl fuel s = (LPBoost.booster solver exSample).run wl fuel s' :=
  lpboost_chains_agree exSample [.nu 2, .tolerance (1 / 8), .nu 1] [.tolerance 5, .tolerance (1 / 8)] rfl rfl s s' h h' solver wl fuel

/-- The first of these chains goes through, the chain with `nu = 3` on two examples does not. -/
example : (∃ s : LPBoost ℝ (Fn Nat ℝ), configure LPBoost.call (LPBoost.init exSample) [.nu 2, .tolerance (1 / 8), .nu 1] = .ok s) ∧
    ¬ ∃ s : LPBoost ℝ (Fn Nat ℝ), configure LPBoost.call (LPBoost.init exSample) [.nu 3, .nu 1] = .ok s := by
  rw [(lpboost_configured exSample _).1, (lpboost_configured exSample _).1]
  constructor
  · intro v hv; simp at hv; rcases hv with rfl | rfl <;> norm_num [exSample]
  · intro h; have := (h 3 (by simp)).2; norm_num [exSample] at this

end Miniboosts.Props
