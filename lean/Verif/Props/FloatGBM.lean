import Verif.Lemmas.FloatGBM
import Verif.Lemmas.FloatSum
import Verif.Props.FloatAdaBoostV
import Verif.Props.FloatRegTree
import Verif.Props.GBMSquared

/-! # Gradient boosting in `f64` (C123) -/

namespace Miniboosts.Props

open Miniboosts F64 Spec

variable {H X : Type*} [Regressor H X F64]

/-! ## The line searches -/

/-- C123: the line search of the squared loss in `f64` panics exactly when the sum of the outputs is zero. -/
theorem line_search_f64_l2 (ys : List ℝ) (ps : List F64) :
    (∃ e, GBMLoss.L2.bestCoefficientF ys ps = .error e) ↔ ps.foldl add (fin 0) = fin 0 := by
  unfold GBMLoss.bestCoefficientF
  by_cases h : ps.foldl add (fin 0) = fin 0
  · simp [h]
  · simp [h]

open Classical in
/-- The pairs of the line search of the absolute loss. -/
noncomputable def l1Items (ys : List ℝ) (ps : List F64) : List (F64 × F64) :=
  (List.zip ys ps).filterMap fun rp => if rp.2 = fin 0 then none else some (rp.2.abs, div (fin rp.1) rp.2)

open Classical in
theorem l1Items_length : ∀ (ys : List ℝ) (ps : List F64), ys.length = ps.length → (l1Items ys ps).length = (ps.filter fun p => decide (p ≠ fin 0)).length := by
  intro ys
  induction ys with
  | nil => intro ps h; cases ps with
    | nil => rfl
    | cons => simp at h
  | cons y ys ih => intro ps h; cases ps with
    | nil => simp at h
    | cons p ps =>
      have := ih ps (by simpa using h)
      unfold l1Items at this ⊢
      rw [List.zip_cons_cons, List.filterMap_cons]
      by_cases hp : p = fin 0
      · simp only [if_pos hp]
        rw [List.filter_cons_of_neg (by simpa using hp)]
        exact this
      · simp only [if_neg hp]
        rw [List.filter_cons_of_pos (by simpa using hp), List.length_cons, List.length_cons, this]

theorem l1Items_mem {ys : List ℝ} {ps : List F64} {q : F64 × F64} (h : q ∈ l1Items ys ps) :
    ∃ y p, (y, p) ∈ List.zip ys ps ∧ p ≠ fin 0 ∧ q = (p.abs, div (fin y) p) := by
  obtain ⟨⟨y, p⟩, h1, h2⟩ := List.mem_filterMap.mp h
  by_cases hp : p = fin 0
  · simp [hp] at h2
  · simp only [if_neg hp, Option.some.injEq] at h2
    exact ⟨y, p, h1, hp, h2.symm⟩

theorem quotient_nan {y : ℝ} {p : F64} (hp : p ≠ fin 0) : div (fin y) p = nan ↔ p = nan := by
  constructor
  · intro h
    cases p with
    | nan => rfl
    | inf s => cases h
    | fin x =>
      have hx : x ≠ 0 := fun e => hp (by rw [e])
      change (if x = 0 then _ else rnd (y / x)) = nan at h
      rw [if_neg hx] at h
      unfold rnd at h
      split at h <;> cases h
  · rintro rfl; rfl

theorem l1Items_nan {ys : List ℝ} {ps : List F64} (hl : ys.length = ps.length) : nan ∈ (l1Items ys ps).map Prod.snd ↔ nan ∈ ps := by
  constructor
  · intro h
    obtain ⟨q, hq, e⟩ := List.mem_map.mp h
    obtain ⟨y, p, h1, h2, rfl⟩ := l1Items_mem hq
    have := (quotient_nan h2).mp e
    subst this
    exact (List.of_mem_zip h1).2
  · intro h
    obtain ⟨i, hi, e⟩ := List.mem_iff_getElem.mp h
    refine List.mem_map.mpr ⟨(nan, nan), List.mem_filterMap.mpr ⟨(ys[i]'(by omega), nan), ?_, ?_⟩, rfl⟩
    · refine List.mem_iff_getElem.mpr ⟨i, by rw [List.length_zip]; omega, ?_⟩
      rw [List.getElem_zip, e]
    · simp [F64.abs, div]

theorem abs_ge {p : F64} (h : p ≠ nan) : Le (fin 0) p.abs := by
  cases p with
  | nan => exact absurd rfl h
  | inf s => rfl
  | fin x => exact abs_nonneg x

open Classical in
/-- C123: the line search of the absolute loss in `f64` returns exactly when one output is not zero, or several are not and none is NaN — in particular
its `unreachable!()` is never reached; the coefficient is one of the rounded quotients of a target and an output. -/
theorem line_search_f64_l1 (ys : List ℝ) (ps : List F64) (hl : ys.length = ps.length) :
    ((∃ c, GBMLoss.L1.bestCoefficientF ys ps = .ok c) ↔
      (ps.filter fun p => decide (p ≠ fin 0)).length = 1 ∨ (2 ≤ (ps.filter fun p => decide (p ≠ fin 0)).length ∧ nan ∉ ps)) ∧
    ∀ c, GBMLoss.L1.bestCoefficientF ys ps = .ok c → ∃ (y : ℝ) (p : F64), (y, p) ∈ List.zip ys ps ∧ p ≠ fin 0 ∧ c = div (fin y) p := by
  have e0 : GBMLoss.L1.bestCoefficientF ys ps = GBMLoss.weightedMedianF (l1Items ys ps) := rfl
  rw [e0, ← l1Items_length ys ps hl, ← l1Items_nan hl]
  have hmem : ∀ q ∈ l1Items ys ps, ∃ (y : ℝ) (p : F64), (y, p) ∈ List.zip ys ps ∧ p ≠ fin 0 ∧ q.2 = div (fin y) p := by
    intro q hq
    obtain ⟨y, p, h1, h2, rfl⟩ := l1Items_mem hq
    exact ⟨y, p, h1, h2, rfl⟩
  have habs : nan ∉ (l1Items ys ps).map Prod.snd → ∀ q ∈ l1Items ys ps, Le (fin 0) q.1 := by
    intro hn q hq
    obtain ⟨y, p, h1, h2, rfl⟩ := l1Items_mem hq
    exact abs_ge fun e => hn ((l1Items_nan hl).mpr (e ▸ (List.of_mem_zip h1).2))
  generalize l1Items ys ps = items at hmem habs ⊢
  match items, hmem, habs with
  | [], _, _ => simp [GBMLoss.weightedMedianF]
  | [q], hmem, _ =>
    simp only [GBMLoss.weightedMedianF, Except.ok.injEq, exists_eq', List.length_singleton, true_or, forall_eq', true_and]
    exact hmem q (by simp)
  | q :: r :: l, hmem, habs =>
    have e1 : GBMLoss.weightedMedianF (q :: r :: l) = if nan ∈ (q :: r :: l).map Prod.snd then .error .unwrapNone else
        GBMLoss.medianLoopF (mul (fin (1 / 2)) ((((q :: r :: l).mergeSort fun a b => decide (Le a.2 b.2)).map Prod.fst).foldl add (fin 0)))
          ((q :: r :: l).mergeSort fun a b => decide (Le a.2 b.2)) (fin 0) := rfl
    rw [e1]
    by_cases hn : nan ∈ (q :: r :: l).map Prod.snd
    · rw [if_pos hn]
      constructor
      · constructor
        · rintro ⟨c, hc⟩; cases hc
        · rintro (h | ⟨-, h⟩)
          · simp at h
          · exact absurd hn h
      · intro c hc; cases hc
    · rw [if_neg hn]
      set sorted := (q :: r :: l).mergeSort fun a b => decide (Le a.2 b.2) with hs
      have hperm : sorted.Perm (q :: r :: l) := List.mergeSort_perm _ _
      have hne : sorted ≠ [] := by intro e; rw [e] at hperm; simpa using hperm.length_eq
      have htot := foldl_nonneg_form (sorted.map Prod.fst) (fin 0) (by
        intro x hx
        obtain ⟨p, hp, rfl⟩ := List.mem_map.mp hx
        exact habs hn p (hperm.mem_iff.mp hp)) (Or.inr ⟨0, rep_zero, le_rfl, by positivity, rfl⟩)
      obtain ⟨p, hp, e⟩ := medianLoop_f64_ok _ sorted (fin 0) hne (half_le htot)
      rw [e]
      refine ⟨⟨fun _ => Or.inr ⟨by simp, hn⟩, fun _ => ⟨_, rfl⟩⟩, fun c hc => ?_⟩
      obtain ⟨y, p', h1, h2, h3⟩ := hmem p (hperm.mem_iff.mp hp)
      cases hc
      exact ⟨y, p', h1, h2, h3⟩

/-! ## One result -/

theorem gbm_boost_one (S : Examples X ℝ) (s : GBMF H) (wl : WeakLearner F64 H) (it : Nat) :
    ∃ r, (∀ r', GBMF.Boost S s wl it r' ↔ r' = r) ∧ (∀ out, r = .ok out → out.state.maxIter = s.maxIter ∧ (out.flow = .cont → it ≤ s.maxIter)) := by
  unfold GBMF.Boost
  by_cases h : s.maxIter < it
  · simp only [if_pos h]
    exact ⟨_, fun r' => Iff.rfl, by rintro out ⟨⟩; exact ⟨rfl, fun h => by cases h⟩⟩
  · simp only [if_neg h]
    cases hc : s.loss.bestCoefficientF (S.map Prod.snd) (S.map fun e => Regressor.pred (wl it s.predictions) e.1) with
    | error e => exact ⟨_, fun r' => Iff.rfl, by rintro out ⟨⟩⟩
    | ok c =>
      by_cases h0 : c = fin 0
      · simp only [if_pos h0]
        exact ⟨_, fun r' => Iff.rfl, by rintro out ⟨⟩; exact ⟨rfl, fun h => by cases h⟩⟩
      · simp only [if_neg h0, parUpdate_iff, exists_eq_left]
        exact ⟨_, fun r' => Iff.rfl, by rintro out ⟨⟩; exact ⟨rfl, fun _ => by omega⟩⟩

theorem gbm_loop_one (S : Examples X ℝ) (wl : WeakLearner F64 H) : ∀ (k : Nat) (s : GBMF H) (it : Nat), s.maxIter + 1 ≤ it + k →
    ∃ r, (∀ r', (GBMF.booster S).Loop wl s it r' ↔ r' = r) ∧ ∀ s' qs, r = .ok (s', qs) → qs.length ≤ s.maxIter + 1 - it := by
  intro k
  induction k with
  | zero =>
    intro s it hk
    have hb : ∀ r', (GBMF.booster S).boost s wl it r' ↔ r' = .ok { state := s, flow := .brk s.maxIter, queries := [] } := by
      intro r'
      change GBMF.Boost S s wl it r' ↔ _
      unfold GBMF.Boost
      rw [if_pos (by omega)]
    refine ⟨.ok (s, []), fun r' => ⟨fun h => ?_, ?_⟩, by rintro s' qs ⟨⟩; simp⟩
    · cases h with
      | panic h => cases (hb _).mp h
      | stop h hf => cases (hb _).mp h; rfl
      | next h hf => cases (hb _).mp h; cases hf
    · rintro rfl
      exact .stop (out := ⟨s, .brk s.maxIter, []⟩) ((hb _).mpr rfl) rfl
  | succ k ih =>
    intro s it hk
    obtain ⟨r, hr, hm⟩ := gbm_boost_one S s wl it
    have hr' : ∀ r', (GBMF.booster S).boost s wl it r' ↔ r' = r := hr
    cases r with
    | error e =>
      refine ⟨.error e, fun r' => ⟨fun h => ?_, ?_⟩, by rintro s' qs ⟨⟩⟩
      · cases h with
        | panic h => cases (hr' _).mp h; rfl
        | stop h hf => cases (hr' _).mp h
        | next h hf => cases (hr' _).mp h
      · rintro rfl; exact .panic ((hr' _).mpr rfl)
    | ok out =>
      obtain ⟨hmax, hle⟩ := hm out rfl
      cases hf : out.flow with
      | brk j =>
        have hq : out.queries.length ≤ s.maxIter + 1 - it := by
          have hbo := (hr (.ok out)).mpr rfl
          unfold GBMF.Boost at hbo
          by_cases h : s.maxIter < it
          · rw [if_pos h, Except.ok.injEq] at hbo; subst hbo; simp
          · rw [if_neg h] at hbo
            cases hc : s.loss.bestCoefficientF (S.map Prod.snd) (S.map fun e => Regressor.pred (wl it s.predictions) e.1) with
            | error e => simp [hc] at hbo
            | ok c =>
              simp only [hc] at hbo
              by_cases h0 : c = fin 0
              · rw [if_pos h0, Except.ok.injEq] at hbo; subst hbo; simp; omega
              · rw [if_neg h0] at hbo
                obtain ⟨new, -, e⟩ := hbo
                cases e
                cases hf
        refine ⟨.ok (out.state, out.queries), fun r' => ⟨fun h => ?_, ?_⟩, by rintro s' qs ⟨⟩; exact hq⟩
        · cases h with
          | panic h => cases (hr' _).mp h
          | stop h hf => cases (hr' _).mp h; rfl
          | next h hf' => cases (hr' _).mp h; rw [hf] at hf'; cases hf'
        · rintro rfl; exact .stop ((hr' _).mpr rfl) hf
      | cont =>
        have hle' := hle hf
        obtain ⟨r₁, h1, h2⟩ := ih out.state (it + 1) (by omega)
        have hq : out.queries.length = 1 := by
          have hbo := (hr (.ok out)).mpr rfl
          unfold GBMF.Boost at hbo
          rw [if_neg (by omega)] at hbo
          cases hc : s.loss.bestCoefficientF (S.map Prod.snd) (S.map fun e => Regressor.pred (wl it s.predictions) e.1) with
          | error e => simp [hc] at hbo
          | ok c =>
            simp only [hc] at hbo
            by_cases h0 : c = fin 0
            · rw [if_pos h0, Except.ok.injEq] at hbo; subst hbo; cases hf
            · rw [if_neg h0] at hbo
              obtain ⟨new, -, e⟩ := hbo
              cases e
              rfl
        refine ⟨r₁.map fun p => (p.1, out.queries ++ p.2), fun r' => ⟨fun h => ?_, ?_⟩, ?_⟩
        · cases h with
          | panic h => cases (hr' _).mp h
          | stop h hf' => cases (hr' _).mp h; rw [hf] at hf'; cases hf'
          | next h hf' hl => cases (hr' _).mp h; rw [(h1 _).mp hl]
        · rintro rfl; exact .next ((hr' _).mpr rfl) hf ((h1 _).mpr rfl)
        · intro s' qs e
          cases r₁ with
          | error e' => cases e
          | ok p =>
            have := h2 p.1 p.2 rfl
            cases e
            rw [List.length_append, hq]
            omega

/-- C123: gradient boosting in `f64` ends for every weak learner and both losses, has one result whatever the schedule, and asks the learner at most 100
times (the limit cannot be changed by the caller, neither by the tolerance nor by the loss). -/
theorem gbm_f64_one_result (S : Examples X ℝ) (loss l' : GBMLoss) (tol : F64) (wl : WeakLearner F64 H) :
    ∃ r, (∀ r', (GBMF.booster S).Runs wl (((GBMF.init S loss : GBMF H).setTolerance tol).setLoss l') r' ↔ r' = r) ∧ ∀ f qs, r = .ok (f, qs) → qs.length ≤ 100 := by
  set s := ((GBMF.init S loss : GBMF H).setTolerance tol).setLoss l' with hs
  obtain ⟨s₀, hp⟩ : ∃ s₀, (GBMF.booster S).preprocess s wl = .ok s₀ := ⟨_, rfl⟩
  have hmax : s₀.maxIter = 100 := by cases hp; rfl
  obtain ⟨r, hr, hq⟩ := gbm_loop_one S wl (s₀.maxIter + 1) s₀ 1 (by omega)
  cases r with
  | error e =>
    refine ⟨.error e, fun r' => ⟨fun h => ?_, ?_⟩, by rintro f qs ⟨⟩⟩
    · cases h with
      | pre h => rw [hp] at h; cases h
      | loop h hl => rw [hp] at h; cases h; cases (hr _).mp hl; rfl
      | post h hl => rw [hp] at h; cases h; cases (hr _).mp hl
      | ok h hl => rw [hp] at h; cases h; cases (hr _).mp hl
    · rintro rfl; exact .loop hp ((hr _).mpr rfl)
  | ok p =>
    obtain ⟨s₁, qs⟩ := p
    have hlen := hq s₁ qs rfl
    cases hpo : (GBMF.booster S).postprocess s₁ with
    | error e =>
      refine ⟨.error e, fun r' => ⟨fun h => ?_, ?_⟩, by rintro f qs ⟨⟩⟩
      · cases h with
        | pre h => rw [hp] at h; cases h
        | loop h hl => rw [hp] at h; cases h; cases (hr _).mp hl
        | post h hl h' => rw [hp] at h; cases h; cases (hr _).mp hl; rw [hpo] at h'; cases h'; rfl
        | ok h hl h' => rw [hp] at h; cases h; cases (hr _).mp hl; rw [hpo] at h'; cases h'
      · rintro rfl; exact .post hp ((hr _).mpr rfl) hpo
    | ok f =>
      refine ⟨.ok (f, qs), fun r' => ⟨fun h => ?_, ?_⟩, ?_⟩
      · cases h with
        | pre h => rw [hp] at h; cases h
        | loop h hl => rw [hp] at h; cases h; cases (hr _).mp hl
        | post h hl h' => rw [hp] at h; cases h; cases (hr _).mp hl; rw [hpo] at h'; cases h'
        | ok h hl h' => rw [hp] at h; cases h; cases (hr _).mp hl; rw [hpo] at h'; cases h'; rfl
      · rintro rfl; exact .ok hp ((hr _).mpr rfl) hpo
      · rintro f' qs' ⟨⟩; omega

theorem l2_search_ok {ys : List ℝ} {ps : List F64} {y p : F64} (hy : (ys.map fin).foldl add (fin 0) = y) (hp : ps.foldl add (fin 0) = p) (h : p ≠ fin 0) :
    GBMLoss.L2.bestCoefficientF ys ps = .ok (div y p) := by
  unfold GBMLoss.bestCoefficientF
  dsimp only
  rw [hp, hy, if_neg h]

/-- The state in which the first round begins. -/
noncomputable def gbmStart {X H : Type*} (S : Examples X ℝ) : GBMF H := ⟨fin 0, [], [], .L2, 100, 100, List.replicate S.length (fin 0)⟩

/-! ## Targets that sum to zero -/

theorem zero_div_form {p : F64} (h : p ≠ fin 0) : div (fin 0) p = fin 0 ∨ div (fin 0) p = nan := by
  cases p with
  | nan => exact Or.inr rfl
  | inf s => exact Or.inl rfl
  | fin x =>
    have hx : x ≠ 0 := fun e => h (by rw [e])
    left
    change (if x = 0 then _ else rnd (0 / x)) = _
    rw [if_neg hx, zero_div, rnd_small (by norm_num), F64.round_zero]

theorem l2_integer_sum {ys : List ℝ} {zs : List ℤ} (hz : ys = zs.map fun z : ℤ => (z : ℝ)) (hb : (zs.map (|·|)).sum < 2 ^ 53) :
    (ys.map fin).foldl add (fin 0) = fin ((zs.sum : ℤ) : ℝ) := by
  have := foldl_int_abs zs 0 (by simpa using hb)
  rw [hz, List.map_map]
  rw [Int.cast_zero, zero_add] at this
  exact this

open Classical in
theorem no_positive_weight {ws : List F64} {hs : List H} (h : ∀ w ∈ ws, ¬ Lt (fin 0) w) : fromSlices ws hs = .error .assertion := by
  unfold fromSlices
  have : (ws.zip hs).filter (fun p => decide (Lt (fin 0) p.1)) = [] := by
    rw [List.filter_eq_nil_iff]
    intro p hp
    simpa using h p.1 (List.of_mem_zip (a := p.1) (b := p.2) hp).1
  simp only [this]
  simp [F64.normalize, Except.map]

theorem gbm_centred_loop {S : Examples X ℝ} (hy : ((S.map Prod.snd).map fin).foldl add (fin 0) = fin 0) (wl : WeakLearner F64 H) {s : GBMF H} {it : Nat}
    {r : Except Panic (GBMF H × List (List F64))} (h : (GBMF.booster S).Loop wl s it r) : s.loss = .L2 → (∀ w ∈ s.weights, w = nan) →
    ∀ s' qs, r = .ok (s', qs) → ∀ w ∈ s'.weights, w = nan := by
  have step : ∀ (s : GBMF H) (it : Nat) (out), GBMF.Boost S s wl it (.ok out) → s.loss = .L2 → (∀ w ∈ s.weights, w = nan) →
      out.state.loss = .L2 ∧ ∀ w ∈ out.state.weights, w = nan := by
    intro s it out hbo hl hw
    unfold GBMF.Boost at hbo
    by_cases h : s.maxIter < it
    · rw [if_pos h, Except.ok.injEq] at hbo; subst hbo; exact ⟨hl, hw⟩
    · rw [if_neg h] at hbo
      simp only [hl, GBMLoss.bestCoefficientF, hy] at hbo
      by_cases hp : (S.map fun e => Regressor.pred (wl it s.predictions) e.1).foldl add (fin 0) = fin 0
      · simp [hp] at hbo
      · simp only [if_neg hp] at hbo
        rcases zero_div_form hp with h0 | h0
        · simp only [h0, if_true, Except.ok.injEq] at hbo; subst hbo; exact ⟨rfl, hw⟩
        · simp only [h0, reduceCtorEq, if_false, Except.ok.injEq] at hbo
          obtain ⟨new, -, rfl⟩ := hbo
          refine ⟨rfl, fun w hw' => ?_⟩
          rcases List.mem_append.mp hw' with h1 | h1
          · exact hw w h1
          · simpa using h1
  induction h with
  | panic h => intro _ _ s' qs e; cases e
  | stop h hf => intro hl hw s' qs e; cases e; exact (step _ _ _ h hl hw).2
  | next h hf hr ih =>
    intro hl hw s' qs e
    obtain ⟨h1, h2⟩ := step _ _ _ h hl hw
    rename_i r'
    cases r' with
    | error e' => cases e
    | ok p => cases e; exact ih h1 h2 _ _ rfl

/-- C123: integer targets (of absolute sum below `2⁵³`) that sum to zero: gradient boosting with the squared loss never returns a model in `f64`,
whatever the weak learner. -/
theorem gbm_f64_centred_panics (S : Examples X ℝ) (zs : List ℤ) (hz : S.map Prod.snd = zs.map fun z : ℤ => (z : ℝ)) (hb : (zs.map (|·|)).sum < 2 ^ 53)
    (h0 : zs.sum = 0) (wl : WeakLearner F64 H) (r) (hr : (GBMF.booster S).Runs wl (GBMF.init S .L2) r) : ∃ e, r = .error e := by
  have hy : ((S.map Prod.snd).map fin).foldl add (fin 0) = fin 0 := by
    rw [l2_integer_sum hz hb, h0]; simp
  cases hr with
  | pre h => exact ⟨_, rfl⟩
  | loop h hl => exact ⟨_, rfl⟩
  | post h hl hp => exact ⟨_, rfl⟩
  | ok h hl hp =>
    exfalso
    cases h
    have := gbm_centred_loop hy wl hl rfl (by simp) _ _ rfl
    have e : (GBMF.booster (H := H) S).postprocess _ = _ := hp
    change fromSlices _ _ = _ at e
    rw [no_positive_weight fun w hw => by rw [this w hw]; exact id] at e
    cases e

/-! ## Trees with one leaf -/

theorem ints_getD (zs : List ℤ) {n : Nat} (hn : zs.length = n) :
    ((List.range n).map fun i => (zs.map fun z : ℤ => fin (z : ℝ)).getD i nan) = zs.map fun z : ℤ => fin (z : ℝ) := by
  apply List.ext_getElem
  · simp [hn]
  · intro i h1 h2
    simp only [List.getElem_map, List.getElem_range]
    rw [List.getD_eq_getElem?_getD, List.getElem?_eq_getElem h2]
    simp

theorem div_int {a b k : ℤ} (hb : b ≠ 0) (hk : |k| < 2 ^ 53) (h : a = b * k) : div (fin (a : ℝ)) (fin (b : ℝ)) = fin (k : ℝ) := by
  have hb' : (b : ℝ) ≠ 0 := by exact_mod_cast hb
  change (if (b : ℝ) = 0 then _ else rnd ((a : ℝ) / b)) = _
  have e : (a : ℝ) / b = k := by rw [h]; push_cast; field_simp
  have hb2 : |(k : ℝ)| ≤ 10 ^ 20 := by
    rw [← Int.cast_abs]
    have : ((|k| : ℤ) : ℝ) < 2 ^ 53 := by exact_mod_cast hk
    linarith [show (2 : ℝ) ^ 53 ≤ 10 ^ 20 by norm_num]
  rw [if_neg hb', e, rnd_small hb2, round_of_rep ⟨k, 0, hk, by norm_num, by simp⟩]

/-- One leaf, equal integer predictions, integer targets: what the learner returns. -/
theorem one_leaf {t : FReg.Tree} {s : Sample ℝ} (hs : SampleOk s) (hd : t.maxDepth ≤ 1) (hl : t.loss = .L2) (hlam : t.lambdaL2 = fin 0) (hn : t.nSample = s.nSample)
    {zs : List ℤ} (hz : s.target = zs.map fun z : ℤ => (z : ℝ)) (m k : ℤ) (hN : 0 < zs.length) (hN' : zs.length < 2 ^ 53) (hsum : zs.sum = zs.length * m + zs.length * k)
    (hb : ((zs.map fun z => m - z).map (|·|)).sum < 2 ^ 53) (hk : |k| < 2 ^ 53) (hm : ∀ z ∈ zs, |m - z| < 2 ^ 53) (o : Option (TreeNode F64)) :
    FReg.Produce t s (List.replicate s.nSample (fin (m : ℝ))) o ↔ o = some (.leaf (fin (k : ℝ))) := by
  have hlen : zs.length = s.nSample := by rw [← hs.labels, hz, List.length_map]
  set pred := List.replicate s.nSample (fin (m : ℝ)) with hpred
  have hpl : pred.length = s.target.length := by rw [hpred, List.length_replicate, hs.labels]
  -- the gradients
  set gs : List ℤ := zs.map fun z => m - z with hgs
  have hgrad : ∀ o, FReg.Gradient .L2 pred s.target o ↔ o = some (gs.map fun z : ℤ => fin (z : ℝ)) := by
    intro o
    unfold FReg.Gradient
    rw [if_pos hpl]
    have hzip : pred.zip s.target = zs.map fun z : ℤ => (fin (m : ℝ), (z : ℝ)) := by
      rw [hpred, hz, ← hlen]
      clear * -
      induction zs with
      | nil => rfl
      | cons z zs ih => simp only [List.length_cons, List.replicate_succ, List.map_cons, List.zip_cons_cons, ih]
    have hfa : ∀ g, List.Forall₂ (fun (q : F64 × ℝ) r => FReg.GradAt .L2 q.1 q.2 r) (pred.zip s.target) g ↔ g = gs.map fun z : ℤ => fin (z : ℝ) := by
      intro g
      rw [hzip, hgs]
      clear hpred hpl hzip hsum hb hN hN' hz hlen
      clear hgs gs
      induction zs generalizing g with
      | nil => simp
      | cons z zs ih =>
        have e : sub (fin (m : ℝ)) (fin (z : ℝ)) = fin ((m - z : ℤ) : ℝ) := by
          have := FReg.add_int (a := m) (b := -z) (by simpa [sub_eq_add_neg] using hm z (by simp))
          rw [Int.cast_neg] at this
          rw [sub_eq_add_neg m z]
          exact this
        rw [List.map_cons, List.forall₂_cons_left_iff]
        constructor
        · rintro ⟨b, u, h1, h2, rfl⟩
          have h1' : b = _ := h1
          rw [(ih (fun w hw => hm w (List.mem_cons_of_mem _ hw)) u).mp h2, h1', e]
          rfl
        · rintro rfl
          exact ⟨_, _, e.symm, (ih (fun w hw => hm w (List.mem_cons_of_mem _ hw)) _).mpr rfl, rfl⟩
    constructor
    · rintro ⟨g, h1, rfl⟩; rw [(hfa g).mp h1]
    · rintro rfl; exact ⟨_, (hfa _).mpr rfl, rfl⟩
  have hhess : FReg.hessian .L2 pred s.target = some ((List.replicate s.nSample (1 : ℤ)).map fun z : ℤ => fin (z : ℝ)) := by
    unfold FReg.hessian
    rw [if_pos hpl, hpred, List.length_replicate, List.map_replicate]
    simp
  set g := gs.map fun z : ℤ => fin (z : ℝ) with hg
  set h := (List.replicate s.nSample (1 : ℤ)).map fun z : ℤ => fin (z : ℝ) with hh
  have hr : FReg.Rows s g h (List.range s.nSample) :=
    ⟨fun i hi => by simpa using hi, by simp [hg, hgs, hlen], by simp [hh], by simpa [← hlen] using hN'⟩
  have hgsum : gs.sum = -((zs.length : ℤ) * k) := by
    have : gs.sum = zs.length * m - zs.sum := by
      rw [hgs]
      clear * -
      induction zs with
      | nil => simp
      | cons z zs ih => simp only [List.map_cons, List.sum_cons, List.length_cons, ih]; push_cast; ring
    rw [this, hsum]; ring
  have hval : (FReg.leafValues (fin ((gs.sum : ℤ) : ℝ)) (fin (((List.replicate s.nSample (1 : ℤ)).sum : ℤ) : ℝ)) (fin 0)).1 = fin (k : ℝ) := by
    unfold FReg.leafValues
    have e1 : ((List.replicate s.nSample (1 : ℤ)).sum : ℤ) = (zs.length : ℤ) := by rw [hlen]; simp
    have e2 : add (fin (((zs.length : ℤ) : ℤ) : ℝ)) (fin 0) = fin (((zs.length : ℤ) : ℤ) : ℝ) := by
      have := FReg.add_int (a := (zs.length : ℤ)) (b := 0) (by rw [add_zero, abs_of_nonneg (by positivity)]; exact_mod_cast hN')
      rw [Int.cast_zero, add_zero] at this
      exact this
    have e3 : neg (fin ((gs.sum : ℤ) : ℝ)) = fin ((((zs.length : ℤ) * k : ℤ)) : ℝ) := by
      rw [hgsum]; simp [neg]
    dsimp only
    rw [e1, e2, e3]
    exact div_int (by exact_mod_cast hN.ne') hk rfl
  have hpl' : ∀ c, FReg.PredLoss (List.range s.nSample) g h t.lambdaL2 c ↔ c = some (FReg.leafValues (fin ((gs.sum : ℤ) : ℝ)) (fin (((List.replicate s.nSample (1 : ℤ)).sum : ℤ) : ℝ)) (fin 0)) := by
    intro c
    rw [FReg.predLoss_iff hr, hlam]
    have s1 : ∀ a, FTree.SumOf ((List.range s.nSample).map fun i => g.getD i nan) a ↔ a = fin ((gs.sum : ℤ) : ℝ) := by
      intro a
      rw [hg, ints_getD gs (by simp [hgs, hlen])]
      constructor
      · rintro ⟨tr, h1, rfl⟩; exact split_int_abs tr gs h1 hb
      · rintro rfl; exact ⟨.seq _, rfl, (split_int_abs (.seq _) gs rfl hb).symm⟩
    have s2 : ∀ a, FTree.SumOf ((List.range s.nSample).map fun i => h.getD i nan) a ↔ a = fin (((List.replicate s.nSample (1 : ℤ)).sum : ℤ) : ℝ) := by
      intro a
      have hb1 : ((List.replicate s.nSample (1 : ℤ)).map (|·|)).sum < 2 ^ 53 := by
        rw [List.map_replicate]; simp; rw [← hlen]; exact_mod_cast hN'
      rw [hh, ints_getD (List.replicate s.nSample (1 : ℤ)) (by simp)]
      constructor
      · rintro ⟨tr, h1, rfl⟩; exact split_int_abs tr _ h1 hb1
      · rintro rfl; exact ⟨.seq _, rfl, (split_int_abs (.seq _) _ rfl hb1).symm⟩
    simp only [s1, s2]
    constructor
    · rintro ⟨a, b, rfl, rfl, rfl⟩; rfl
    · rintro rfl; exact ⟨_, _, rfl, rfl, rfl⟩
  unfold FReg.Produce
  simp only [hl, hgrad, hhess, exists_eq_left, hn]
  have hcase : t.maxDepth = 0 ∨ t.maxDepth = 1 := by omega
  rcases hcase with h0 | h0
  · rw [h0]
    unfold FReg.FullTree
    simp only [hpl', exists_eq_left, Option.map_some, hval]
  · rw [h0]
    unfold FReg.FullTree
    simp only [hpl', exists_eq_left, or_true, true_and, not_true_eq_false, false_and, or_false, hval]

/-- C123: gradient boosting with the squared loss and regression trees with one leaf (depth limit at most 1, regulariser 0) never returns a model in `f64`
when the targets are integers (absolute sum below `2⁵²`) with an integer mean `k`, however large the sample: the first round fits the mean exactly, and
the second tree is zero. -/
theorem gbm_f64_trees_panic {t : FReg.Tree} {s : Sample ℝ} (hs : SampleOk s) (hd : t.maxDepth ≤ 1) (hl : t.loss = .L2) (hlam : t.lambdaL2 = fin 0)
    (hn : t.nSample = s.nSample) {zs : List ℤ} (hz : s.target = zs.map fun z : ℤ => (z : ℝ)) (hN : 0 < zs.length) (hN' : zs.length < 2 ^ 53)
    (hb : (zs.map (|·|)).sum < 2 ^ 52) (k : ℤ) (hk : zs.sum = zs.length * k) (wl : WeakLearner F64 (TreeNode F64)) (hwl : FReg.IsLearner t s wl)
    (r) (hr : (GBMF.booster s.rows).Runs wl (GBMF.init s.rows .L2) r) : ∃ e, r = .error e := by
  have hlen : zs.length = s.nSample := by rw [← hs.labels, hz, List.length_map]
  have hrl : s.rows.length = s.nSample := by unfold Sample.rows; simp
  have hNk : (zs.length : ℤ) * |k| < 2 ^ 52 := by
    have h1 := abs_sum_le_int zs
    rw [hk, abs_mul, abs_of_nonneg (by positivity : (0 : ℤ) ≤ zs.length)] at h1
    omega
  have hN1 : (1 : ℤ) ≤ zs.length := by exact_mod_cast hN
  have hk2 : |k| < 2 ^ 52 := by nlinarith [abs_nonneg k]
  have hzb : ∀ z ∈ zs, |z| < 2 ^ 52 := by
    intro z hz'
    have : |z| ≤ (zs.map (|·|)).sum := List.single_le_sum (by intro y hy; obtain ⟨w, -, rfl⟩ := List.mem_map.mp hy; exact abs_nonneg w) _ (List.mem_map.mpr ⟨z, hz', rfl⟩)
    omega
  have hshift : ∀ m : ℤ, ((zs.map fun z => m - z).map (|·|)).sum ≤ zs.length * |m| + (zs.map (|·|)).sum := by
    intro m
    clear * -
    induction zs with
    | nil => simp
    | cons z zs ih =>
      simp only [List.map_cons, List.sum_cons, List.length_cons]
      push_cast
      have := abs_sub m z
      nlinarith
  -- the two trees
  have tree1 := one_leaf hs hd hl hlam hn hz 0 k hN hN' (by rw [hk]; ring) (by have := hshift 0; simp only [abs_zero, mul_zero, zero_add] at this; omega) (by omega)
    (fun z hz' => by have := hzb z hz'; rw [zero_sub, abs_neg]; omega)
  have tree2 := one_leaf hs hd hl hlam hn hz k 0 hN hN' (by rw [hk]; ring) (by have := hshift k; omega) (by norm_num)
    (fun z hz' => by have := hzb z hz'; have := abs_sub k z; omega)
  have w1 : ∀ it, wl it (List.replicate s.nSample (fin 0)) = .leaf (fin (k : ℝ)) := by
    intro it
    rw [Int.cast_zero] at tree1
    exact Option.some.inj ((tree1 _).mp (hwl it _ ⟨_, (tree1 _).mpr rfl⟩))
  have w2 : ∀ it, wl it (List.replicate s.nSample (fin (k : ℝ))) = .leaf (fin 0) := by
    intro it
    have := Option.some.inj ((tree2 _).mp (hwl it _ ⟨_, (tree2 _).mpr rfl⟩))
    rwa [Int.cast_zero] at this
  have outs : ∀ c : F64, (s.rows.map fun e => (Regressor.pred (.leaf c : TreeNode F64) e.1 : F64)) = List.replicate s.nSample c := by
    intro c
    rw [← hrl]
    exact List.map_const' ..
  have ysum : ((s.rows.map Prod.snd).map fin).foldl add (fin 0) = fin ((zs.sum : ℤ) : ℝ) := by
    rw [rows_target hs]; exact l2_integer_sum hz (by omega)
  have psum : ∀ m : ℤ, (zs.length : ℤ) * |m| < 2 ^ 53 → (List.replicate s.nSample (fin (m : ℝ))).foldl add (fin 0) = fin (((zs.length : ℤ) * m : ℤ) : ℝ) := by
    intro m hm
    have := foldl_int_abs (List.replicate s.nSample m) 0 (by rw [List.map_replicate]; simpa [← hlen] using hm)
    rw [List.map_replicate, Int.cast_zero, List.sum_replicate] at this
    rw [this, hlen]
    simp
  have zero_panics : ∀ (st : GBMF (TreeNode F64)) (it : Nat) (r), st.loss = .L2 → it ≤ st.maxIter → wl it st.predictions = .leaf (fin 0) → GBMF.Boost s.rows st wl it r → r = .error .assertion := by
    intro st it r h1 h2 h3 h
    unfold GBMF.Boost at h
    rw [if_neg (by omega)] at h
    have h0 := psum 0 (by simp)
    rw [Int.cast_zero, mul_zero, Int.cast_zero] at h0
    simp only [h3, outs, h1, GBMLoss.bestCoefficientF, h0, if_true] at h
    exact h
  have main : ∀ {s₀ : GBMF (TreeNode F64)} {r}, (GBMF.booster s.rows).preprocess (GBMF.init s.rows .L2) wl = .ok s₀ → (GBMF.booster s.rows).Loop wl s₀ 1 r → ∃ e, r = .error e := by
    intro s₀ r hp hloop
    obtain rfl : gbmStart s.rows = s₀ := Except.ok.inj hp
    have hpr : List.replicate s.rows.length (fin 0) = List.replicate s.nSample (fin 0) := by rw [hrl]
    by_cases hk0 : k = 0
    · have hz1 : ∀ r, (GBMF.booster s.rows).boost (gbmStart s.rows) wl 1 r → r = .error .assertion := by
        intro r h
        refine zero_panics (gbmStart s.rows) 1 r rfl (by norm_num [gbmStart]) ?_ h
        change wl 1 (List.replicate s.rows.length (fin 0)) = _
        rw [hpr, w1 1, hk0, Int.cast_zero]
      cases hloop with
      | panic h => exact ⟨_, rfl⟩
      | stop h hf => cases hz1 _ h
      | next h hf => cases hz1 _ h
    · have hstep : ∀ r, (GBMF.booster s.rows).boost (gbmStart s.rows) wl 1 r →
          ∃ out, r = .ok out ∧ out.flow = .cont ∧ out.state.loss = .L2 ∧ out.state.maxIter = 100 ∧ out.state.predictions = List.replicate s.nSample (fin (k : ℝ)) := by
        intro r h
        change GBMF.Boost s.rows (gbmStart s.rows) wl 1 r at h
        unfold GBMF.Boost at h
        rw [if_neg (by norm_num [gbmStart])] at h
        have hc : div (fin ((zs.sum : ℤ) : ℝ)) (fin (((zs.length : ℤ) * k : ℤ) : ℝ)) = fin 1 := by
          have := div_int (a := zs.sum) (b := (zs.length : ℤ) * k) (k := 1) (mul_ne_zero (by omega) hk0) (by norm_num) (by rw [hk]; ring)
          rwa [Int.cast_one] at this
        have hpne : fin (((zs.length : ℤ) * k : ℤ) : ℝ) ≠ fin 0 := by
          intro e
          have : (((zs.length : ℤ) * k : ℤ) : ℝ) = 0 := F64.fin.inj e
          exact mul_ne_zero (show (zs.length : ℤ) ≠ 0 by omega) hk0 (by exact_mod_cast this)
        have hp := psum k (by omega)
        have hbest := l2_search_ok ysum hp hpne
        rw [hc] at hbest
        have e1 : (gbmStart s.rows : GBMF (TreeNode F64)).predictions = List.replicate s.nSample (fin 0) := hpr
        have e2 : (gbmStart s.rows : GBMF (TreeNode F64)).loss = .L2 := rfl
        simp only [e1, e2, w1, outs, hbest] at h
        rw [if_neg (by intro e; have := F64.fin.inj e; norm_num at this)] at h
        obtain ⟨new, h1, rfl⟩ := h
        refine ⟨_, rfl, rfl, rfl, rfl, ?_⟩
        dsimp only
        rw [(parUpdate_iff _ _ _ _).mp h1, updateZip_eq_zipWith _ _ _ (by simp), List.zipWith_replicate]
        rw [min_self]
        congr 1
        have e1 : mul (fin 1) (fin (k : ℝ)) = fin (k : ℝ) := by
          change rnd (1 * (k : ℝ)) = _
          have hb2 : |(k : ℝ)| ≤ 10 ^ 20 := by
            rw [← Int.cast_abs]
            have : ((|k| : ℤ) : ℝ) < 2 ^ 52 := by exact_mod_cast hk2
            linarith [show (2 : ℝ) ^ 52 ≤ 10 ^ 20 by norm_num]
          rw [one_mul, rnd_small hb2, round_of_rep ⟨k, 0, by omega, by norm_num, by simp⟩]
        rw [e1]
        have := FReg.add_int (a := 0) (b := k) (by rw [zero_add]; omega)
        rwa [Int.cast_zero, zero_add] at this
      cases hloop with
      | panic h => exact ⟨_, rfl⟩
      | stop h hf => obtain ⟨out, h1, h2, -⟩ := hstep _ h; cases h1; rw [hf] at h2; cases h2
      | next h hf hl2 =>
        obtain ⟨out, h1, -, h3, h4, h5⟩ := hstep _ h
        rw [Except.ok.injEq] at h1
        rw [h1] at hl2
        have hz2 : ∀ r, (GBMF.booster s.rows).boost out.state wl 2 r → r = .error .assertion := by
          intro r h
          refine zero_panics _ 2 r h3 (by omega) ?_ h
          rw [h5, w2]
        cases hl2 with
        | panic h => exact ⟨_, rfl⟩
        | stop h hf => cases hz2 _ h
        | next h hf => cases hz2 _ h
  cases hr with
  | pre h => exact ⟨_, rfl⟩
  | loop h hl => exact ⟨_, rfl⟩
  | post h hl hp => exact ⟨_, rfl⟩
  | ok h hl hp => obtain ⟨e, he⟩ := main h hl; cases he

/-- A learner in the sense of the theorem exists for every tree configuration and sample. -/
theorem reg_learner_exists (t : FReg.Tree) (s : Sample ℝ) : ∃ wl, FReg.IsLearner t s wl := by
  classical
  refine ⟨fun _ d => if h : ∃ tree, FReg.Produce t s d (some tree) then h.choose else .leaf nan, fun it d h => ?_⟩
  show FReg.Produce t s d (some (if h : ∃ tree, FReg.Produce t s d (some tree) then h.choose else .leaf nan))
  rw [dif_pos h]
  exact h.choose_spec

/-- Two rows with targets 1 and 3: the hypotheses hold, a run exists, and it panics. -/
example : ∃ wl, FReg.IsLearner ⟨[], 1, 2, fin 0, .L2⟩ (oneColumn [0, 5] [1, 3]) wl ∧
    ∃ e, (GBMF.booster (oneColumn [0, 5] [1, 3]).rows).Runs wl (GBMF.init (oneColumn [0, 5] [1, 3]).rows .L2) (.error e) := by
  obtain ⟨wl, hwl⟩ := reg_learner_exists ⟨[], 1, 2, fin 0, .L2⟩ (oneColumn [0, 5] [1, 3])
  refine ⟨wl, hwl, ?_⟩
  obtain ⟨r, hr, -⟩ := gbm_f64_one_result (oneColumn [0, 5] [1, 3]).rows .L2 .L2 (fin 0) wl
  have hrun : (GBMF.booster (oneColumn [0, 5] [1, 3]).rows).Runs wl (GBMF.init (oneColumn [0, 5] [1, 3]).rows .L2) r := (hr r).mpr rfl
  obtain ⟨e, rfl⟩ := gbm_f64_trees_panic (t := ⟨[], 1, 2, fin 0, .L2⟩) (s := oneColumn [0, 5] [1, 3]) (oneColumn_ok rfl) le_rfl rfl rfl rfl (zs := [1, 3]) (by simp [oneColumn]) (by simp) (by simp) (by norm_num) 2 (by norm_num) wl hwl r hrun
  exact ⟨e, hrun⟩

/-- Targets 1 and -1. -/
example (wl : WeakLearner F64 (RFn ℝ F64)) : ∃ e, (GBMF.booster [((0 : ℝ), (1 : ℝ)), (0, -1)]).Runs wl (GBMF.init [((0 : ℝ), (1 : ℝ)), (0, -1)] .L2) (.error e) := by
  obtain ⟨r, hr, -⟩ := gbm_f64_one_result [((0 : ℝ), (1 : ℝ)), (0, -1)] .L2 .L2 (fin 0) wl
  have hrun : (GBMF.booster [((0 : ℝ), (1 : ℝ)), (0, -1)]).Runs wl (GBMF.init [((0 : ℝ), (1 : ℝ)), (0, -1)] .L2) r := (hr r).mpr rfl
  obtain ⟨e, rfl⟩ := gbm_f64_centred_panics _ [1, -1] (by simp) (by norm_num) (by norm_num) wl r hrun
  exact ⟨e, hrun⟩

end Miniboosts.Props
