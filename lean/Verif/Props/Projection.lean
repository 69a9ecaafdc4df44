import Verif.Lemmas.Projection
import Verif.Lemmas.Entropy
import Verif.Lemmas.AdaBoostInv

/-! # The entropy projection onto the capped simplex and the entropy helpers (C11, C12, C59) -/

namespace Miniboosts.Props

open Real

/-- C11, definedness: the projection returns normally exactly when `1 ≤ ν ≤ n`; otherwise it panics.  In
particular for admissible `ν` it always finds its stopping point and never takes the logarithm of a
non-positive number. -/
theorem project_ok_iff (nu : ℝ) (logs : List ℝ) :
    (∃ d, projectCapped nu logs = .ok d) ↔ 1 ≤ nu ∧ nu ≤ logs.length := by
  constructor
  · rintro ⟨d, hd⟩
    unfold projectCapped at hd
    simp only [] at hd
    cases hl : projLoop nu 0 (List.zip ((List.range logs.length).mergeSort fun i j =>
        decide (logs.getD j 0 ≤ logs.getD i 0)) (suffixLogSums (((List.range logs.length).mergeSort fun i j =>
        decide (logs.getD j 0 ≤ logs.getD i 0)).map fun i => logs.getD i 0))) logs with
    | error e => rw [hl] at hd; simp at hd
    | ok D =>
      rw [hl] at hd
      simp only [checkCappedSimplex, checkNu, projLoop_length hl] at hd
      by_cases h : 1 ≤ nu ∧ nu ≤ (logs.length : ℝ)
      · exact h
      · rw [if_neg h] at hd; simp at hd
  · rintro ⟨h1, h2⟩
    obtain ⟨ξ, _, h, _⟩ := projectCapped_eq nu logs h1 h2
    exact ⟨_, h⟩

/-- C11: the result has one entry per input, every entry lies in `[0, 1/ν]` (in fact it is positive), and the
entries sum to one. -/
theorem project_capped (nu : ℝ) (logs d : List ℝ) (h : projectCapped nu logs = .ok d) :
    d.length = logs.length ∧ Spec.IsCapped nu d ∧ Spec.IsPosProb d := by
  obtain ⟨h1, h2⟩ := (project_ok_iff nu logs).1 ⟨d, h⟩
  obtain ⟨ξ, h0, he, hs⟩ := projectCapped_eq nu logs h1 h2
  rw [h, Except.ok.injEq] at he
  subst he
  have hnu : 0 < nu := by linarith
  refine ⟨by simp, ⟨?_, hs⟩, ?_, hs⟩ <;>
  · intro p hp
    obtain ⟨a, _, rfl⟩ := List.mem_map.1 hp
    first
    | exact ⟨le_min (by positivity) (by positivity), min_le_left _ _⟩
    | exact lt_min (by positivity) (by positivity)

/-- C12, the shape of the result: all exponentials are multiplied by one common factor and then clipped at
`1/ν`.  Hence the order of the entries is preserved and uncapped entries keep their ratios. -/
theorem project_shape (nu : ℝ) (logs d : List ℝ) (h : projectCapped nu logs = .ok d) :
    ∃ ξ, 0 < ξ ∧ d = logs.map fun a => min (1 / nu) (ξ * exp a) := by
  obtain ⟨h1, h2⟩ := (project_ok_iff nu logs).1 ⟨d, h⟩
  obtain ⟨ξ, h0, he, hs⟩ := projectCapped_eq nu logs h1 h2
  rw [h, Except.ok.injEq] at he
  exact ⟨ξ, h0, he⟩

/-- C12: the projection preserves the order of the entries, and entries below the cap keep their ratios. -/
theorem project_order (nu : ℝ) (logs d : List ℝ) (h : projectCapped nu logs = .ok d) (i j : Nat)
    (a b x y : ℝ) (hi : logs[i]? = some a) (hj : logs[j]? = some b) (hx : d[i]? = some x)
    (hy : d[j]? = some y) :
    (a ≤ b → x ≤ y) ∧ (x < 1 / nu → y < 1 / nu → x / y = exp a / exp b) := by
  obtain ⟨ξ, h0, rfl⟩ := project_shape nu logs d h
  simp only [List.getElem?_map, hi, hj, Option.map_some, Option.some.injEq] at hx hy
  subst hx hy
  constructor
  · intro hab
    apply min_le_min le_rfl
    exact mul_le_mul_of_nonneg_left (exp_le_exp.2 hab) h0.le
  · intro hx hy
    rw [min_eq_right (by rcases min_lt_iff.1 hx with h | h; exact absurd h (lt_irrefl _); exact h.le),
      min_eq_right (by rcases min_lt_iff.1 hy with h | h; exact absurd h (lt_irrefl _); exact h.le),
      mul_div_mul_left _ _ h0.ne']

/-- The inequality behind optimality, for one list of logarithms. -/
theorem project_ineq (nu ξ Z : ℝ) (hnu : 0 < nu) (h0 : 0 < ξ) (hZ : 0 < Z) (logs d' : List ℝ)
    (hl : d'.length = logs.length) (hd' : ∀ p ∈ d', 0 ≤ p ∧ p ≤ 1 / nu) :
    log (ξ * Z) * (d'.sum - (logs.map fun a => min (1 / nu) (ξ * exp a)).sum) ≤
      Spec.relEnt d' (logs.map fun a => exp a / Z) -
        Spec.relEnt (logs.map fun a => min (1 / nu) (ξ * exp a)) (logs.map fun a => exp a / Z) -
        Spec.relEnt d' (logs.map fun a => min (1 / nu) (ξ * exp a)) := by
  induction logs generalizing d' with
  | nil =>
    match d', hl with
    | [], _ => simp [Spec.relEnt]
  | cons a logs ih =>
    match d', hl with
    | x :: d', hl =>
      have ih' := ih d' (by simpa using hl) (fun p hp => hd' p (by simp [hp]))
      simp only [List.map_cons, relEnt_cons, List.sum_cons]
      set m := min (1 / nu) (ξ * exp a) with hm
      have hmpos : 0 < m := lt_min (by positivity) (by positivity)
      obtain ⟨hx0, hx1⟩ := hd' x (by simp)
      have hterm : log (ξ * Z) * (x - m) ≤ klTerm x (exp a / Z) - klTerm m (exp a / Z) - klTerm x m := by
        have hp : 0 < exp a / Z := by positivity
        have h1 : klTerm x (exp a / Z) - klTerm x m = x * log (m / (exp a / Z)) := by
          rw [klTerm_eq, klTerm_eq]
          rcases hx0.eq_or_lt with rfl | hx
          · simp
          · rw [log_div hx.ne' hp.ne', log_div hx.ne' hmpos.ne', log_div hmpos.ne' hp.ne']; ring
        have h2 : klTerm x (exp a / Z) - klTerm m (exp a / Z) - klTerm x m =
            (x - m) * log (m / (exp a / Z)) := by
          rw [klTerm_eq m]; linarith
        rw [h2]
        rcases le_total (ξ * exp a) (1 / nu) with hc | hc
        · have : m = ξ * exp a := min_eq_right hc
          have h3 : m / (exp a / Z) = ξ * Z := by rw [this]; field_simp
          rw [h3]; linarith
        · have : m = 1 / nu := min_eq_left hc
          have h3 : m / (exp a / Z) ≤ ξ * Z := by
            rw [div_le_iff₀ hp, this]
            have : ξ * Z * (exp a / Z) = ξ * exp a := by field_simp
            rw [this]; exact hc
          have h4 := log_le_log (by positivity) h3
          have h5 : x - m ≤ 0 := by rw [this]; linarith
          nlinarith
      linarith

/-- C12, optimality: the result is the relative-entropy projection.  For every competitor `d'` in the capped
simplex the relative entropy to the softmax of the inputs exceeds that of the result by at least the relative
entropy between the competitor and the result (the Pythagorean inequality). -/
theorem project_pythagoras (nu : ℝ) (logs d : List ℝ) (h : projectCapped nu logs = .ok d) (d' : List ℝ)
    (hl : d'.length = logs.length) (hd' : Spec.IsCapped nu d') :
    Spec.relEnt d (Spec.softmax logs) + Spec.relEnt d' d ≤ Spec.relEnt d' (Spec.softmax logs) := by
  obtain ⟨h1, h2⟩ := (project_ok_iff nu logs).1 ⟨d, h⟩
  have hsum := (project_capped nu logs d h).2.1.2
  obtain ⟨ξ, h0, rfl⟩ := project_shape nu logs d h
  have hne : logs ≠ [] := by
    rintro rfl; simp at h2; linarith
  have hZ : 0 < (logs.map exp).sum := sum_map_pos logs _ hne (fun _ _ => exp_pos _)
  have := project_ineq nu ξ _ (by linarith) h0 hZ logs d' hl hd'.1
  rw [hd'.2, hsum, sub_self, mul_zero] at this
  unfold Spec.softmax
  linarith

/-- C12: the result minimises the relative entropy to the softmax of the inputs over the capped simplex, and it
is the only minimiser. -/
theorem project_optimal (nu : ℝ) (logs d : List ℝ) (h : projectCapped nu logs = .ok d) (d' : List ℝ)
    (hl : d'.length = logs.length) (hd' : Spec.IsCapped nu d') :
    Spec.relEnt d (Spec.softmax logs) ≤ Spec.relEnt d' (Spec.softmax logs) ∧
    (Spec.relEnt d' (Spec.softmax logs) = Spec.relEnt d (Spec.softmax logs) → d' = d) := by
  have hp := project_pythagoras nu logs d h d' hl hd'
  obtain ⟨hlen, _, hpos⟩ := project_capped nu logs d h
  have hg := relEnt_ge d' d (by rw [hl, hlen]) (fun x hx => (hd'.1 x hx).1) hpos.1
  rw [hd'.2, hpos.2, sub_self] at hg
  refine ⟨by linarith [hg.1], fun he => hg.2 (by linarith [hg.1])⟩

/-- With `ν = 1` (no cap) the projection is the softmax. -/
theorem project_one (logs : List ℝ) (hne : logs ≠ []) :
    projectCapped 1 logs = .ok (Spec.softmax logs) := by
  have hlen : (1 : ℝ) ≤ logs.length := by
    have : 1 ≤ logs.length := List.length_pos_of_ne_nil hne
    exact_mod_cast this
  obtain ⟨d, hd⟩ := (project_ok_iff 1 logs).2 ⟨le_rfl, hlen⟩
  have hZ : 0 < (logs.map exp).sum := sum_map_pos logs _ hne (fun _ _ => exp_pos _)
  have hcap : Spec.IsCapped 1 (Spec.softmax logs) := by
    constructor
    · intro p hp
      obtain ⟨a, ha, rfl⟩ := List.mem_map.1 hp
      refine ⟨by positivity, ?_⟩
      rw [div_le_div_iff₀ hZ one_pos, mul_one, one_mul]
      exact single_le_sum_map logs exp (fun _ _ => (exp_pos _).le) ha
    · unfold Spec.softmax
      rw [sum_map_div, div_self hZ.ne']
  obtain ⟨hlen', _, hpos⟩ := project_capped 1 logs d hd
  have hrel : Spec.relEnt (Spec.softmax logs) (Spec.softmax logs) = 0 := by
    have : ∀ l : List ℝ, Spec.relEnt l l = 0 := by
      intro l
      induction l with
      | nil => rfl
      | cons x l ih =>
        rw [relEnt_cons, ih, klTerm_eq]
        by_cases hx : x = 0
        · simp [hx]
        · rw [div_self hx]; simp
    exact this _
  have hp := project_pythagoras 1 logs d hd (Spec.softmax logs) (by simp [Spec.softmax]) hcap
  have hg := relEnt_ge (Spec.softmax logs) d (by simp [Spec.softmax, hlen'])
    (fun x hx => (hcap.1 x hx).1) hpos.1
  have hpz : ∀ p ∈ Spec.softmax logs, 0 < p := by
    intro p hp; obtain ⟨a, _, rfl⟩ := List.mem_map.1 hp; positivity
  have hg2 := relEnt_ge d (Spec.softmax logs) (by simp [Spec.softmax, hlen'])
    (fun x hx => (hpos.1 x hx).le) hpz
  rw [hcap.2, hpos.2, sub_self] at hg hg2
  rw [hd, hg.2 (by linarith [hg.1, hg2.1])]

/-- Adding a constant to all logarithms (a rescaling of the unnormalised weights) does not change the result. -/
theorem project_shift (nu c : ℝ) (logs : List ℝ) :
    (∃ d, projectCapped nu logs = .ok d ∧ projectCapped nu (logs.map (· + c)) = .ok d) ∨
    ((∃ e, projectCapped nu logs = .error e) ∧ ∃ e, projectCapped nu (logs.map (· + c)) = .error e) := by
  by_cases h : 1 ≤ nu ∧ nu ≤ logs.length
  · left
    obtain ⟨d, hd⟩ := (project_ok_iff nu logs).2 h
    obtain ⟨d', hd'⟩ := (project_ok_iff nu (logs.map (· + c))).2 (by simpa using h)
    have hsm : Spec.softmax (logs.map (· + c)) = Spec.softmax logs := by
      unfold Spec.softmax
      rw [List.map_map, List.map_map]
      apply List.map_congr_left
      intro a _
      have : (logs.map (exp ∘ (· + c))).sum = exp c * (logs.map exp).sum := by
        rw [← sum_map_mul_left']; congr 1; apply List.map_congr_left
        intro a _; simp only [Function.comp]; rw [exp_add]; ring
      simp only [Function.comp, this, exp_add]
      rw [mul_comm, mul_div_mul_left _ _ (exp_pos c).ne']
    obtain ⟨hl, hcap, _⟩ := project_capped nu logs d hd
    obtain ⟨hl', hcap', _⟩ := project_capped nu _ d' hd'
    simp only [List.length_map] at hl'
    have h1 := project_optimal nu logs d hd d' hl' hcap'
    have h2 := project_optimal nu _ d' hd' d (by simpa using hl) hcap
    rw [hsm] at h2
    have := h1.2 (le_antisymm h2.1 h1.1)
    exact ⟨d, hd, by rw [hd', this]⟩
  · right
    constructor
    · cases hp : projectCapped nu logs with
      | error e => exact ⟨e, rfl⟩
      | ok d => exact absurd ((project_ok_iff nu logs).1 ⟨d, hp⟩) h
    · cases hp : projectCapped nu (logs.map (· + c)) with
      | error e => exact ⟨e, rfl⟩
      | ok d => exact absurd (by simpa using (project_ok_iff nu _).1 ⟨d, hp⟩) h

/-- The distribution computed from hypothesis weights (`exp_distribution`): it is the capped projection of
`exp(-η y F(x))`. -/
theorem expDistribution_shape {H X : Type*} [Classifier H X ℝ] (eta nu : ℝ) (S : Examples X ℝ) (ws : List ℝ)
    (hs : List H) (h1 : 1 ≤ nu) (h2 : nu ≤ S.length) :
    ∃ d ξ, expDistribution eta nu S ws hs = .ok d ∧ Spec.IsCapped nu d ∧ d.length = S.length ∧ 0 < ξ ∧
      d = S.map fun e => min (1 / nu) (ξ * exp (-eta * (e.2 * Spec.vote conf (List.zip ws hs) e.1))) := by
  unfold expDistribution
  have hlen : (logExpDistribution eta S ws hs).length = S.length := by
    simp [logExpDistribution, weightedMargins]
  obtain ⟨d, hd⟩ := (project_ok_iff nu (logExpDistribution eta S ws hs)).2 ⟨h1, by rw [hlen]; exact h2⟩
  obtain ⟨ξ, h0, hs'⟩ := project_shape nu _ d hd
  obtain ⟨hl, hc, _⟩ := project_capped nu _ d hd
  refine ⟨d, ξ, hd, hc, by rw [hl, hlen], h0, ?_⟩
  rw [hs']
  simp only [logExpDistribution, weightedMargins, List.map_map, Function.comp_def, weightedConf_eq_vote]

/-- C59: the entropy helper is the relative entropy to the uniform distribution. -/
theorem entropyFromUni_eq (d : List ℝ) (hd : Spec.IsProb d) :
    entropyFromUni d = Spec.relEnt d (List.replicate d.length (1 / (d.length : ℝ))) := by
  have hne : d ≠ [] := by rintro rfl; have := hd.2; simp at this
  have hlen : (0 : ℝ) < d.length := by exact_mod_cast List.length_pos_of_ne_nil hne
  have key : ∀ (l : List ℝ) (c : ℝ), 0 < c → (∀ p ∈ l, 0 ≤ p) →
      Spec.relEnt l (List.replicate l.length (1 / c)) = entropy l + log c * l.sum := by
    intro l c hc hl
    induction l with
    | nil => simp [Spec.relEnt, entropy]
    | cons x l ih =>
      rw [List.length_cons, List.replicate_succ, relEnt_cons, ih (fun p hp => hl p (by simp [hp])), klTerm_eq]
      simp only [entropy, List.map_cons, List.sum_cons]
      by_cases hx : x = 0
      · simp [hx]
      · rw [if_neg hx, div_div_eq_mul_div, div_one, log_mul hx hc.ne']; ring
  rw [key d _ hlen hd.1, hd.2, mul_one]
  rfl

/-- C59: non-negative, zero exactly at the uniform distribution, at most `ln m`. -/
theorem entropyFromUni_bounds (d : List ℝ) (hd : Spec.IsProb d) :
    0 ≤ entropyFromUni d ∧ (entropyFromUni d = 0 ↔ d = List.replicate d.length (1 / (d.length : ℝ))) ∧
      entropyFromUni d ≤ log d.length := by
  have hne : d ≠ [] := by rintro rfl; have := hd.2; simp at this
  have hlen : (0 : ℝ) < d.length := by exact_mod_cast List.length_pos_of_ne_nil hne
  have hg := relEnt_ge d (List.replicate d.length (1 / (d.length : ℝ))) (by simp) hd.1 (by
    intro y hy; rw [List.mem_replicate] at hy; rw [hy.2]; positivity)
  have hs : (List.replicate d.length (1 / (d.length : ℝ))).sum = 1 := by
    rw [List.sum_replicate, nsmul_eq_mul]; field_simp
  rw [hd.2, hs, sub_self, ← entropyFromUni_eq d hd] at hg
  refine ⟨hg.1, ⟨hg.2, fun h => ?_⟩, ?_⟩
  · rw [entropyFromUni_eq d hd]
    have hself : ∀ l : List ℝ, Spec.relEnt l l = 0 := by
      intro l
      induction l with
      | nil => rfl
      | cons x l ih =>
        rw [relEnt_cons, ih, klTerm_eq]
        by_cases hx : x = 0
        · simp [hx]
        · rw [div_self hx]; simp
    rw [← h]; exact hself d
  · unfold entropyFromUni
    have : entropy d ≤ 0 := by
      unfold entropy
      have hle : (d.map fun p => if p = 0 then 0 else p * log p).sum ≤ (d.map fun _ => (0 : ℝ)).sum := by
        apply sum_map_le
        intro p hp
        split
        · exact le_rfl
        · have hp1 : p ≤ 1 := by
            have := single_le_sum_map d id (fun i hi => hd.1 i hi) hp
            simp only [List.map_id, id] at this
            rwa [hd.2] at this
          exact mul_nonpos_of_nonneg_of_nonpos (hd.1 p hp) (log_nonpos (hd.1 p hp) hp1)
      simpa using hle
    linarith

section nonvacuity

/-- The projection is defined for three examples and `ν = 2`; the largest entry is capped. -/
example : ∃ d, projectCapped 2 [5, 0, 0] = .ok d := (project_ok_iff 2 [5, 0, 0]).2 (by norm_num)

/-- ... and it is not the uncapped softmax: the cap is active. -/
example (d : List ℝ) (h : projectCapped 2 [log 8, 0, 0] = .ok d) : d = [1 / 2, 1 / 4, 1 / 4] := by
  obtain ⟨ξ, h0, rfl⟩ := project_shape _ _ _ h
  have hs := (project_capped _ _ _ h).2.1.2
  have h8 : exp (log 8) = 8 := exp_log (by norm_num)
  simp only [List.map_cons, List.map_nil, h8, exp_zero, mul_one, List.sum_cons, List.sum_nil, add_zero] at hs ⊢
  have h1 : min (1 / 2) (ξ * 8) = 1 / 2 := by
    rcases min_choice (1 / 2 : ℝ) (ξ * 8) with h | h
    · exact h
    · exfalso
      have hle : ξ * 8 ≤ 1 / 2 := by rw [← h]; exact min_le_left _ _
      rw [h, min_eq_right (by linarith)] at hs
      linarith
  rw [h1] at hs ⊢
  have h2 : min (1 / 2) ξ = 1 / 4 := by linarith
  rw [h2]

example : Spec.IsProb [(1 / 2 : ℝ), 1 / 2, 0] := by
  constructor
  · intro p hp; simp at hp; rcases hp with rfl | rfl <;> norm_num
  · norm_num

end nonvacuity

end Miniboosts.Props
