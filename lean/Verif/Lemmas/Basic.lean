import Verif.Model.AdaBoost
import Mathlib.Algebra.Order.BigOperators.Group.List
import Mathlib.Tactic.Ring
import Mathlib.Tactic.Linarith
import Mathlib.Tactic.FieldSimp
import Mathlib.Tactic.Positivity

/-! Helper lemmas on list sums, log-sum-exp and the booster driver. -/

namespace Miniboosts

section sums
variable {ι : Type*} {K : Type*} [Field K] [LinearOrder K] [IsStrictOrderedRing K]

theorem sum_map_nonneg (l : List ι) (f : ι → K) (h : ∀ i ∈ l, 0 ≤ f i) : 0 ≤ (l.map f).sum := by
  induction l with
  | nil => simp
  | cons a l ih =>
    have h1 := h a (by simp)
    have h2 := ih (fun i hi => h i (by simp [hi]))
    simp only [List.map_cons, List.sum_cons]; linarith

theorem sum_map_pos (l : List ι) (f : ι → K) (hl : l ≠ []) (h : ∀ i ∈ l, 0 < f i) :
    0 < (l.map f).sum := by
  cases l with
  | nil => simp at hl
  | cons a l =>
    have h1 := h a (by simp)
    have h2 := sum_map_nonneg l f (fun i hi => (h i (by simp [hi])).le)
    simp only [List.map_cons, List.sum_cons]; linarith

theorem sum_map_le (l : List ι) (f g : ι → K) (h : ∀ i ∈ l, f i ≤ g i) :
    (l.map f).sum ≤ (l.map g).sum := by
  induction l with
  | nil => simp
  | cons a l ih =>
    have h1 := h a (by simp)
    have h2 := ih (fun i hi => h i (by simp [hi]))
    simp only [List.map_cons, List.sum_cons]; linarith

omit [LinearOrder K] [IsStrictOrderedRing K] in
theorem sum_map_mul_left' (l : List ι) (f : ι → K) (c : K) :
    (l.map fun i => c * f i).sum = c * (l.map f).sum := by
  induction l with
  | nil => simp
  | cons a l ih => simp only [List.map_cons, List.sum_cons, ih]; ring

theorem sum_map_div (l : List ι) (f : ι → K) (c : K) :
    (l.map fun i => f i / c).sum = (l.map f).sum / c := by
  induction l with
  | nil => simp
  | cons a l ih => simp only [List.map_cons, List.sum_cons, ih]; ring

omit [LinearOrder K] [IsStrictOrderedRing K] in
theorem sum_map_add' (l : List ι) (f g : ι → K) :
    (l.map fun i => f i + g i).sum = (l.map f).sum + (l.map g).sum := by
  induction l with
  | nil => simp
  | cons a l ih => simp only [List.map_cons, List.sum_cons, ih]; ring

theorem sum_map_const' (l : List ι) (c : K) :
    (l.map fun _ => c).sum = (l.length : K) * c := by
  induction l with
  | nil => simp
  | cons a l ih => simp only [List.map_cons, List.sum_cons, ih, List.length_cons]; push_cast; ring

theorem single_le_sum_map (l : List ι) (f : ι → K) (h : ∀ i ∈ l, 0 ≤ f i) {a : ι} (ha : a ∈ l) :
    f a ≤ (l.map f).sum := by
  induction l with
  | nil => simp at ha
  | cons b l ih =>
    simp only [List.map_cons, List.sum_cons]
    rcases List.mem_cons.1 ha with rfl | ha
    · have := sum_map_nonneg l f (fun i hi => h i (by simp [hi])); linarith
    · have h1 := h b (by simp)
      have := ih (fun i hi => h i (by simp [hi])) ha; linarith

theorem sum_nonneg' (l : List K) (h : ∀ i ∈ l, 0 ≤ i) : 0 ≤ l.sum := by
  simpa using sum_map_nonneg l id (by simpa using h)

theorem sum_pos' (l : List K) (hl : l ≠ []) (h : ∀ i ∈ l, 0 < i) : 0 < l.sum := by
  simpa using sum_map_pos l id hl (by simpa using h)

theorem zipWith_map_map {α β γ δ : Type*} (f : α → β → γ) (a : δ → α) (b : δ → β) (l : List δ) :
    List.zipWith f (l.map a) (l.map b) = l.map (fun x => f (a x) (b x)) := by
  induction l with
  | nil => rfl
  | cons x l ih => simp [ih]

end sums

open Real

theorem exp_logAddExp (a b : ℝ) : exp (logAddExp a b) = exp a + exp b := by
  unfold logAddExp
  split
  · rw [exp_add, exp_log (by positivity), exp_sub]
    field_simp [(exp_pos b).ne']; ring
  · rw [exp_add, exp_log (by positivity), exp_sub]
    field_simp [(exp_pos a).ne']

theorem exp_foldl_logAddExp (l : List ℝ) (a : ℝ) :
    exp (l.foldl logAddExp a) = exp a + (l.map exp).sum := by
  induction l generalizing a with
  | nil => simp
  | cons b l ih => simp only [List.foldl_cons, ih, exp_logAddExp, List.map_cons, List.sum_cons]; ring

theorem logSumExpSorted_eq (l : List ℝ) (hl : l ≠ []) :
    ∃ z, logSumExpSorted l = some z ∧ exp z = (l.map exp).sum := by
  unfold logSumExpSorted
  have hp := List.mergeSort_perm l (fun a b => decide (a ≤ b))
  cases hm : l.mergeSort (fun a b => decide (a ≤ b)) with
  | nil => rw [hm] at hp; exact absurd hp.symm.eq_nil hl
  | cons a rest =>
    refine ⟨_, rfl, ?_⟩
    rw [exp_foldl_logAddExp]
    rw [hm] at hp
    have := (hp.map exp).sum_eq
    simpa using this

theorem logSumExpSorted_nil : logSumExpSorted [] = none := by
  simp [logSumExpSorted]

/-- On a vector indexed by examples, `reweight` is multiplication by `exp (-weight * margin)` and
division by the sum. -/
theorem reweight_map {ι : Type*} (S : List ι) (hS : S ≠ []) (d p : ι → ℝ) (hd : ∀ i ∈ S, 0 < d i)
    (w : ℝ) :
    reweight (S.map d) (S.map p) w =
      .ok (S.map fun i => d i * exp (-(w * p i)) / (S.map fun i => d i * exp (-(w * p i))).sum) := by
  unfold reweight
  simp only [zipWith_map_map]
  obtain ⟨z, hz, hez⟩ := logSumExpSorted_eq (S.map fun i => log (d i) - w * p i) (by simpa using hS)
  rw [hz]
  simp only [List.map_map]
  congr 1
  have key : ∀ i ∈ S, exp (log (d i) - w * p i) = d i * exp (-(w * p i)) := by
    intro i hi
    rw [sub_eq_add_neg, exp_add, exp_log (hd i hi)]
  have hz' : exp z = (S.map fun i => d i * exp (-(w * p i))).sum := by
    rw [hez, List.map_map]
    congr 1
    exact List.map_congr_left key
  apply List.map_congr_left
  intro i hi
  simp only [Function.comp]
  rw [exp_sub, hz', key i hi]

section booster
variable {σ K H O : Type*}

/-- More fuel does not change the outcome of a finished loop. -/
theorem Booster.loop_mono (B : Booster σ K H O) (wl : WeakLearner K H) {n m : Nat} (hnm : n ≤ m)
    {s : σ} {it : Nat} {r} (h : B.loop wl n s it = some r) : B.loop wl m s it = some r := by
  induction n generalizing m s it r with
  | zero => simp [Booster.loop] at h
  | succ n ih =>
    obtain ⟨m, rfl⟩ : ∃ k, m = k + 1 := ⟨m - 1, by omega⟩
    simp only [Booster.loop] at h ⊢
    cases hb : B.boost s wl it with
    | error e => simpa [hb] using h
    | ok out =>
      simp only [hb] at h ⊢
      cases hf : out.flow with
      | brk k => simpa [hf] using h
      | cont =>
        simp only [hf] at h ⊢
        cases hl : B.loop wl n out.state (it + 1) with
        | none => simp [hl] at h
        | some r' =>
          rw [ih (by omega) hl]; rw [hl] at h; exact h

theorem Booster.run_mono (B : Booster σ K H O) (wl : WeakLearner K H) {n m : Nat} (hnm : n ≤ m)
    {s : σ} {r} (h : B.run wl n s = some r) : B.run wl m s = some r := by
  unfold Booster.run at h ⊢
  cases hp : B.preprocess s wl with
  | error e => simpa [hp] using h
  | ok s₀ =>
    simp only [hp] at h ⊢
    cases hl : B.loop wl n s₀ 1 with
    | none => simp [hl] at h
    | some r' => rw [B.loop_mono wl hnm hl]; simpa [hl] using h

/-- A finished loop decomposes into `Continue` rounds followed by one last call. -/
theorem Booster.loop_spec (B : Booster σ K H O) (wl : WeakLearner K H) (s : σ) {fuel n : Nat} {qs₀ s₁}
    (hr : B.Reachable wl s n qs₀ s₁) {r} (h : B.loop wl fuel s₁ (n + 1) = some r) :
    (∃ n' qs' s', B.Reachable wl s n' qs' s' ∧ n' < n + fuel ∧
      ∃ e, B.boost s' wl (n' + 1) = .error e ∧ r = .error e) ∨
    (∃ n' qs' s' out k, B.Reachable wl s n' qs' s' ∧ n' < n + fuel ∧
      B.boost s' wl (n' + 1) = .ok out ∧ out.flow = .brk k ∧
      ∃ qs, qs₀ ++ qs = qs' ++ out.queries ∧ r = .ok (out.state, qs)) := by
  induction fuel generalizing n qs₀ s₁ r with
  | zero => simp [Booster.loop] at h
  | succ fuel ih =>
    simp only [Booster.loop] at h
    cases hb : B.boost s₁ wl (n + 1) with
    | error e =>
      simp only [hb, Option.some.injEq] at h
      exact .inl ⟨n, qs₀, s₁, hr, by omega, e, hb, h.symm⟩
    | ok out =>
      simp only [hb] at h
      cases hf : out.flow with
      | brk k =>
        simp only [hf, Option.some.injEq] at h
        exact .inr ⟨n, qs₀, s₁, out, k, hr, by omega, hb, hf, out.queries, rfl, h.symm⟩
      | cont =>
        simp only [hf] at h
        cases hl : B.loop wl fuel out.state (n + 1 + 1) with
        | none => simp [hl] at h
        | some r' =>
          simp only [hl, Option.map_some, Option.some.injEq] at h
          rcases ih (Booster.Reachable.step hr hb hf) hl with ⟨n', qs', s', h1, h2, e, h3, h4⟩ |
              ⟨n', qs', s', out', k, h1, h2, h3, h4, qs, h5, h6⟩
          · refine .inl ⟨n', qs', s', h1, by omega, e, h3, ?_⟩
            rw [← h, h4]; rfl
          · refine .inr ⟨n', qs', s', out', k, h1, by omega, h3, h4, out.queries ++ qs, ?_, ?_⟩
            · rw [← List.append_assoc, h5]
            · rw [← h, h6]; rfl

/-- A successful run decomposes into `Continue` rounds, one `Break` and postprocessing. -/
theorem Booster.run_spec (B : Booster σ K H O) (wl : WeakLearner K H) (s : σ) {fuel : Nat} {o qs}
    (h : B.run wl fuel s = some (.ok (o, qs))) :
    ∃ n qs' s' out k, B.Reachable wl s n qs' s' ∧ n < fuel ∧
      B.boost s' wl (n + 1) = .ok out ∧ out.flow = .brk k ∧ qs = qs' ++ out.queries ∧
      B.postprocess out.state = .ok o := by
  unfold Booster.run at h
  cases hp : B.preprocess s wl with
  | error e => simp [hp] at h
  | ok s₀ =>
    simp only [hp] at h
    cases hl : B.loop wl fuel s₀ 1 with
    | none => simp [hl] at h
    | some r =>
      rcases B.loop_spec wl s (Booster.Reachable.start hp) hl with ⟨n', qs', s', h1, h2, e, h3, h4⟩ |
          ⟨n', qs', s', out', k, h1, h2, h3, h4, qs'', h5, h6⟩
      · simp [hl, h4] at h
      · subst h6
        simp only [hl] at h
        cases hpp : B.postprocess out'.state with
        | error e => simp [hpp] at h
        | ok o' =>
          simp only [hpp, Option.some.injEq, Except.ok.injEq, Prod.mk.injEq] at h
          refine ⟨n', qs', s', out', k, h1, by omega, h3, h4, ?_, ?_⟩
          · rw [← h.2]; simpa using h5
          · rw [← h.1]; exact hpp

/-- If no reachable state continues after `N` rounds, the loop finishes within `N + 1` calls. -/
theorem Booster.run_terminates (B : Booster σ K H O) (wl : WeakLearner K H) (s : σ) (N : Nat)
    (hN : ∀ qs s₁ out, B.Reachable wl s N qs s₁ → B.boost s₁ wl (N + 1) = .ok out →
      out.flow ≠ .cont) : ∃ r, B.run wl (N + 1) s = some r := by
  have key : ∀ fuel n qs s₁, B.Reachable wl s n qs s₁ → n + fuel = N + 1 → n ≤ N →
      ∃ r, B.loop wl fuel s₁ (n + 1) = some r := by
    intro fuel
    induction fuel with
    | zero => intro n qs s₁ _ h1 h2; omega
    | succ fuel ih =>
      intro n qs s₁ hr h1 h2
      simp only [Booster.loop]
      cases hb : B.boost s₁ wl (n + 1) with
      | error e => exact ⟨_, rfl⟩
      | ok out =>
        cases hf : out.flow with
        | brk k => simp only [hf]; exact ⟨_, rfl⟩
        | cont =>
          simp only [hf]
          rcases Nat.lt_or_ge n N with hlt | hge
          · obtain ⟨r, hr'⟩ := ih (n + 1) _ _ (Booster.Reachable.step hr hb hf) (by omega) (by omega)
            simp only [hr', Option.map_some]; exact ⟨_, rfl⟩
          · obtain rfl : n = N := by omega
            exact absurd hf (hN _ _ _ hr hb)
  unfold Booster.run
  cases hp : B.preprocess s wl with
  | error e => exact ⟨_, rfl⟩
  | ok s₀ =>
    obtain ⟨r, hr⟩ := key (N + 1) 0 [] s₀ (Booster.Reachable.start hp) (by omega) (by omega)
    simp only [Nat.zero_add] at hr
    simp only [hr]
    cases r with
    | error e => exact ⟨_, rfl⟩
    | ok p =>
      cases hpp : B.postprocess p.1 with
      | error e => simp only [hpp]; exact ⟨_, rfl⟩
      | ok o => simp only [hpp]; exact ⟨_, rfl⟩

/-- Two booster objects related by a bisimulation give the same run. -/
theorem Booster.run_congr (B : Booster σ K H O) (wl : WeakLearner K H) (R : σ → σ → Prop)
    (hboost : ∀ s t it, R s t →
      (∃ e, B.boost s wl it = .error e ∧ B.boost t wl it = .error e) ∨
      (∃ o o', B.boost s wl it = .ok o ∧ B.boost t wl it = .ok o' ∧ o.flow = o'.flow ∧
        o.queries = o'.queries ∧ R o.state o'.state))
    (hpost : ∀ s t, R s t → B.postprocess s = B.postprocess t) (s t : σ)
    (hpre : (∃ e, B.preprocess s wl = .error e ∧ B.preprocess t wl = .error e) ∨
      (∃ s' t', B.preprocess s wl = .ok s' ∧ B.preprocess t wl = .ok t' ∧ R s' t')) (fuel : Nat) :
    B.run wl fuel s = B.run wl fuel t := by
  have key : ∀ fuel s t it, R s t →
      (B.loop wl fuel s it = none ∧ B.loop wl fuel t it = none) ∨
      (∃ e, B.loop wl fuel s it = some (.error e) ∧ B.loop wl fuel t it = some (.error e)) ∨
      (∃ s' t' qs, B.loop wl fuel s it = some (.ok (s', qs)) ∧
        B.loop wl fuel t it = some (.ok (t', qs)) ∧ R s' t') := by
    intro fuel
    induction fuel with
    | zero => intro s t it _; exact .inl ⟨rfl, rfl⟩
    | succ fuel ih =>
      intro s t it hR
      simp only [Booster.loop]
      rcases hboost s t it hR with ⟨e, h1, h2⟩ | ⟨o, o', h1, h2, h3, h4, h5⟩
      · rw [h1, h2]; exact .inr (.inl ⟨e, rfl, rfl⟩)
      · rw [h1, h2]
        cases hf : o.flow with
        | brk k =>
          rw [hf] at h3
          simp only [hf, ← h3]
          exact .inr (.inr ⟨_, _, _, rfl, by rw [h4], h5⟩)
        | cont =>
          rw [hf] at h3
          simp only [hf, ← h3]
          rcases ih o.state o'.state (it + 1) h5 with ⟨a, b⟩ | ⟨e, a, b⟩ | ⟨s', t', qs, a, b, c⟩
          · rw [a, b]; exact .inl ⟨rfl, rfl⟩
          · rw [a, b]; exact .inr (.inl ⟨e, rfl, rfl⟩)
          · rw [a, b, h4]; exact .inr (.inr ⟨_, _, _, rfl, rfl, c⟩)
  unfold Booster.run
  rcases hpre with ⟨e, h1, h2⟩ | ⟨s', t', h1, h2, hR⟩
  · rw [h1, h2]
  · simp only [h1, h2]
    rcases key fuel s' t' 1 hR with ⟨a, b⟩ | ⟨e, a, b⟩ | ⟨s'', t'', qs, a, b, c⟩
    · rw [a, b]
    · rw [a, b]
    · rw [a, b]; simp only [hpost _ _ c]

end booster

end Miniboosts
