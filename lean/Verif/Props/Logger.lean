import Verif.Spec.Logger
import Mathlib.Tactic.Linarith

/-! # Logging: C51, C60 -/

namespace Miniboosts.Props

open Miniboosts Spec

variable {σ K H O T : Type*}

theorem eval_describes {L : Logger σ K H O T} {s : σ} {a b c : K} (h : L.eval s = .ok (a, b, c)) (t : Nat) :
    Describes L.current L.objective L.loss L.train L.test s ⟨a, b, c, t⟩ := by
  unfold Logger.eval at h
  cases h1 : L.current s with
  | error e => rw [h1] at h; cases h
  | ok f =>
    rw [h1] at h
    simp only at h
    cases h2 : L.objective L.train f with
    | error e => rw [h2] at h; cases h
    | ok obj =>
      rw [h2] at h
      simp only at h
      cases h3 : L.loss L.train f with
      | error e => rw [h3] at h; cases h
      | ok tr =>
        rw [h3] at h
        simp only at h
        cases h4 : L.loss L.test f with
        | error e => rw [h4] at h; cases h
        | ok te =>
          rw [h4] at h
          simp only [Except.ok.injEq, Prod.mk.injEq] at h
          obtain ⟨rfl, rfl, rfl⟩ := h
          exact ⟨f, h1, h2, h3, h4⟩

theorem eval_of_describes {L : Logger σ K H O T} {s : σ} {l : LogLine K} (h : Describes L.current L.objective L.loss L.train L.test s l) :
    L.eval s = .ok (l.obj, l.train, l.test) := by
  obtain ⟨f, h1, h2, h3, h4⟩ := h
  simp [Logger.eval, h1, h2, h3, h4]

/-- The lines of a loop started after `n` calls. -/
def LogFrom (L : Logger σ K H O T) (elapsed : Nat → Nat) (n : Nat) (outs : List (BoostOut σ K)) (lines : List (LogLine K)) : Prop :=
  lines.length = outs.length ∧
  ∀ k, ∀ l, lines[k]? = some l → l.time = timeUpTo elapsed (n + k + 1) ∧
    ∃ out, outs[k]? = some out ∧ Describes L.current L.objective L.loss L.train L.test out.state l

theorem logFrom_nil (L : Logger σ K H O T) (e : Nat → Nat) (n : Nat) : LogFrom L e n [] [] := ⟨rfl, by intro k l h; simp at h⟩

theorem logFrom_cons {L : Logger σ K H O T} {e : Nat → Nat} {n : Nat} {out : BoostOut σ K} {outs : List (BoostOut σ K)} {l : LogLine K}
    {lines : List (LogLine K)} (ht : l.time = timeUpTo e (n + 1)) (hd : Describes L.current L.objective L.loss L.train L.test out.state l)
    (h : LogFrom L e (n + 1) outs lines) : LogFrom L e n (out :: outs) (l :: lines) := by
  refine ⟨by simp [h.1], fun k l' hk => ?_⟩
  cases k with
  | zero =>
    simp only [List.getElem?_cons_zero, Option.some.injEq] at hk
    subst hk
    exact ⟨ht, out, rfl, hd⟩
  | succ k =>
    rw [List.getElem?_cons_succ] at hk
    obtain ⟨h1, out', h2, h3⟩ := h.2 k l' hk
    refine ⟨?_, out', by rw [List.getElem?_cons_succ]; exact h2, h3⟩
    rw [h1]; congr 1; omega

/-- How a loop ends without a panic: by the time limit, exceeded for the first time, or by a `Break` of the booster within the limit. -/
def Ends (limit : Nat) (elapsed : Nat → Nat) (n : Nat) (outs : List (BoostOut σ K)) (s₁ : σ) (qs : List (List K)) : Prop :=
  ∃ last, outs.getLast? = some last ∧ last.state = s₁ ∧ qs = (outs.map BoostOut.queries).flatten ∧
    (∀ k, k + 1 < outs.length → timeUpTo elapsed (n + k + 1) ≤ limit) ∧
    (limit < timeUpTo elapsed (n + outs.length) ∨ last.flow ≠ .cont)

theorem loop_spec (L : Logger σ K H O T) (w : World) (wl : WeakLearner K H) : ∀ (fuel : Nat) (s : σ) (n : Nat) (lines : List (LogLine K))
    (printed : List Printed) (r : Except Panic (σ × List (List K))), L.loop w wl fuel s (n + 1) (timeUpTo w.elapsed n) = some (lines, printed, r) →
    ∃ outs, Calls L.booster wl s (n + 1) outs ∧ LogFrom L w.elapsed n outs lines ∧
      (∀ s₁ qs, r = .ok (s₁, qs) → Ends L.timeLimit w.elapsed n outs s₁ qs) := by
  intro fuel
  induction fuel with
  | zero => intro s n lines printed r h; cases h
  | succ fuel ih =>
    intro s n lines printed r h
    unfold Logger.loop at h
    cases hb : L.booster.boost s wl (n + 1) with
    | error e =>
      rw [hb] at h
      simp only [Option.some.injEq, Prod.mk.injEq] at h
      obtain ⟨rfl, rfl, rfl⟩ := h
      exact ⟨[], Calls.nil _ _, logFrom_nil _ _ _, by intro _ _ h; cases h⟩
    | ok out =>
      rw [hb] at h
      simp only at h
      cases he : L.eval out.state with
      | error e =>
        rw [he] at h
        simp only [Option.some.injEq, Prod.mk.injEq] at h
        obtain ⟨rfl, rfl, rfl⟩ := h
        exact ⟨[], Calls.nil _ _, logFrom_nil _ _ _, by intro _ _ h; cases h⟩
      | ok v =>
        obtain ⟨a, b, c⟩ := v
        rw [he] at h
        simp only at h
        have hacc : timeUpTo w.elapsed n + w.elapsed (n + 1) = timeUpTo w.elapsed (n + 1) := rfl
        rw [hacc] at h
        have one : ∀ l, l = (⟨a, b, c, timeUpTo w.elapsed (n + 1)⟩ : LogLine K) → LogFrom L w.elapsed n [out] [l] := by
          rintro l rfl
          exact logFrom_cons rfl (eval_describes he _) (logFrom_nil _ _ _)
        have single : Calls L.booster wl s (n + 1) [out] := Calls.cons hb (by simp) (Calls.nil _ _)
        split at h
        · simp only [Option.some.injEq, Prod.mk.injEq] at h
          obtain ⟨rfl, rfl, rfl⟩ := h
          exact ⟨[], Calls.nil _ _, logFrom_nil _ _ _, by intro _ _ h; cases h⟩
        · split at h
          · rename_i hlim
            simp only [Option.some.injEq, Prod.mk.injEq] at h
            obtain ⟨rfl, rfl, rfl⟩ := h
            refine ⟨[out], single, one _ rfl, ?_⟩
            intro s₁ qs hr
            simp only [Except.ok.injEq, Prod.mk.injEq] at hr
            obtain ⟨rfl, rfl⟩ := hr
            exact ⟨out, rfl, rfl, by simp, by intro k hk; simp at hk, Or.inl hlim⟩
          · rename_i hlim
            split at h
            · simp only [Option.some.injEq, Prod.mk.injEq] at h
              obtain ⟨rfl, rfl, rfl⟩ := h
              exact ⟨[out], single, one _ rfl, by intro _ _ h; cases h⟩
            · cases hf : out.flow with
              | brk t =>
                rw [hf] at h
                simp only [Option.some.injEq, Prod.mk.injEq] at h
                obtain ⟨rfl, rfl, rfl⟩ := h
                refine ⟨[out], single, one _ rfl, ?_⟩
                intro s₁ qs hr
                simp only [Except.ok.injEq, Prod.mk.injEq] at hr
                obtain ⟨rfl, rfl⟩ := hr
                exact ⟨out, rfl, rfl, by simp, by intro k hk; simp at hk, Or.inr (by rw [hf]; intro h; cases h)⟩
              | cont =>
                rw [hf] at h
                simp only [Option.map_eq_some_iff] at h
                obtain ⟨⟨ls, ps, r'⟩, h1, h2⟩ := h
                simp only [Prod.mk.injEq] at h2
                obtain ⟨rfl, rfl, rfl⟩ := h2
                obtain ⟨outs, c1, c2, c3⟩ := ih out.state (n + 1) ls ps r' h1
                refine ⟨out :: outs, Calls.cons hb (fun _ => hf) c1, logFrom_cons rfl (eval_describes he _) c2, ?_⟩
                intro s₁ qs hr
                cases r' with
                | error e => cases hr
                | ok p =>
                  obtain ⟨s', qs'⟩ := p
                  simp only [Except.map, Except.ok.injEq, Prod.mk.injEq] at hr
                  obtain ⟨rfl, rfl⟩ := hr
                  obtain ⟨last, e1, e2, e3, e4, e5⟩ := c3 s' qs' rfl
                  refine ⟨last, ?_, e2, by rw [e3]; simp, ?_, ?_⟩
                  · rw [List.getLast?_cons, e1]; rfl
                  · intro k hk
                    cases k with
                    | zero => exact not_lt.mp hlim
                    | succ k =>
                      have := e4 k (by simp at hk; omega)
                      rw [show n + (k + 1) + 1 = n + 1 + k + 1 from by omega]; exact this
                  · rw [show n + (out :: outs).length = n + 1 + outs.length from by simp; omega]
                    exact e5

/-- C51: whatever happens, the file holds one line for each of the completed rounds, in order, with the objective and the losses of the hypothesis
after that round and the accumulated time; also after a panic. -/
theorem log_lines (L : Logger σ K H O T) (w : World) (wl : WeakLearner K H) (fuel : Nat) (s : σ) (r : LogRun O K)
    (h : L.run w wl fuel s = some r) (lines : List (LogLine K)) (hl : r.file = some lines) :
    lines = [] ∨ ∃ s₀ outs, L.booster.preprocess s wl = .ok s₀ ∧ Calls L.booster wl s₀ 1 outs ∧ LogOf L w.elapsed outs lines := by
  unfold Logger.run at h
  split at h
  · simp only [Option.some.injEq] at h; subst h; cases hl
  · split at h
    · simp only [Option.some.injEq] at h; subst h
      simp only [Option.some.injEq] at hl; exact Or.inl hl.symm
    · cases hp : L.booster.preprocess s wl with
      | error e =>
        rw [hp] at h
        simp only [Option.some.injEq] at h; subst h
        simp only [Option.some.injEq] at hl; exact Or.inl hl.symm
      | ok s₀ =>
        rw [hp] at h
        simp only at h
        right
        cases hlo : L.loop w wl fuel s₀ 1 0 with
        | none => rw [hlo] at h; cases h
        | some q =>
          obtain ⟨ls, ps, res⟩ := q
          rw [hlo] at h
          obtain ⟨outs, c1, c2, c3⟩ := loop_spec L w wl fuel s₀ 0 ls ps res hlo
          have hls : ls = lines := by
            cases res with
            | error e => simp only [Option.some.injEq] at h; subst h; simpa using hl
            | ok p =>
              simp only at h
              cases hpo : L.booster.postprocess p.1 with
              | error e => rw [hpo] at h; simp only [Option.some.injEq] at h; subst h; simpa using hl
              | ok o => rw [hpo] at h; simp only [Option.some.injEq] at h; subst h; simpa using hl
          subst hls
          refine ⟨s₀, outs, rfl, c1, c2.1, fun k l hk => ?_⟩
          have := c2.2 k l hk
          simpa using this

/-- C51: a logged run that returns a hypothesis has made one call of `boost` per line of the file; it returns what the booster's post-processing makes of
the last state; it ended either with the booster's own decision to stop or in the first round in which the accumulated time exceeds the limit. -/
theorem log_returns (L : Logger σ K H O T) (w : World) (wl : WeakLearner K H) (fuel : Nat) (s : σ) (r : LogRun O K)
    (h : L.run w wl fuel s = some r) (o : O) (qs : List (List K)) (ho : r.outcome = .ok o qs) :
    ∃ s₀ outs last lines, L.booster.preprocess s wl = .ok s₀ ∧ Calls L.booster wl s₀ 1 outs ∧ outs.getLast? = some last ∧
      L.booster.postprocess last.state = .ok o ∧ qs = (outs.map BoostOut.queries).flatten ∧ r.file = some lines ∧ LogOf L w.elapsed outs lines ∧
      (∀ k, k < outs.length → 0 < k → timeUpTo w.elapsed k ≤ L.timeLimit) ∧
      (L.timeLimit < timeUpTo w.elapsed outs.length ∨ last.flow ≠ .cont) := by
  unfold Logger.run at h
  split at h
  · simp only [Option.some.injEq] at h; subst h; cases ho
  · split at h
    · simp only [Option.some.injEq] at h; subst h; cases ho
    · cases hp : L.booster.preprocess s wl with
      | error e => rw [hp] at h; simp only [Option.some.injEq] at h; subst h; cases ho
      | ok s₀ =>
        rw [hp] at h
        simp only at h
        cases hlo : L.loop w wl fuel s₀ 1 0 with
        | none => rw [hlo] at h; cases h
        | some q =>
          obtain ⟨ls, ps, res⟩ := q
          rw [hlo] at h
          obtain ⟨outs, c1, c2, c3⟩ := loop_spec L w wl fuel s₀ 0 ls ps res hlo
          cases res with
          | error e => simp only [Option.some.injEq] at h; subst h; cases ho
          | ok p =>
            obtain ⟨s₁, qs₁⟩ := p
            simp only at h
            cases hpo : L.booster.postprocess s₁ with
            | error e => rw [hpo] at h; simp only [Option.some.injEq] at h; subst h; cases ho
            | ok o' =>
              rw [hpo] at h; simp only [Option.some.injEq] at h; subst h
              simp only [LogOutcome.ok.injEq] at ho
              obtain ⟨rfl, rfl⟩ := ho
              obtain ⟨last, e1, e2, e3, e4, e5⟩ := c3 s₁ qs₁ rfl
              refine ⟨s₀, outs, last, ls, rfl, c1, e1, by rw [e2]; exact hpo, e3, rfl, ⟨c2.1, fun k l hk => by simpa using c2.2 k l hk⟩, ?_, by simpa using e5⟩
              intro k hk hk0
              obtain ⟨j, rfl⟩ : ∃ j, k = j + 1 := ⟨k - 1, by omega⟩
              simpa using e4 j hk

/-- What a run of the booster without logging amounts to. -/
def asOutcome : Except Panic (O × List (List K)) → LogOutcome O K
  | .error e => .panic e
  | .ok (o, qs) => .ok o qs

theorem loop_eq (L : Logger σ K H O T) (w : World) (wl : WeakLearner K H) (hr : L.round ≠ 0) (hw : ∀ k, w.writeOk k = true)
    (ht : ∀ k, timeUpTo w.elapsed k ≤ L.timeLimit) : ∀ (fuel : Nat) (s : σ) (n : Nat),
    (∀ outs, Calls L.booster wl s (n + 1) outs → ∀ out ∈ outs, ∃ v, L.eval out.state = .ok v) →
    (L.loop w wl fuel s (n + 1) (timeUpTo w.elapsed n)).map (fun r => r.2.2) = L.booster.loop wl fuel s (n + 1) := by
  intro fuel
  induction fuel with
  | zero => intro s n _; rfl
  | succ fuel ih =>
    intro s n hev
    unfold Logger.loop Booster.loop
    cases hb : L.booster.boost s wl (n + 1) with
    | error e => rfl
    | ok out =>
      obtain ⟨⟨a, b, c⟩, he⟩ := hev [out] (Calls.cons hb (by simp) (Calls.nil _ _)) out (by simp)
      have hacc : timeUpTo w.elapsed n + w.elapsed (n + 1) = timeUpTo w.elapsed (n + 1) := rfl
      simp only [he, hacc]
      rw [if_neg (by rw [hw]; simp), if_neg (not_lt.mpr (ht _)), if_neg hr]
      cases hf : out.flow with
      | brk t => rfl
      | cont =>
        simp only
        rw [← ih out.state (n + 1) (fun outs ho o hmem => hev (out :: outs) (Calls.cons hb (fun _ => hf) ho) o (List.mem_cons_of_mem _ hmem))]
        rw [Option.map_map, Option.map_map]
        rfl

/-- C51: when the file can be written, the time limit is not exceeded, the print interval is not zero and evaluating the intermediate hypotheses does not panic,
the logged run ends exactly as `Booster::run` does: same hypothesis, same weight vectors given to the weak learner, same panic, or both still running. -/
theorem log_same_result_partial (L : Logger σ K H O T) (w : World) (wl : WeakLearner K H) (fuel : Nat) (s : σ) (hr : L.round ≠ 0) (hc : w.createOk = true)
    (hh : w.headerOk = true) (hw : ∀ k, w.writeOk k = true) (ht : ∀ k, timeUpTo w.elapsed k ≤ L.timeLimit)
    (hev : ∀ s₀ outs, L.booster.preprocess s wl = .ok s₀ → Calls L.booster wl s₀ 1 outs → ∀ out ∈ outs,
      ∃ l, Describes L.current L.objective L.loss L.train L.test out.state l) :
    (L.run w wl fuel s).map LogRun.outcome = (L.booster.run wl fuel s).map asOutcome := by
  unfold Logger.run Booster.run
  rw [if_neg (by rw [hc]; simp), if_neg (by rw [hh]; simp)]
  cases hp : L.booster.preprocess s wl with
  | error e => rfl
  | ok s₀ =>
    simp only
    have := loop_eq L w wl hr hw ht fuel s₀ 0 (fun outs ho out hmem => by
      obtain ⟨l, hd⟩ := hev s₀ outs hp ho out hmem
      exact ⟨_, eval_of_describes hd⟩)
    change Option.map _ (L.loop w wl fuel s₀ 1 0) = L.booster.loop wl fuel s₀ 1 at this
    rw [← this]
    cases L.loop w wl fuel s₀ 1 0 with
    | none => rfl
    | some q =>
      obtain ⟨ls, ps, res⟩ := q
      cases res with
      | error e => rfl
      | ok p =>
        obtain ⟨s₁, qs₁⟩ := p
        simp only [Option.map_some]
        cases L.booster.postprocess s₁ <;> rfl

/-! ## The print interval -/

theorem loop_interval (L : Logger σ K H O T) (w : World) (wl : WeakLearner K H) (m : Nat) (hr : L.round ≠ 0) (hm : m ≠ 0) : ∀ (fuel : Nat) (s : σ) (n acc : Nat),
    (L.loop w wl fuel s n acc).map (fun r => (r.1, r.2.2)) = (({ L with round := m } : Logger σ K H O T).loop w wl fuel s n acc).map (fun r => (r.1, r.2.2)) := by
  intro fuel
  induction fuel with
  | zero => intro s n acc; rfl
  | succ fuel ih =>
    intro s n acc
    unfold Logger.loop
    cases hb : L.booster.boost s wl n with
    | error e => rfl
    | ok out =>
      have hev : ({ L with round := m } : Logger σ K H O T).eval out.state = L.eval out.state := rfl
      simp only [hev]
      cases he : L.eval out.state with
      | error e => rfl
      | ok v =>
        obtain ⟨a, b, c⟩ := v
        simp only
        rw [if_neg hr, if_neg hm]
        split
        · rfl
        · split
          · rfl
          · cases out.flow with
            | brk t => rfl
            | cont =>
              simp only [Option.map_map]
              have := congrArg (Option.map (fun p : List (LogLine K) × Except Panic (σ × List (List K)) =>
                ((⟨a, b, c, acc + w.elapsed n⟩ : LogLine K) :: p.1, p.2.map (fun q => (q.1, out.queries ++ q.2))))) (ih out.state (n + 1) (acc + w.elapsed n))
              simp only [Option.map_map] at this
              exact this

/-- C51: the print interval changes neither the file nor the result. -/
theorem log_interval_irrelevant (L : Logger σ K H O T) (w : World) (wl : WeakLearner K H) (fuel : Nat) (s : σ) (m : Nat) (hr : L.round ≠ 0) (hm : m ≠ 0) :
    (L.run w wl fuel s).map (fun r => (r.file, r.outcome)) = (({ L with round := m } : Logger σ K H O T).run w wl fuel s).map (fun r => (r.file, r.outcome)) := by
  unfold Logger.run
  split
  · rfl
  · split
    · rfl
    · cases L.booster.preprocess s wl with
      | error e => rfl
      | ok s₀ =>
        simp only
        have := loop_interval L w wl m hr hm fuel s₀ 1 0
        revert this
        cases L.loop w wl fuel s₀ 1 0 with
        | none =>
          cases ({ L with round := m } : Logger σ K H O T).loop w wl fuel s₀ 1 0 with
          | none => intro _; rfl
          | some q => intro h; cases h
        | some p =>
          cases ({ L with round := m } : Logger σ K H O T).loop w wl fuel s₀ 1 0 with
          | none => intro h; cases h
          | some q =>
            obtain ⟨l1, p1, r1⟩ := p
            obtain ⟨l2, p2, r2⟩ := q
            intro h
            simp only [Option.map_some, Option.some.injEq, Prod.mk.injEq] at h
            obtain ⟨rfl, rfl⟩ := h
            cases r1 with
            | error e => rfl
            | ok v =>
              obtain ⟨s₁, qs₁⟩ := v
              simp only
              cases L.booster.postprocess s₁ <;> rfl

/-- C60: with the print interval 0 a run that gets through its first round panics after writing one line, unless the first round already exceeds the time limit. -/
theorem log_interval_zero (L : Logger σ K H O T) (w : World) (wl : WeakLearner K H) (fuel : Nat) (s s₀ : σ) (hr : L.round = 0) (hc : w.createOk = true)
    (hh : w.headerOk = true) (hw : w.writeOk 1 = true) (hp : L.booster.preprocess s wl = .ok s₀) {out : BoostOut σ K} (hb : L.booster.boost s₀ wl 1 = .ok out)
    {l : LogLine K} (hd : Describes L.current L.objective L.loss L.train L.test out.state l) (ht : w.elapsed 1 ≤ L.timeLimit) :
    ∃ lines printed, L.run w wl (fuel + 1) s = some ⟨some lines, printed, .panic .arith⟩ ∧ lines.length = 1 := by
  have hev := eval_of_describes hd
  refine ⟨[⟨l.obj, l.train, l.test, 0 + w.elapsed 1⟩], Printed.stats :: [Printed.header] ++ [], ?_, rfl⟩
  unfold Logger.run
  rw [if_neg (by rw [hc]; simp), if_neg (by rw [hh]; simp), hp]
  simp only
  unfold Logger.loop
  rw [hb]
  simp only [hev]
  rw [if_neg (by rw [hw]; simp), if_neg (by omega), if_pos hr]
  simp only
  rw [if_pos (by rw [hr]; decide)]

theorem loop_printed (L : Logger σ K H O T) (w : World) (wl : WeakLearner K H) (hr : L.round ≠ 0) : ∀ (fuel : Nat) (s : σ) (n : Nat) (lines : List (LogLine K))
    (printed : List Printed) (r : Except Panic (σ × List (List K))), L.loop w wl fuel s (n + 1) (timeUpTo w.elapsed n) = some (lines, printed, r) →
    ∀ k, (Printed.log k ∈ printed ↔ n < k ∧ k ≤ n + lines.length ∧ timeUpTo w.elapsed k ≤ L.timeLimit ∧ L.round ≠ usizeMax ∧ k % L.round = 0) ∧
      (Printed.tle k ∈ printed ↔ n < k ∧ k ≤ n + lines.length ∧ L.timeLimit < timeUpTo w.elapsed k) := by
  intro fuel
  induction fuel with
  | zero => intro s n lines printed r h; cases h
  | succ fuel ih =>
    intro s n lines printed r h k
    have none' : ∀ {ls : List (LogLine K)} {ps : List Printed}, ls = [] → ps = [] →
        (Printed.log k ∈ ps ↔ n < k ∧ k ≤ n + ls.length ∧ timeUpTo w.elapsed k ≤ L.timeLimit ∧ L.round ≠ usizeMax ∧ k % L.round = 0) ∧
        (Printed.tle k ∈ ps ↔ n < k ∧ k ≤ n + ls.length ∧ L.timeLimit < timeUpTo w.elapsed k) := by
      rintro _ _ rfl rfl
      constructor
      · constructor
        · intro h; cases h
        · rintro ⟨h1, h2, _⟩; simp at h2; omega
      · constructor
        · intro h; cases h
        · rintro ⟨h1, h2, _⟩; simp at h2; omega
    unfold Logger.loop at h
    cases hb : L.booster.boost s wl (n + 1) with
    | error e =>
      rw [hb] at h
      simp only [Option.some.injEq, Prod.mk.injEq] at h
      exact none' h.1.symm h.2.1.symm
    | ok out =>
      rw [hb] at h
      simp only at h
      cases he : L.eval out.state with
      | error e =>
        rw [he] at h
        simp only [Option.some.injEq, Prod.mk.injEq] at h
        exact none' h.1.symm h.2.1.symm
      | ok v =>
        obtain ⟨a, b, c⟩ := v
        rw [he] at h
        simp only at h
        have hacc : timeUpTo w.elapsed n + w.elapsed (n + 1) = timeUpTo w.elapsed (n + 1) := rfl
        rw [hacc] at h
        split at h
        · simp only [Option.some.injEq, Prod.mk.injEq] at h
          exact none' h.1.symm h.2.1.symm
        · split at h
          · rename_i hlim
            simp only [Option.some.injEq, Prod.mk.injEq] at h
            obtain ⟨rfl, rfl, _⟩ := h
            simp only [List.mem_singleton, List.length_singleton]
            constructor
            · constructor
              · intro h; cases h
              · rintro ⟨h1, h2, h3, _⟩
                have : k = n + 1 := by omega
                subst this; omega
            · constructor
              · intro h; cases h; exact ⟨by omega, by omega, hlim⟩
              · rintro ⟨h1, h2, _⟩
                have : k = n + 1 := by omega
                rw [this]
          · rename_i hlim
            have hpr : (Printed.log k ∈ L.prints (n + 1) out.flow ↔ k = n + 1 ∧ L.round ≠ usizeMax ∧ k % L.round = 0) ∧
                ¬ Printed.tle k ∈ L.prints (n + 1) out.flow := by
              unfold Logger.prints
              constructor
              · rw [List.mem_append]
                constructor
                · rintro (h | h)
                  · split at h
                    · rename_i hc
                      simp only [List.mem_singleton, Printed.log.injEq] at h
                      subst h; exact ⟨rfl, hc⟩
                    · cases h
                  · split at h
                    · simp at h
                    · cases h
                · rintro ⟨rfl, hc⟩
                  left; rw [if_pos hc]; simp
              · rw [List.mem_append]
                rintro (h | h)
                · split at h
                  · simp at h
                  · cases h
                · split at h
                  · simp at h
                  · cases h
            cases hf : out.flow with
            | brk t =>
              rw [hf] at h hpr
              simp only [Option.some.injEq, Prod.mk.injEq] at h
              obtain ⟨rfl, rfl, _⟩ := h
              simp only [List.length_singleton]
              constructor
              · rw [hpr.1]
                constructor
                · rintro ⟨rfl, hc⟩; exact ⟨by omega, by omega, not_lt.mp hlim, hc⟩
                · rintro ⟨h1, h2, _, hc⟩; exact ⟨by omega, hc⟩
              · constructor
                · intro h; exact absurd h hpr.2
                · rintro ⟨h1, h2, h3⟩
                  have : k = n + 1 := by omega
                  subst this; exact absurd h3 hlim
            | cont =>
              rw [hf] at h hpr
              simp only [Option.map_eq_some_iff] at h
              obtain ⟨⟨ls, ps, r'⟩, h1, h2⟩ := h
              simp only [Prod.mk.injEq] at h2
              obtain ⟨rfl, rfl, _⟩ := h2
              obtain ⟨i1, i2⟩ := ih out.state (n + 1) ls ps r' h1 k
              simp only [List.mem_append, List.length_cons]
              constructor
              · rw [hpr.1, i1]
                constructor
                · rintro (⟨rfl, hc⟩ | ⟨j1, j2, j3⟩)
                  · exact ⟨by omega, by omega, not_lt.mp hlim, hc⟩
                  · exact ⟨by omega, by omega, j3⟩
                · rintro ⟨j1, j2, j3, hc⟩
                  by_cases hk : k = n + 1
                  · exact Or.inl ⟨hk, hc⟩
                  · exact Or.inr ⟨by omega, by omega, j3, hc⟩
              · rw [i2]
                constructor
                · rintro (h | ⟨j1, j2, j3⟩)
                  · exact absurd h hpr.2
                  · exact ⟨by omega, by omega, j3⟩
                · rintro ⟨j1, j2, j3⟩
                  by_cases hk : k = n + 1
                  · subst hk; exact absurd j3 hlim
                  · exact Or.inr ⟨by omega, by omega, j3⟩

/-- C60: a status line is printed exactly for the rounds in the file that are multiples of the interval and within the time limit (none with the interval
`usize::MAX`), and the time-limit message exactly for the round in the file that exceeds it. -/
theorem log_printed (L : Logger σ K H O T) (w : World) (wl : WeakLearner K H) (hr : L.round ≠ 0) (fuel : Nat) (s : σ) (r : LogRun O K)
    (h : L.run w wl fuel s = some r) (lines : List (LogLine K)) (hl : r.file = some lines) (k : Nat) :
    (Printed.log k ∈ r.printed ↔ 0 < k ∧ k ≤ lines.length ∧ timeUpTo w.elapsed k ≤ L.timeLimit ∧ L.round ≠ usizeMax ∧ L.round ∣ k) ∧
    (Printed.tle k ∈ r.printed ↔ 0 < k ∧ k ≤ lines.length ∧ L.timeLimit < timeUpTo w.elapsed k) := by
  have empty : lines = [] → r.printed = [] →
      (Printed.log k ∈ r.printed ↔ 0 < k ∧ k ≤ lines.length ∧ timeUpTo w.elapsed k ≤ L.timeLimit ∧ L.round ≠ usizeMax ∧ L.round ∣ k) ∧
      (Printed.tle k ∈ r.printed ↔ 0 < k ∧ k ≤ lines.length ∧ L.timeLimit < timeUpTo w.elapsed k) := by
    intro h1 h2
    rw [h1, h2]
    constructor
    · constructor
      · intro h; cases h
      · rintro ⟨a, b, _⟩; simp at b; omega
    · constructor
      · intro h; cases h
      · rintro ⟨a, b, _⟩; simp at b; omega
  unfold Logger.run at h
  split at h
  · simp only [Option.some.injEq] at h; subst h; cases hl
  · split at h
    · simp only [Option.some.injEq] at h; subst h
      simp only [Option.some.injEq] at hl; exact empty hl.symm rfl
    · cases hp : L.booster.preprocess s wl with
      | error e =>
        rw [hp] at h
        simp only [Option.some.injEq] at h; subst h
        simp only [Option.some.injEq] at hl; exact empty hl.symm rfl
      | ok s₀ =>
        rw [hp] at h
        simp only at h
        cases hlo : L.loop w wl fuel s₀ 1 0 with
        | none => rw [hlo] at h; cases h
        | some q =>
          obtain ⟨ls, ps, res⟩ := q
          rw [hlo] at h
          have key := loop_printed L w wl hr fuel s₀ 0 ls ps res hlo k
          have hls : ls = lines ∧ r.printed = Printed.stats :: (if L.round ≠ usizeMax then [Printed.header] else []) ++ ps := by
            cases res with
            | error e => simp only [Option.some.injEq] at h; subst h; exact ⟨by simpa using hl, rfl⟩
            | ok p =>
              simp only at h
              cases hpo : L.booster.postprocess p.1 with
              | error e => rw [hpo] at h; simp only [Option.some.injEq] at h; subst h; exact ⟨by simpa using hl, rfl⟩
              | ok o => rw [hpo] at h; simp only [Option.some.injEq] at h; subst h; exact ⟨by simpa using hl, rfl⟩
          obtain ⟨rfl, hpr⟩ := hls
          have hmem : ∀ p, p ≠ Printed.stats → p ≠ Printed.header → (p ∈ r.printed ↔ p ∈ ps) := by
            intro p h1 h2
            rw [hpr]
            split <;> simp [h1, h2]
          rw [hmem _ (by simp) (by simp), hmem _ (by simp) (by simp), key.1, key.2, Nat.dvd_iff_mod_eq_zero]
          simp

/-! ## C60: configuration -/

section Builder

variable {B W F G : Type*}

open LoggerBuilder

/-- A sequence of setter calls on a new builder. -/
def configure : List (Call B W F G T) → LoggerBuilder B W F G T → Except Panic (LoggerBuilder B W F G T)
  | [], b => .ok b
  | c :: cs, b =>
    match b.apply c with
    | .error e => .error e
    | .ok b' => configure cs b'

/-- The numbers passed to the setters of the time limit fit their types. -/
def ArgsFit (c : Call B W F G T) : Prop :=
  match c with
  | .secs n | .mins n => n < 2 ^ 64
  | _ => True

/-- The last value a partial function takes on a list. -/
def lastSome {A C : Type*} (f : A → Option C) : List A → Option C
  | [] => none
  | a :: l => (lastSome f l).or (f a)

def boosterOf : Call B W F G T → Option B | .booster x => some x | _ => none
def learnerOf : Call B W F G T → Option W | .weakLearner x => some x | _ => none
def objectiveOf : Call B W F G T → Option F | .objective x => some x | _ => none
def lossOf : Call B W F G T → Option G | .loss x => some x | _ => none
def trainOf : Call B W F G T → Option T | .train x => some x | _ => none
def testOf : Call B W F G T → Option T | .test x => some x | _ => none
/-- The time limit in milliseconds a call asks for. -/
def limitOf : Call B W F G T → Option Nat | .millis n => some n | .secs n => some (n * 1000) | .mins n => some (n * 60000) | _ => none
def intervalOf : Call B W F G T → Option Nat | .printEvery n => some n | _ => none

theorem apply_spec (b : LoggerBuilder B W F G T) (c : Call B W F G T) (h : ArgsFit c) :
    b.apply c = .ok ⟨(boosterOf c).or b.booster, (learnerOf c).or b.weakLearner, (objectiveOf c).or b.objective, (lossOf c).or b.loss,
      (trainOf c).or b.train, (testOf c).or b.test, (limitOf c).getD b.timeLimit, (intervalOf c).getD b.round⟩ := by
  cases c with
  | secs n =>
    have hn : n < 2 ^ 64 := h
    have : n * 1000 ≤ u128Max := by unfold u128Max; omega
    simp [LoggerBuilder.apply, checkedMul, this, Except.map, boosterOf, learnerOf, objectiveOf, lossOf, trainOf, testOf, limitOf, intervalOf]
  | mins n =>
    have hn : n < 2 ^ 64 := h
    have h1 : n * 60 ≤ u128Max := by unfold u128Max; omega
    have h2 : n * 60000 ≤ u128Max := by unfold u128Max; omega
    simp [LoggerBuilder.apply, checkedMul, h1, h2, Except.map, boosterOf, learnerOf, objectiveOf, lossOf, trainOf, testOf, limitOf, intervalOf, Nat.mul_assoc]
  | _ => simp [LoggerBuilder.apply, boosterOf, learnerOf, objectiveOf, lossOf, trainOf, testOf, limitOf, intervalOf]

/-- C60: after any sequence of setter calls (in any order, with repetitions) every component is the last one supplied, the time limit is the last one
supplied, in milliseconds, and the print interval the last one supplied; no setter panics. -/
theorem configure_spec (cs : List (Call B W F G T)) : ∀ (b : LoggerBuilder B W F G T), (∀ c ∈ cs, ArgsFit c) →
    configure cs b = .ok ⟨(lastSome boosterOf cs).or b.booster, (lastSome learnerOf cs).or b.weakLearner, (lastSome objectiveOf cs).or b.objective,
      (lastSome lossOf cs).or b.loss, (lastSome trainOf cs).or b.train, (lastSome testOf cs).or b.test, (lastSome limitOf cs).getD b.timeLimit,
      (lastSome intervalOf cs).getD b.round⟩ := by
  induction cs with
  | nil => intro b _; rfl
  | cons c cs ih =>
    intro b h
    unfold configure
    rw [apply_spec b c (h c (by simp))]
    simp only
    rw [ih _ (fun c hc => h c (List.mem_cons_of_mem _ hc))]
    simp only [lastSome, Option.or_assoc]
    congr 2 <;> cases lastSome _ cs <;> rfl

theorem lastSome_isSome {A C : Type*} (f : A → Option C) (l : List A) : (lastSome f l).isSome ↔ ∃ a ∈ l, (f a).isSome := by
  induction l with
  | nil => simp [lastSome]
  | cons a l ih => rw [lastSome, Option.isSome_or, Bool.or_eq_true, ih]; simp [or_comm]

/-- C60: `build` succeeds exactly when each of the six components was supplied by some call; the parts are those supplied last, the defaults are no time
limit and a print interval of 100. -/
theorem builder_complete (cs : List (Call B W F G T)) (h : ∀ c ∈ cs, ArgsFit c) :
    ∃ b, configure cs LoggerBuilder.new = .ok b ∧
      ((∃ p, b.build = .ok p) ↔ (∃ x, Call.booster x ∈ cs) ∧ (∃ x, Call.weakLearner x ∈ cs) ∧ (∃ x, Call.objective x ∈ cs) ∧ (∃ x, Call.loss x ∈ cs) ∧
        (∃ x, Call.train x ∈ cs) ∧ ∃ x, Call.test x ∈ cs) ∧
      ∀ p, b.build = .ok p → lastSome boosterOf cs = some p.booster ∧ lastSome learnerOf cs = some p.weakLearner ∧ lastSome objectiveOf cs = some p.objective ∧
        lastSome lossOf cs = some p.loss ∧ lastSome trainOf cs = some p.train ∧ lastSome testOf cs = some p.test ∧
        p.timeLimit = (lastSome limitOf cs).getD (2 ^ 128 - 1) ∧ p.round = (lastSome intervalOf cs).getD 100 := by
  refine ⟨_, configure_spec cs LoggerBuilder.new h, ?_, ?_⟩
  · have e1 : (∃ x, Call.booster x ∈ cs) ↔ (lastSome boosterOf cs).isSome := by
      rw [lastSome_isSome]
      exact ⟨fun ⟨x, hx⟩ => ⟨_, hx, rfl⟩, fun ⟨c, hc, h⟩ => by cases c <;> first | exact ⟨_, hc⟩ | cases h⟩
    have e2 : (∃ x, Call.weakLearner x ∈ cs) ↔ (lastSome learnerOf cs).isSome := by
      rw [lastSome_isSome]
      exact ⟨fun ⟨x, hx⟩ => ⟨_, hx, rfl⟩, fun ⟨c, hc, h⟩ => by cases c <;> first | exact ⟨_, hc⟩ | cases h⟩
    have e3 : (∃ x, Call.objective x ∈ cs) ↔ (lastSome objectiveOf cs).isSome := by
      rw [lastSome_isSome]
      exact ⟨fun ⟨x, hx⟩ => ⟨_, hx, rfl⟩, fun ⟨c, hc, h⟩ => by cases c <;> first | exact ⟨_, hc⟩ | cases h⟩
    have e4 : (∃ x, Call.loss x ∈ cs) ↔ (lastSome lossOf cs).isSome := by
      rw [lastSome_isSome]
      exact ⟨fun ⟨x, hx⟩ => ⟨_, hx, rfl⟩, fun ⟨c, hc, h⟩ => by cases c <;> first | exact ⟨_, hc⟩ | cases h⟩
    have e5 : (∃ x, Call.train x ∈ cs) ↔ (lastSome trainOf cs).isSome := by
      rw [lastSome_isSome]
      exact ⟨fun ⟨x, hx⟩ => ⟨_, hx, rfl⟩, fun ⟨c, hc, h⟩ => by cases c <;> first | exact ⟨_, hc⟩ | cases h⟩
    have e6 : (∃ x, Call.test x ∈ cs) ↔ (lastSome testOf cs).isSome := by
      rw [lastSome_isSome]
      exact ⟨fun ⟨x, hx⟩ => ⟨_, hx, rfl⟩, fun ⟨c, hc, h⟩ => by cases c <;> first | exact ⟨_, hc⟩ | cases h⟩
    rw [e1, e2, e3, e4, e5, e6]
    simp only [LoggerBuilder.new, LoggerBuilder.build, Option.or_none]
    cases lastSome boosterOf cs <;> cases lastSome learnerOf cs <;> cases lastSome objectiveOf cs <;> cases lastSome lossOf cs <;>
      cases lastSome trainOf cs <;> cases lastSome testOf cs <;> simp
  · intro p hp
    simp only [LoggerBuilder.new, LoggerBuilder.build, Option.or_none] at hp
    split at hp
    · rename_i h1 h2 h3 h4 h5 h6
      simp only [Except.ok.injEq] at hp
      subst hp
      exact ⟨h1, h2, h3, h4, h5, h6, rfl, rfl⟩
    · cases hp

end Builder

/-- `time_format` shows the whole duration cut down to the displayed unit. -/
theorem time_format_floor (ms : Nat) :
    match timeFormat ms with
    | .secMs s m => m < 1000 ∧ s < 60 ∧ ms = 1000 * s + m
    | .minSec m s => s < 60 ∧ m < 60 ∧ ms / 1000 = 60 * m + s ∧ 60000 ≤ ms
    | .hourMin h m => m < 60 ∧ ms / 60000 = 60 * h + m ∧ 3600000 ≤ ms := by
  by_cases h1 : ms < 1000
  · have : timeFormat ms = .secMs 0 ms := by simp [timeFormat, h1]
    rw [this]; simp only; omega
  · by_cases h2 : ms / 1000 < 60
    · have : timeFormat ms = .secMs (ms / 1000) (ms % 1000) := by simp [timeFormat, h1, h2]
      rw [this]; simp only; omega
    · by_cases h3 : ms / 1000 / 60 < 60
      · have : timeFormat ms = .minSec (ms / 1000 / 60) (ms / 1000 % 60) := by
          unfold timeFormat; rw [if_neg h1]; simp only; rw [if_neg h2, if_pos h3]
        rw [this]; simp only; omega
      · have : timeFormat ms = .hourMin (ms / 1000 / 60 / 60) (ms / 1000 / 60 % 60) := by
          unfold timeFormat; rw [if_neg h1]; simp only; rw [if_neg h2, if_neg h3]
        rw [this]; simp only; omega

/-! ## A worked example -/

/-- A booster that counts its rounds and stops after the third. -/
def exCounter : Booster Nat Nat Unit Nat where
  preprocess _ _ := .ok 0
  boost s _ k := .ok { state := s + 1, flow := if k = 3 then .brk k else .cont, queries := [[s]] }
  postprocess s := .ok s

def exLogger : Logger Nat Nat Unit Nat Nat := Logger.new exCounter .ok (fun t f => .ok (t + f)) (fun t f => .ok (t * f)) 10 20

def exWorld : World := ⟨fun k => 5 * k, true, true, fun _ => true⟩

example : (exLogger.run exWorld (fun _ _ => ()) 10 7).map (fun r => (r.file, r.printed)) =
    some (some [⟨11, 10, 20, 5⟩, ⟨12, 20, 40, 15⟩, ⟨13, 30, 60, 30⟩], [.stats, .header, .fin 3]) := by decide +kernel

example : (({ exLogger with timeLimit := 10, round := 1 } : Logger Nat Nat Unit Nat Nat).run exWorld (fun _ _ => ()) 10 7).map (fun r => (r.file, r.printed)) =
    some (some [⟨11, 10, 20, 5⟩, ⟨12, 20, 40, 15⟩], [.stats, .header, .log 1, .tle 2]) := by decide +kernel

/-- The hypotheses of `log_same_result_partial` are met by a world whose clock shows no time (or any time below the limit). -/
example : (exLogger.run ⟨fun _ => 0, true, true, fun _ => true⟩ (fun _ _ => ()) 10 7).map LogRun.outcome = (exCounter.run (fun _ _ => ()) 10 7).map asOutcome := by
  apply log_same_result_partial exLogger ⟨fun _ => 0, true, true, fun _ => true⟩ _ _ _ (by decide) rfl rfl (fun _ => rfl)
  · intro k
    have : timeUpTo (fun _ => 0) k = 0 := by induction k with | zero => rfl | succ k ih => simp [timeUpTo, ih]
    simp only [this]; exact Nat.zero_le _
  · intro s₀ outs _ _ out _
    exact ⟨⟨_, _, _, 0⟩, _, rfl, rfl, rfl, rfl⟩

end Miniboosts.Props
