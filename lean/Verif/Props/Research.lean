import Verif.Model.Research
import Verif.Spec.Research
import Verif.Props.Logger
import Verif.Props.LoggerAdaBoost
import Verif.Props.TreePanic
import Verif.Props.Returns
import Verif.Props.ReturnsV
import Verif.Props.ReturnsConic
import Verif.Props.Strategies

/-! # C102: which boosters can be logged without changing the result -/

namespace Miniboosts.Props

open Miniboosts Spec Real

section generic

variable {σ K H O T : Type*}

/-- What `Logger::run` makes of the end of its loop. -/
def finish (B : Booster σ K H O) : Except Panic (σ × List (List K)) → LogOutcome O K
  | .error e => .panic e
  | .ok p => match B.postprocess p.1 with
    | .error e => .panic e
    | .ok o => .ok o p.2

/-- Earlier weight vectors put in front. -/
def LogOutcome.after (q : List (List K)) : LogOutcome O K → LogOutcome O K
  | .ioError => .ioError
  | .panic e => .panic e
  | .ok o qs => .ok o (q ++ qs)

theorem finish_after (B : Booster σ K H O) (q : List (List K)) (r : Except Panic (σ × List (List K))) :
    finish B (r.map fun p => (p.1, q ++ p.2)) = LogOutcome.after q (finish B r) := by
  cases r with
  | error e => rfl
  | ok p =>
    simp only [Except.map, finish]
    cases B.postprocess p.1 <;> rfl

theorem run_finish (B : Booster σ K H O) (wl : WeakLearner K H) (fuel : Nat) {s s₀ : σ} (hp : B.preprocess s wl = .ok s₀) :
    (B.run wl fuel s).map plainOutcome = (B.loop wl fuel s₀ 1).map (finish B) := by
  unfold Booster.run
  rw [hp]
  simp only
  cases B.loop wl fuel s₀ 1 with
  | none => rfl
  | some r =>
    cases r with
    | error e => rfl
    | ok p =>
      obtain ⟨s₁, qs⟩ := p
      simp only [Option.map_some, finish]
      cases B.postprocess s₁ <;> rfl

theorem logged_finish (L : Logger σ K H O T) (w : World) (hu : Undisturbed L w) (wl : WeakLearner K H) (fuel : Nat) {s s₀ : σ}
    (hp : L.booster.preprocess s wl = .ok s₀) :
    (L.run w wl fuel s).map LogRun.outcome = (L.loop w wl fuel s₀ 1 0).map fun r => finish L.booster r.2.2 := by
  unfold Logger.run
  rw [if_neg (by rw [hu.create]; simp), if_neg (by rw [hu.header]; simp), hp]
  simp only
  cases L.loop w wl fuel s₀ 1 0 with
  | none => rfl
  | some q =>
    obtain ⟨ls, ps, res⟩ := q
    cases res with
    | error e => rfl
    | ok p =>
      obtain ⟨s₁, qs₁⟩ := p
      simp only [Option.map_some, finish]
      cases L.booster.postprocess s₁ <;> rfl

theorem eval_of_current {L : Logger σ K H O T} {w : World} (hu : Undisturbed L w) {s : σ} {f : O} (h : L.current s = .ok f) :
    ∃ v, L.eval s = .ok v := by
  obtain ⟨a, ha⟩ := hu.objective L.train f
  obtain ⟨b, hb⟩ := hu.loss L.train f
  obtain ⟨c, hc⟩ := hu.loss L.test f
  exact ⟨(a, b, c), by simp [Logger.eval, h, ha, hb, hc]⟩

theorem eval_error {L : Logger σ K H O T} {s : σ} {e : Panic} (h : L.current s = .error e) : L.eval s = .error e := by
  simp [Logger.eval, h]

theorem loop_same (L : Logger σ K H O T) (w : World) (hu : Undisturbed L w) (hcur : L.current = L.booster.postprocess) (wl : WeakLearner K H) {s₀ : σ}
    (hpos : ∀ n qs st, L.booster.Reachable wl s₀ (n + 1) qs st → ∃ f, L.booster.postprocess st = .ok f) :
    ∀ (fuel n : Nat) (qs : List (List K)) (s : σ), L.booster.Reachable wl s₀ n qs s →
      (L.loop w wl fuel s (n + 1) (timeUpTo w.elapsed n)).map (fun r => finish L.booster r.2.2) =
        (L.booster.loop wl fuel s (n + 1)).map (finish L.booster) := by
  intro fuel
  induction fuel with
  | zero => intro n qs s _; rfl
  | succ fuel ih =>
    intro n qs s hr
    unfold Logger.loop Booster.loop
    cases hb : L.booster.boost s wl (n + 1) with
    | error e => rfl
    | ok out =>
      have hacc : timeUpTo w.elapsed n + w.elapsed (n + 1) = timeUpTo w.elapsed (n + 1) := rfl
      simp only [hacc]
      cases hf : out.flow with
      | brk t =>
        simp only
        cases hc : L.booster.postprocess out.state with
        | error e =>
          rw [eval_error (by rw [hcur]; exact hc)]
          simp only [Option.map_some, finish, hc]
        | ok f =>
          obtain ⟨⟨a, b, c⟩, he⟩ := eval_of_current hu (s := out.state) (f := f) (by rw [hcur]; exact hc)
          rw [he]
          simp only
          rw [if_neg (by rw [hu.write]; simp), if_neg (not_lt.mpr (hu.time _)), if_neg hu.interval]
          rfl
      | cont =>
        obtain ⟨f, hc⟩ := hpos n _ _ (hr.step hb hf)
        obtain ⟨⟨a, b, c⟩, he⟩ := eval_of_current hu (s := out.state) (f := f) (by rw [hcur]; exact hc)
        rw [he]
        simp only
        rw [if_neg (by rw [hu.write]; simp), if_neg (not_lt.mpr (hu.time _)), if_neg hu.interval]
        have := ih (n + 1) _ _ (hr.step hb hf)
        rw [Option.map_map, Option.map_map]
        have key : ∀ {α : Type _} (o : Option α) (g : α → Except Panic (σ × List (List K))),
            o.map (fun r => finish L.booster ((g r).map fun p => (p.1, out.queries ++ p.2))) =
              (o.map fun r => finish L.booster (g r)).map (LogOutcome.after out.queries) := by
          intro α o g
          rw [Option.map_map]
          congr 1
          funext r
          exact finish_after _ _ _
        refine (key _ fun r : List (LogLine K) × List Printed × Except Panic (σ × List (List K)) => r.2.2).trans ?_
        rw [this]
        exact (key _ fun r => r).symm

/-- **C102**, for every booster whose intermediate hypothesis is built as its final one: if that can be done after every round, logging changes
nothing. -/
theorem log_transparent (L : Logger σ K H O T) (w : World) (hu : Undisturbed L w) (hcur : L.current = L.booster.postprocess) (wl : WeakLearner K H)
    (s : σ) (hpos : ∀ n qs st, L.booster.Reachable wl s (n + 1) qs st → ∃ f, L.booster.postprocess st = .ok f) : Transparent L w wl s := by
  intro fuel
  cases hp : L.booster.preprocess s wl with
  | error e =>
    unfold Logger.run Booster.run
    rw [if_neg (by rw [hu.create]; simp), if_neg (by rw [hu.header]; simp), hp]
    rfl
  | ok s₁ =>
    rw [run_finish _ _ _ hp, logged_finish L w hu wl fuel hp]
    exact loop_same L w hu hcur wl hpos fuel 0 [] s₁ (.start hp)

/-- **C102**, the exact condition: a logged run returns a hypothesis if and only if the unlogged run does and the intermediate hypothesis can be built
after every round. -/
theorem log_returns_exactly (L : Logger σ K H O T) (w : World) (hu : Undisturbed L w) (hcur : L.current = L.booster.postprocess)
    (wl : WeakLearner K H) (s : σ) (fuel : Nat) :
    (∃ r o qs, L.run w wl fuel s = some r ∧ r.outcome = .ok o qs) ↔
      (∃ o qs, L.booster.run wl fuel s = some (.ok (o, qs))) ∧
        ∀ n qs st, L.booster.Reachable wl s (n + 1) qs st → ∃ f, L.booster.postprocess st = .ok f := by
  constructor
  · rintro ⟨r, o, qs, hrun, ho⟩
    have hpos : ∀ n qs st, L.booster.Reachable wl s (n + 1) qs st → ∃ f, L.booster.postprocess st = .ok f := by
      cases hp : L.booster.preprocess s wl with
      | error e =>
        intro n qs st hr
        exfalso
        have : ∀ {n qs st}, L.booster.Reachable wl s n qs st → False := by
          intro n qs st hr
          induction hr with
          | start h => rw [hp] at h; cases h
          | step _ _ _ ih => exact ih
        exact this hr
      | ok s₁ =>
        have h1 := logged_finish L w hu wl fuel hp
        rw [hrun] at h1
        simp only [Option.map_some, ho] at h1
        clear hrun ho
        have main : ∀ (fuel n : Nat) (qs₀ : List (List K)) (s₂ : σ) (acc : Nat) (o : O) (qs : List (List K)),
            L.booster.Reachable wl s n qs₀ s₂ →
            some (LogOutcome.ok o qs) = (L.loop w wl fuel s₂ (n + 1) acc).map (fun r => finish L.booster r.2.2) →
            acc = timeUpTo w.elapsed n →
            ∀ m qs' st, n < m → L.booster.Reachable wl s m qs' st → ∃ f, L.booster.postprocess st = .ok f := by
          intro fuel
          induction fuel with
          | zero => intro n qs₀ s₂ acc o qs _ h; simp [Logger.loop] at h
          | succ fuel ih =>
            intro n qs₀ s₂ acc o qs hr h hac m qs' st hm hst
            subst hac
            unfold Logger.loop at h
            cases hb : L.booster.boost s₂ wl (n + 1) with
            | error e => rw [hb] at h; simp [finish] at h
            | ok out =>
              rw [hb] at h
              have hacc : timeUpTo w.elapsed n + w.elapsed (n + 1) = timeUpTo w.elapsed (n + 1) := rfl
              simp only [hacc] at h
              cases hc : L.current out.state with
              | error e => rw [eval_error hc] at h; simp [finish] at h
              | ok f =>
                obtain ⟨⟨a, b, c⟩, he⟩ := eval_of_current hu hc
                rw [he] at h
                simp only at h
                rw [if_neg (by rw [hu.write]; simp), if_neg (not_lt.mpr (hu.time _)), if_neg hu.interval] at h
                have hearlier : ∃ qs'' s'' out', L.booster.Reachable wl s n qs'' s'' ∧ L.booster.boost s'' wl (n + 1) = .ok out' ∧ out'.flow = .cont := by
                  exact reachable_earlier hst n hm
                obtain ⟨qs'', s'', out', e1, e2, e3⟩ := hearlier
                obtain ⟨-, rfl⟩ := reachable_unique hr e1
                rw [hb, Except.ok.injEq] at e2
                subst e2
                have hn := hr.step hb e3
                by_cases hmn : m = n + 1
                · subst hmn
                  obtain ⟨-, rfl⟩ := reachable_unique hn hst
                  exact ⟨f, by rw [← hcur]; exact hc⟩
                · rw [e3] at h
                  simp only [Option.map_map] at h
                  cases hl : L.loop w wl fuel out.state (n + 1 + 1) (timeUpTo w.elapsed (n + 1)) with
                  | none => rw [hl] at h; cases h
                  | some q =>
                    rw [hl] at h
                    simp only [Option.map_some, Function.comp, Option.some.injEq, finish_after] at h
                    cases hq : finish L.booster q.2.2 with
                    | ioError => rw [hq] at h; cases h
                    | panic e => rw [hq] at h; cases h
                    | ok o' qs₂ =>
                      exact ih (n + 1) _ _ _ o' qs₂ hn (by rw [hl]; simp [hq]) rfl m qs' st (by omega) hst
        intro n qs' st hst
        exact main fuel 0 [] s₁ 0 o qs (.start hp) h1.symm.symm rfl (n + 1) qs' st (by omega) hst
    refine ⟨?_, hpos⟩
    have := log_transparent L w hu hcur wl s hpos fuel
    rw [hrun] at this
    simp only [Option.map_some, ho] at this
    cases hB : L.booster.run wl fuel s with
    | none => rw [hB] at this; cases this
    | some x =>
      rw [hB] at this
      cases x with
      | error e => simp [plainOutcome] at this
      | ok p => exact ⟨p.1, p.2, rfl⟩
  · rintro ⟨⟨o, qs, hB⟩, hpos⟩
    have := log_transparent L w hu hcur wl s hpos fuel
    rw [hB] at this
    cases hL : L.run w wl fuel s with
    | none => rw [hL] at this; cases this
    | some r =>
      rw [hL] at this
      simp only [Option.map_some, Option.some.injEq, plainOutcome] at this
      exact ⟨r, o, qs, rfl, this⟩

end generic

end Miniboosts.Props
