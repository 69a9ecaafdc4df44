import Verif.Lemmas.ParTreeFull
import Verif.Model.ParMisc

set_option linter.unusedSectionVars false

/-! Helper lemmas: the remaining parallel iterators have one result, that of the sequential model. -/

namespace Miniboosts

namespace Par

open Real

variable {α β K : Type*}

section

variable [Field K] [LinearOrder K]

theorem collect_iff {A : Type*} (f : Feature K → Except Panic A) (l : List (Feature K)) (o : Option (List A)) :
    Collect f l o ↔ o = (Sample.mapAll f l).toOption := by
  unfold Collect
  rw [mapAll_eq]
  constructor
  · rintro ⟨t, rfl, rfl⟩; rw [Split.collect_eq]
  · rintro rfl; exact ⟨.seq l, rfl, rfl⟩

theorem normalize_iff (items : List K) (o : Option (List K)) : Normalize items o ↔ o = (normalize items).toOption := by
  unfold Normalize normalize
  simp only [parMap_iff, exists_eq_left]
  split <;> rfl

theorem append_iff (s : Sample K) (row : Nat) (feat : List K) (y : K) (s' : Sample K) : Append s row feat y s' ↔ s' = s.append row feat y := by
  unfold Append Sample.append
  simp only [parUpdate_iff, exists_eq_left]

end

theorem affine_iff (l : Layer) (x : List ℝ) (o : Option (List ℝ)) : Affine l x o ↔ o = (l.affine x).toOption := by
  unfold Affine Layer.affine
  by_cases h : l.ncol ≠ x.length
  · simp only [h, if_true, ne_eq, not_false_eq_true]; rfl
  · simp only [h, if_false]
    have hf : ∀ (m : List (List ℝ)) (ps : List ℝ), List.Forall₂ (fun w r => ParInner w x r) m ps ↔ ps = m.map fun w => innerProduct w x :=
      forall₂_iff fun a b => parInner_iff _ _ _
    have hm : ∀ (a : List (List ℝ)) (b : List ℝ),
        (((a.map fun w => innerProduct w x).zip b).map fun p => p.1 + p.2) = List.zipWith (fun w b => innerProduct w x + b) a b := by
      intro a
      induction a with
      | nil => intro b; rfl
      | cons w a ih => intro b; cases b with
        | nil => rfl
        | cons c b => simpa using ih b
    simp only [hf]
    constructor
    · rintro ⟨ps, t, rfl, ht, rfl⟩
      rw [Split.collect_eq, ht, hm]; rfl
    · rintro rfl
      exact ⟨_, .seq _, rfl, rfl, by rw [Split.collect_eq, Split.items]; exact congrArg some (hm _ _).symm⟩

theorem addNan_assoc (a b c : Option ℝ) : addNan (addNan a b) c = addNan a (addNan b c) := by
  cases a <;> cases b <;> cases c <;> simp [addNan, add_assoc]

theorem addNan_zero (a : Option ℝ) : addNan (some 0) a = a := by cases a <;> simp [addNan]

theorem addNan_zero' (a : Option ℝ) : addNan a (some 0) = a := by cases a <;> simp [addNan]

theorem foldl_addNan (l : List (Option ℝ)) (a : Option ℝ) : l.foldl addNan a = addNan a (l.foldl addNan (some 0)) := by
  induction l generalizing a with
  | nil => simp [addNan_zero']
  | cons x l ih => simp only [List.foldl_cons]; rw [ih, ih (addNan (some 0) x), addNan_zero, addNan_assoc]

theorem sum_addNan (t : Split (Option ℝ)) : t.sum addNan (some 0) = t.items.foldl addNan (some 0) := by
  induction t with
  | seq xs => rfl
  | join l r ihl ihr =>
    simp only [Split.sum, Split.foldWith, Split.items, List.foldl_append] at *
    rw [ihl, ihr, ← foldl_addNan]

theorem nonConst_eq (n row : Nat) (l : List ((ℝ × ℝ) × Feature ℝ)) :
    (Gaussian.nonConst n row l).toOption = (allSome (l.map fun p => (densityTerm n row p).toOption)).map fun ts => ts.foldl addNan (some 0) := by
  induction l with
  | nil => rfl
  | cons p l ih =>
    obtain ⟨⟨mean, var⟩, feat⟩ := p
    unfold Gaussian.nonConst
    simp only [List.map_cons, densityTerm]
    cases feat.index row with
    | error e => rfl
    | ok x =>
      simp only [Except.map, Except.toOption, allSome]
      have ih' : (Gaussian.nonConst n row l).toOption = (allSome (l.map fun p => ((p.2.index row).map fun x => if p.1.2 ≤ 0 then none else some ((x - p.1.1) ^ 2 / p.1.2 + n * log p.1.2)).toOption)).map fun ts => ts.foldl addNan (some 0) := ih
      generalize hA : (allSome (l.map fun p => ((p.2.index row).map fun x => if p.1.2 ≤ 0 then none else some ((x - p.1.1) ^ 2 / p.1.2 + n * log p.1.2)).toOption)) = A at ih'
      change _ = Option.map _ (Option.map _ (allSome (l.map fun p => ((p.2.index row).map fun x => if p.1.2 ≤ 0 then none else some ((x - p.1.1) ^ 2 / p.1.2 + n * log p.1.2)).toOption)))
      rw [hA]
      cases hn : Gaussian.nonConst n row l with
      | error e =>
        rw [hn] at ih'
        cases A with
        | none => rfl
        | some ts => cases ih'
      | ok s =>
        rw [hn] at ih'
        cases A with
        | none => cases ih'
        | some ts =>
          simp only [Except.toOption, Option.map_some, Option.some.injEq] at ih'
          simp only [Option.map_some, List.foldl_cons, addNan_zero]
          rw [foldl_addNan, ← ih']
          by_cases hv : var ≤ 0
          · cases s <;> simp [hv, addNan]
          · cases s <;> simp [hv, addNan]

theorem logProbability_iff (g : Gaussian) (sample : Sample ℝ) (row : Nat) (o : Option (Option ℝ)) :
    LogProbability g sample row o ↔ o = (g.logProbability sample row).toOption := by
  have key := nonConst_eq g.means.length row ((g.means.zip g.vars).zip sample.features)
  unfold LogProbability Gaussian.logProbability
  generalize allSome (((g.means.zip g.vars).zip sample.features).map fun p => (densityTerm g.means.length row p).toOption) = A at key ⊢
  cases hn : Gaussian.nonConst g.means.length row ((g.means.zip g.vars).zip sample.features) with
  | error e =>
    rw [hn] at key
    cases A with
    | none => rfl
    | some ts => cases key
  | ok s =>
    rw [hn] at key
    cases A with
    | none => cases key
    | some ts =>
      simp only [Except.toOption, Option.map_some, Option.some.injEq] at key
      subst key
      simp only [Except.map, Except.toOption]
      constructor
      · rintro ⟨t, rfl, rfl⟩; rw [sum_addNan]
      · rintro rfl; exact ⟨.seq ts, rfl, rfl⟩

end Par

end Miniboosts
