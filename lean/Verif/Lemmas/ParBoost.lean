import Verif.Lemmas.Rayon
import Verif.Lemmas.AdaBoostInv
import Verif.Lemmas.AdaBoostV

/-! Helper lemmas: a parallel booster whose `boost` agrees with the sequential one on the reachable states has the same runs. -/

namespace Miniboosts

variable {H X K : Type*}

namespace ParBooster

variable {σ O : Type*}

/-- `boost` has exactly one result on the states a run passes through: that of the sequential booster. -/
def Agrees [Field K] [LinearOrder K] (P : ParBooster σ K H O) (B : Booster σ K H O) (wl : WeakLearner K H) (s₀ : σ) : Prop :=
  ∀ n qs s, B.Reachable wl s₀ n qs s → ∀ r, P.boost s wl (n + 1) r ↔ r = B.boost s wl (n + 1)

theorem loop_iff [Field K] [LinearOrder K] {P : ParBooster σ K H O} {B : Booster σ K H O} {wl : WeakLearner K H} {s₀ : σ}
    (h : P.Agrees B wl s₀) {n : Nat} {qs : List (List K)} {s : σ} (hr : B.Reachable wl s₀ n qs s)
    (r : Except Panic (σ × List (List K))) : P.Loop wl s (n + 1) r ↔ ∃ fuel, B.loop wl fuel s (n + 1) = some r := by
  constructor
  · intro hl
    generalize hit : n + 1 = it at hl
    induction hl generalizing n qs with
    | @panic s it e hb =>
      subst hit
      have := (h n qs s hr _).mp hb
      exact ⟨1, by simp [Booster.loop, ← this]⟩
    | @stop s it out k hb hf =>
      subst hit
      have := (h n qs s hr _).mp hb
      exact ⟨1, by simp [Booster.loop, ← this, hf]⟩
    | @next s it out r hb hf hl ih =>
      subst hit
      have hbe := (h n qs s hr _).mp hb
      obtain ⟨fuel, hfuel⟩ := ih (n := n + 1) (hr.step hbe.symm hf) rfl
      exact ⟨fuel + 1, by simp [Booster.loop, ← hbe, hf, hfuel]⟩
  · rintro ⟨fuel, hl⟩
    induction fuel generalizing n qs s r with
    | zero => simp [Booster.loop] at hl
    | succ fuel ih =>
      simp only [Booster.loop] at hl
      have hb := (h n qs s hr _).mpr rfl
      cases hbo : B.boost s wl (n + 1) with
      | error e =>
        rw [hbo] at hl hb
        simp only [Option.some.injEq] at hl
        subst hl
        exact .panic hb
      | ok out =>
        rw [hbo] at hl hb
        cases hf : out.flow with
        | brk k =>
          simp only [hf, Option.some.injEq] at hl
          subst hl
          exact .stop hb hf
        | cont =>
          simp only [hf, Option.map_eq_some_iff] at hl
          obtain ⟨r', hl', rfl⟩ := hl
          exact .next hb hf (ih (hr.step hbo hf) r' hl')

theorem runs_iff [Field K] [LinearOrder K] {P : ParBooster σ K H O} {B : Booster σ K H O} {wl : WeakLearner K H} {s₀ : σ}
    (h : P.Agrees B wl s₀) (hpre : P.preprocess = B.preprocess) (hpost : P.postprocess = B.postprocess)
    (r : Except Panic (O × List (List K))) : P.Runs wl s₀ r ↔ ∃ fuel, B.run wl fuel s₀ = some r := by
  constructor
  · intro hr
    cases hr with
    | pre hp => exact ⟨0, by simp [Booster.run, ← hpre, hp]⟩
    | loop hp hl =>
      rw [hpre] at hp
      obtain ⟨fuel, hf⟩ := (loop_iff h (.start hp) _).mp hl
      exact ⟨fuel, by simp only [Nat.zero_add] at hf; simp [Booster.run, hp, hf]⟩
    | post hp hl hq =>
      rw [hpre] at hp
      rw [hpost] at hq
      obtain ⟨fuel, hf⟩ := (loop_iff h (.start hp) _).mp hl
      exact ⟨fuel, by simp only [Nat.zero_add] at hf; simp [Booster.run, hp, hf, hq]⟩
    | ok hp hl hq =>
      rw [hpre] at hp
      rw [hpost] at hq
      obtain ⟨fuel, hf⟩ := (loop_iff h (.start hp) _).mp hl
      exact ⟨fuel, by simp only [Nat.zero_add] at hf; simp [Booster.run, hp, hf, hq]⟩
  · rintro ⟨fuel, hr⟩
    simp only [Booster.run] at hr
    cases hp : B.preprocess s₀ wl with
    | error e =>
      simp only [hp, Option.some.injEq] at hr
      subst hr
      exact .pre (by rw [hpre, hp])
    | ok s₁ =>
      simp only [hp] at hr
      have hp' : P.preprocess s₀ wl = .ok s₁ := by rw [hpre, hp]
      cases hl : B.loop wl fuel s₁ 1 with
      | none => simp [hl] at hr
      | some x =>
        have hl' := (loop_iff h (n := 0) (.start hp) x).mpr ⟨fuel, hl⟩
        cases x with
        | error e =>
          simp only [hl, Option.some.injEq] at hr
          subst hr
          exact .loop hp' hl'
        | ok y =>
          obtain ⟨s₂, qs⟩ := y
          simp only [hl] at hr
          cases hq : B.postprocess s₂ with
          | error e =>
            simp only [hq, Option.some.injEq] at hr
            subst hr
            exact .post hp' hl' (by rw [hpost, hq])
          | ok o =>
            simp only [hq, Option.some.injEq] at hr
            subst hr
            exact .ok hp' hl' (by rw [hpost, hq])

end ParBooster

theorem AdaBoost.parAgrees [Classifier H X ℝ] (S : Examples X ℝ) (wl : WeakLearner ℝ H) (s₀ : AdaBoost H) :
    (AdaBoost.parBooster S).Agrees (AdaBoost.booster S) wl s₀ := by
  intro n qs s hr r
  have hlen : s.dist.length ≤ (margins S (wl (n + 1) s.dist)).length := by
    simp [(inv_of_reachable hr).dist, Spec.expWeights, margins]
  simp only [parBooster, booster, ParBoost, boost, parInner_iff, exists_eq_left]
  split
  · rfl
  split
  · rfl
  · simp only [parReweight_iff _ _ _ _ hlen, exists_eq_left, updateParams]
    cases reweight s.dist (margins S (wl (n + 1) s.dist)) (hypWeight (innerProduct (margins S (wl (n + 1) s.dist)) s.dist)) <;> rfl

theorem AdaBoostV.parAgrees [Classifier H X ℝ] (S : Examples X ℝ) (wl : WeakLearner ℝ H) (s₀ : AdaBoostV H) :
    (AdaBoostV.parBooster S).Agrees (AdaBoostV.booster S) wl s₀ := by
  intro n qs s hr r
  have hlen : s.dist.length ≤ (margins S (wl (n + 1) s.dist)).length := by
    simp [(inv_of_reachable hr).dist, Spec.expWeights, margins]
  simp only [parBooster, booster, ParBoost, boost, parInner_iff, exists_eq_left]
  split
  · rfl
  split
  · rfl
  · simp only [parReweight_iff _ _ _ _ hlen, exists_eq_left, updateParams]
    split
    · generalize reweight s.dist _ _ = x
      cases x <;> rfl
    · rfl

theorem MadaBoost.parDist_iff (betas : List ℝ) (r : Except Panic (List ℝ)) : MadaBoost.ParDist betas r ↔ r = beta2distribution betas := by
  unfold ParDist beta2distribution
  constructor
  · rintro ⟨idx, hs, rfl⟩
    rw [normalizerOf_eq _ _ hs.1]
    rfl
  · rintro rfl
    obtain ⟨idx, hs⟩ := exists_sortedIndices (betas.map fun b => min b 1)
    refine ⟨idx, hs, ?_⟩
    rw [normalizerOf_eq _ _ hs.1]
    rfl

theorem MadaBoost.parAgrees [Classifier H X ℝ] (S : Examples X ℝ) (wl : WeakLearner ℝ H) (s₀ : MadaBoost H) :
    (MadaBoost.parBooster S).Agrees (MadaBoost.booster S) wl s₀ := by
  intro n qs s hr r
  simp only [parBooster, booster, ParBoost, boost, parInner_iff, exists_eq_left, parDist_iff]
  split
  · rfl
  cases beta2distribution s.betas with
  | error e => rfl
  | ok dist =>
    simp only
    split
    · rfl
    · simp only [parUpdate_iff, exists_eq_left, updateParams]
      split <;> rfl

theorem SmoothBoost.parAgrees [Classifier H X ℝ] (S : Examples X ℝ) (wl : WeakLearner ℝ H) (s₀ : SmoothBoost H) :
    (SmoothBoost.parBooster S).Agrees (SmoothBoost.booster S) wl s₀ := by
  intro n qs s hr r
  simp only [parBooster, booster, ParBoost, boost, parUpdate_iff, exists_eq_left]
  split
  · rfl
  · split
    · split <;> rfl
    · rfl

theorem GBM.parAgrees [Field K] [LinearOrder K] [Regressor H X K] (best : List K → List K → Except Panic K) (S : Examples X K)
    (wl : WeakLearner K H) (s₀ : GBM K H) : (GBM.parBooster best S).Agrees (GBM.booster best S) wl s₀ := by
  intro n qs s hr r
  simp only [parBooster, booster, ParBoost, boost, parUpdate_iff, exists_eq_left]
  split
  · rfl
  · cases best (S.map Prod.snd) (GBM.regressAll (wl (n + 1) s.predictions) (S.map Prod.fst)) with
    | error e => rfl
    | ok c =>
      simp only
      split <;> rfl

end Miniboosts
