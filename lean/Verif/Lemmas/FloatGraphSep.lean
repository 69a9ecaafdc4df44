import Verif.Model.FloatGraphSep
import Verif.Props.GraphSepBoost
import Verif.Props.FloatTree

/-! # GraphSepBoost in `f64` follows the exact model -/

namespace Miniboosts

namespace GraphSepF

open F64 Props

/-! `cf` gives the `f64` confidences; the exact classifier is any one with the same predictions. -/

variable {H X : Type*} [Classifier H X ℝ] {cf : H → X → F64}

/-- The exact classifier predicts like the one with `f64` confidences. -/
def SameSigns (cf : H → X → F64) : Prop := ∀ (h : H) (x : X), Miniboosts.predict (K := ℝ) h x = @predictF H X ⟨cf⟩ h x

theorem updateParams_signs (hcf : SameSigns cf) (S : Examples X ℝ) (E : List (Finset Nat)) (h : H) :
    @updateParams H X ⟨cf⟩ S E h = GraphSepBoost.updateParams (K := ℝ) S E h := by
  unfold updateParams GraphSepBoost.updateParams predictAll
  simp only [hcf _ _, List.map_map, Function.comp_def]

theorem weight_eq {a b : Nat} (ha : a < 2 ^ 53) (hb : b < 2 ^ 53) (hb0 : b ≠ 0) : weight a b = rnd ((a : ℝ) / (b : ℝ)) := by
  unfold weight
  have h : ∀ k : Nat, k < 2 ^ 53 → rnd (k : ℝ) = fin k := by
    intro k hk
    have := rnd_double (x := ((k : ℤ) : ℝ)) (double_int (by rw [abs_of_nonneg (by positivity)]; exact_mod_cast hk)) (by
      rw [abs_of_nonneg (by positivity)]
      have : ((k : ℤ) : ℝ) ≤ ((2 ^ 53 : ℕ) : ℝ) := by exact_mod_cast hk.le
      exact this.trans (by norm_num))
    simpa using this
  rw [h a ha, h b hb]
  unfold div
  simp only
  rw [if_neg (by exact_mod_cast hb0)]

/-- The learner of the exact run: the `f64` learner with rounded weights. -/
noncomputable def rounded (wl : WeakLearner F64 H) : WeakLearner ℝ (H) := fun it d => wl it (d.map rnd)

/-- What the `f64` run does, in terms of the exact one. -/
noncomputable def outF (o : BoostOut (GraphSepBoost (H)) ℝ) : BoostOut (GraphSepBoost H) F64 :=
  { state := o.state, flow := o.flow, queries := o.queries.map fun q => q.map rnd }

theorem map_ite_pos {α β : Type*} (f : α → β) {c : Prop} [Decidable c] {a b : Except Panic α} (h : c) : Except.map f (if c then a else b) = Except.map f a := by
  rw [if_pos h]

theorem map_ite_neg {α β : Type*} (f : α → β) {c : Prop} [Decidable c] {a b : Except Panic α} (h : ¬ c) : Except.map f (if c then a else b) = Except.map f b := by
  rw [if_neg h]

theorem boost_sim (hcf : SameSigns cf) {S : Examples X ℝ} {s : GraphSepBoost H} (wl : WeakLearner F64 H) (it : Nat) (hn : s.nEdges < 2 ^ 53)
    (he : ∀ e ∈ s.edges, e.card < 2 ^ 53) :
    @boost H X ⟨cf⟩ S s wl it = (GraphSepBoost.boost (K := ℝ) S s (rounded wl) it).map outF := by
  unfold boost GraphSepBoost.boost
  by_cases h0 : s.nEdges = 0
  · rw [if_pos h0, if_pos h0]; rfl
  · rw [if_neg h0, if_neg h0]
    have hd : (s.edges.map fun e => weight e.card s.nEdges) = (s.edges.map fun e => (e.card : ℝ) / (s.nEdges : ℝ)).map rnd := by
      rw [List.map_map]
      exact List.map_congr_left fun e hm => weight_eq (he e hm) hn h0
    simp only [hd, rounded, updateParams_signs hcf]
    split
    · next h => refine Eq.trans ?_ (map_ite_pos outF h).symm; rfl
    · next h => refine Eq.trans ?_ (map_ite_neg outF h).symm; rfl

theorem loop_sim (hcf : SameSigns cf) {S : Examples X ℝ} (hS : S.length ≤ 10 ^ 5) (wl : WeakLearner F64 H) (s₀ : GraphSepBoost H) :
    ∀ (fuel : Nat) {n : Nat} {qs : List (List ℝ)} {s : GraphSepBoost (H)},
      (GraphSepBoost.booster (K := ℝ) S).Reachable (rounded wl) s₀ n qs s →
      (@booster H X ⟨cf⟩ S).loop wl fuel s (n + 1) = ((GraphSepBoost.booster (K := ℝ) S).loop (rounded wl) fuel s (n + 1)).map
        (fun r => r.map fun p => (p.1, p.2.map fun q => q.map rnd)) := by
  intro fuel
  induction fuel with
  | zero => intro n qs s _; rfl
  | succ fuel ih =>
    intro n qs s hr
    have hi := GraphSepBoost.inv_of_reachable hr
    have hcard : ∀ e ∈ s.edges, e.card ≤ 10 ^ 5 := by
      intro e he
      rw [hi.edges] at he
      obtain ⟨i, -, rfl⟩ := List.mem_map.1 he
      classical
      unfold Spec.neighbours
      refine (Finset.card_filter_le _ _).trans ?_
      rw [Finset.card_range]; exact hS
    have hop : s.nEdges ≤ 2 * (10 ^ 5 * 10 ^ 5) := by
      rw [hi.nEdges]
      classical
      unfold Spec.openPairs
      refine Nat.mul_le_mul_left 2 ((Finset.card_filter_le _ _).trans ?_)
      rw [Finset.card_product, Finset.card_range]
      exact Nat.mul_le_mul hS hS
    have hb : (@booster H X ⟨cf⟩ S).boost s wl (n + 1) = (GraphSepBoost.boost (K := ℝ) S s (rounded wl) (n + 1)).map outF :=
      boost_sim hcf wl (n + 1) (by omega) fun e he => lt_of_le_of_lt (hcard e he) (by norm_num)
    rw [Booster.loop, Booster.loop, hb, show (GraphSepBoost.booster (K := ℝ) S).boost s (rounded wl) (n + 1)
      = GraphSepBoost.boost (K := ℝ) S s (rounded wl) (n + 1) from rfl]
    cases hout : GraphSepBoost.boost (K := ℝ) S s (rounded wl) (n + 1) with
    | error e => rfl
    | ok out =>
      simp only [Except.map]
      show (match out.flow with
        | .brk _ => _
        | .cont => _) = _
      cases hf : out.flow with
      | brk k => simp only [outF, Option.map]
      | cont =>
        simp only [outF]
        rw [ih (Booster.Reachable.step hr hout hf)]
        cases (GraphSepBoost.booster (K := ℝ) S).loop (rounded wl) fuel out.state (n + 1 + 1) with
        | none => rfl
        | some r =>
          cases r with
          | error e => rfl
          | ok p => simp [Except.map]

theorem aggregate_signs (hcf : SameSigns cf) (S : Examples X ℝ) (hs : List H) : @aggregate H X ⟨cf⟩ hs S = NaiveAggregation.new (K := ℝ) hs S := by
  unfold aggregate NaiveAggregation.new
  simp only [hcf _ _]

theorem predict_signs (hcf : SameSigns cf) (f : NaiveAggregation H) (x : X) :
    @predict H X ⟨cf⟩ f x = Miniboosts.predict (K := ℝ) f x := by
  unfold predict Miniboosts.predict
  simp only [conf, hcf _ _]
  generalize (f.prediction.any fun p => p == List.map (fun h => decide (@predictF H X ⟨cf⟩ h x = 1)) f.hypotheses) = c
  cases c
  · simp [Le]
  · simp [Le]

/-- The run in `f64` is the exact run with the learner asked with rounded weights. -/
theorem run_sim (hcf : SameSigns cf) {S : Examples X ℝ} (hS : S.length ≤ 10 ^ 5) (wl : WeakLearner F64 H) (fuel : Nat) (s₀ : GraphSepBoost H) :
    (@booster H X ⟨cf⟩ S).run wl fuel s₀ = ((GraphSepBoost.booster (K := ℝ) S).run (rounded wl) fuel s₀).map
      (fun r => r.map fun p => (p.1, p.2.map fun q => q.map rnd)) := by
  unfold Booster.run
  rw [show (@booster H X ⟨cf⟩ S).preprocess s₀ wl = (GraphSepBoost.booster (K := ℝ) S).preprocess s₀ (rounded wl) from rfl]
  cases hp : (GraphSepBoost.booster (K := ℝ) S).preprocess s₀ (rounded wl) with
  | error e => rfl
  | ok s =>
    simp only
    rw [loop_sim hcf hS wl s₀ fuel (Booster.Reachable.start hp)]
    cases (GraphSepBoost.booster (K := ℝ) S).loop (rounded wl) fuel s (0 + 1) with
    | none => rfl
    | some r =>
      cases r with
      | error e => rfl
      | ok p =>
        simp only [Option.map, Except.map]
        simp only [booster, GraphSepBoost.booster, GraphSepBoost.postprocess, aggregate_signs hcf]

/-- The run in `f64`, for a learner that is better than guessing for the exact weights. -/
theorem zero_error_sim (hcf : SameSigns cf) (S : Examples X ℝ) (hS : S.length ≤ 10 ^ 5) (hvalid : checkBinary S = .ok ()) (hpm : Spec.PmLabels S)
    (s₀ : GraphSepBoost H) (wl : WeakLearner F64 H) {g : ℝ} (hg : 0 < g)
    (hwl : ∀ k d, d.length = S.length → Spec.IsProb d → Spec.weightedError S d (@predictF H X ⟨cf⟩ (wl k (d.map rnd))) ≤ 1 / 2 - g) :
    ∃ n f qs, (@booster H X ⟨cf⟩ S).run wl n s₀ = some (.ok (f, qs)) ∧ Spec.errors S (@predict H X ⟨cf⟩ f) = 0 ∧
      (∀ q ∈ qs, ∃ d : List ℝ, q = d.map rnd ∧ d.length = S.length ∧ Spec.IsProb d) ∧
      (qs = [] ∨ (qs.length : ℝ) ≤ Real.log ((S.length : ℝ) ^ 2) / (2 * g) + 1) := by
  have hwl' : ∀ k d, d.length = S.length → Spec.IsProb d → Spec.weightedError S d (Miniboosts.predict (K := ℝ) (rounded wl k d)) ≤ 1 / 2 - g := by
    intro k d h1 h2
    have e : Miniboosts.predict (K := ℝ) (rounded wl k d) = @predictF H X ⟨cf⟩ (wl k (d.map rnd)) := funext fun x => hcf _ _
    rw [e]
    exact hwl k d h1 h2
  obtain ⟨f, qs, hrun, herr⟩ := graphsep_run_zero_error S hvalid hpm s₀ (rounded wl) fun k d h1 h2 => by
    have := hwl' k d h1 h2
    linarith
  have hsim := run_sim hcf hS wl (Spec.openPairs (Miniboosts.predict (K := ℝ)) S ([] : List H) + 1) s₀
  rw [hrun] at hsim
  refine ⟨_, f, _, hsim, ?_, ?_, ?_⟩
  · have e : Miniboosts.predict (K := ℝ) f = @predict H X ⟨cf⟩ f := funext fun x => (predict_signs hcf f x).symm
    rw [← e]
    exact herr
  · intro q hq
    obtain ⟨d, hd, rfl⟩ := List.mem_map.mp hq
    obtain ⟨n, qs', s', out, k, h1, -, h3, -, h5, -⟩ := (GraphSepBoost.booster S).run_spec _ s₀ hrun
    obtain ⟨q1, q2⟩ := graphsep_queries_are_distributions S s₀ _ n qs' s' h1 out h3 d (by rw [← h5]; exact hd)
    exact ⟨d, rfl, q1, q2⟩
  · rcases graphsep_calls S s₀ (rounded wl) g hg hwl' _ f qs hrun with h | h
    · left
      rw [h]
      rfl
    · by_cases hq : qs = []
      · left
        rw [hq]
        rfl
      right
      rw [List.length_map]
      refine h.trans ?_
      have hop : Spec.openPairs (Miniboosts.predict (K := ℝ)) S ([] : List H) ≤ S.length * S.length := by
        classical
        unfold Spec.openPairs
        refine (Finset.card_filter_le _ _).trans ?_
        rw [Finset.card_product, Finset.card_range]
      by_cases h0 : Spec.openPairs (Miniboosts.predict (K := ℝ)) S ([] : List H) = 0
      · have h1 : (0 : ℝ) ≤ Real.log ((S.length : ℝ) ^ 2) := by
          rcases Nat.eq_zero_or_pos S.length with h2 | h2
          · rw [h2]; simp
          · have : (1 : ℝ) ≤ S.length := by exact_mod_cast h2
            exact Real.log_nonneg (by nlinarith)
        rw [h0]
        have : (0 : ℝ) ≤ Real.log ((S.length : ℝ) ^ 2) / (2 * g) := by positivity
        simpa using this
      · have h1 : Real.log (Spec.openPairs (Miniboosts.predict (K := ℝ)) S ([] : List H) : ℝ) ≤ Real.log ((S.length : ℝ) ^ 2) := by
          refine Real.log_le_log (by exact_mod_cast Nat.pos_of_ne_zero h0) ?_
          rw [_root_.sq]
          exact_mod_cast hop
        gcongr

end GraphSepF

end Miniboosts
