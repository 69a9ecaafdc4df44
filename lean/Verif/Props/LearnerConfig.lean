import Verif.Spec.LearnerConfig
import Verif.Props.Config
import Verif.Props.Bins
import Verif.Props.RegressionTree
import Verif.Props.NeuralNetwork
import Verif.Props.TreeBoost

/-! # C85: configuring a weak learner: every chain of calls on a builder -/

set_option linter.unusedSectionVars false

namespace Miniboosts.Props

open Miniboosts Miniboosts.Spec NN Real

variable {K : Type*} [Field K] [LinearOrder K] [IsStrictOrderedRing K] [FloorRing K]

theorem lastOf_map_some {C α : Type*} (sel : C → Option α) (cs : List C) (d : α) :
    Spec.lastOf (fun c => (sel c).map some) cs (some d) = some (Spec.lastOf sel cs d) := by
  induction cs generalizing d with
  | nil => rfl
  | cons c cs ih => rw [lastOf_cons, lastOf_cons, ← ih]; cases sel c <;> rfl

/-! ## Decision trees -/

theorem get?_collect_isSome {α β : Type*} [DecidableEq α] {l : List (α × β)} (h : (l.map Prod.fst).Nodup) (k : α) :
    (HMap.get? (HMap.collect l) k).isSome ↔ k ∈ l.map Prod.fst := by
  rw [HMap.collect_of_nodup h]
  clear h
  induction l with
  | nil => simp [HMap.get?]
  | cons p l ih =>
    simp only [HMap.get?, List.map_cons, List.mem_cons]
    by_cases hk : p.1 = k
    · simp [hk]
    · simp only [if_neg hk, ih, Ne.symm (a := p.1) (b := k) hk, false_or]

theorem setNbins_isSome {m : List (String × Nat)} {name : String} {n : Nat} (h : (HMap.get? m name).isSome) (k : String) :
    (HMap.get? (HMap.insert m name n) k).isSome ↔ (HMap.get? m k).isSome := by
  rw [HMap.get?_insert]
  by_cases hk : name = k
  · subst hk; simp [h]
  · simp [hk]

/-- C85: a chain of calls on a fresh builder goes through exactly when every depth is positive and every column named in
`set_nbins` exists; then the last depth (default 2), the last criterion (default entropy) and, for every column, the last number of
bins given for it (default: its number of distinct values, at most 255) count. -/
theorem tree_configured {s : Sample K} (hs : SampleOk s) (hr : 0 < s.nSample) (cs : List TreeCall) :
    ((∃ b, configure DecisionTreeBuilder.call (DecisionTreeBuilder.new s) cs = .ok b) ↔
      (∀ d, TreeCall.maxDepth d ∈ cs → 0 < d) ∧ ∀ name n, TreeCall.setNbins name n ∈ cs → ∃ f ∈ s.features, f.name = name) ∧
    ∀ b, configure DecisionTreeBuilder.call (DecisionTreeBuilder.new s) cs = .ok b →
      b.sample = s ∧ b.maxDepth = Spec.lastOf Spec.treeDepth cs 2 ∧ b.criterion = Spec.lastOf Spec.treeCriterion cs .entropy ∧
      ∀ f ∈ s.features, HMap.get? b.nBins f.name = some (Spec.lastOf (Spec.treeBins f.name) cs (min f.distinctValueCount 255)) := by
  have hinit : ∀ k, (HMap.get? (DecisionTreeBuilder.new s).nBins k).isSome ↔ ∃ f ∈ s.features, f.name = k := by
    intro k
    unfold DecisionTreeBuilder.new
    simp only
    have hnd : ((s.features.map (fun f => (f.name, min f.distinctValueCount 255))).map Prod.fst).Nodup := by
      rw [List.map_map]; exact hs.names
    rw [get?_collect_isSome hnd]
    simp
  set I : DecisionTreeBuilder K → Prop := fun b => b.sample = s ∧ ∀ k, (HMap.get? b.nBins k).isSome ↔ ∃ f ∈ s.features, f.name = k with hIdef
  have hI0 : I (DecisionTreeBuilder.new s) := ⟨rfl, hinit⟩
  have hI : ∀ b c b', I b → DecisionTreeBuilder.call b c = .ok b' → I b' := by
    rintro b c b' ⟨h0, h⟩ e
    cases c with
    | maxDepth d =>
      simp only [DecisionTreeBuilder.call, DecisionTreeBuilder.setMaxDepth] at e
      split at e <;> simp only [Except.ok.injEq, reduceCtorEq] at e
      rw [← e]; exact ⟨h0, h⟩
    | criterion c => simp only [DecisionTreeBuilder.call, Except.ok.injEq] at e; rw [← e]; exact ⟨h0, h⟩
    | setNbins name n =>
      simp only [DecisionTreeBuilder.call, DecisionTreeBuilder.setNbins] at e
      cases hg : HMap.get? b.nBins name with
      | none => simp [hg] at e
      | some v =>
        simp only [hg, Except.ok.injEq] at e
        rw [← e]
        exact ⟨h0, fun k => by rw [← h k]; exact setNbins_isSome (by simp [hg]) k⟩
  constructor
  · rw [configure_ok_iff (call := DecisionTreeBuilder.call (K := K)) (I := I)
      (P := fun c => (∀ d, c = .maxDepth d → 0 < d) ∧ ∀ name n, c = .setNbins name n → ∃ f ∈ s.features, f.name = name) ?_ hI cs _ hI0]
    · constructor
      · intro h; exact ⟨fun d hd => (h _ hd).1 d rfl, fun name n hn => (h _ hn).2 name n rfl⟩
      · rintro ⟨h1, h2⟩ c hc; exact ⟨fun d e => h1 d (e ▸ hc), fun name n e => h2 name n (e ▸ hc)⟩
    · rintro b c ⟨-, hb⟩
      cases c with
      | maxDepth d =>
        simp only [DecisionTreeBuilder.call, DecisionTreeBuilder.setMaxDepth, TreeCall.maxDepth.injEq, forall_eq', reduceCtorEq,
          false_implies, implies_true, and_true]
        split <;> simp_all
      | criterion c => simp [DecisionTreeBuilder.call]
      | setNbins name n =>
        simp only [DecisionTreeBuilder.call, DecisionTreeBuilder.setNbins, reduceCtorEq, false_implies, implies_true, true_and,
          TreeCall.setNbins.injEq, and_imp]
        have := hb name
        cases hg : HMap.get? b.nBins name with
        | none => simp only [hg, Option.isSome_none, Bool.false_eq_true, false_iff] at this; simp only [reduceCtorEq, exists_false, false_iff]; exact fun h => this (h name n rfl rfl)
        | some v => simp only [hg, Option.isSome_some, true_iff] at this; simp only [Except.ok.injEq, exists_eq', true_iff]; intro k _ e _; rw [← e]; exact this
  · intro b hb
    refine ⟨(configure_inv hI cs _ b hI0 hb).1, ?_, ?_, ?_⟩
    · exact configure_last (obs := DecisionTreeBuilder.maxDepth) (fun b c b' e => by
        cases c with
        | maxDepth d =>
          simp only [DecisionTreeBuilder.call, DecisionTreeBuilder.setMaxDepth] at e
          split at e <;> simp only [Except.ok.injEq, reduceCtorEq] at e
          rw [← e]; rfl
        | criterion c => simp only [DecisionTreeBuilder.call, Except.ok.injEq] at e; rw [← e]; rfl
        | setNbins name n =>
          simp only [DecisionTreeBuilder.call, DecisionTreeBuilder.setNbins] at e
          split at e <;> simp only [Except.ok.injEq, reduceCtorEq] at e
          rw [← e]; rfl) cs _ b hb
    · exact configure_last (obs := DecisionTreeBuilder.criterion) (fun b c b' e => by
        cases c with
        | maxDepth d =>
          simp only [DecisionTreeBuilder.call, DecisionTreeBuilder.setMaxDepth] at e
          split at e <;> simp only [Except.ok.injEq, reduceCtorEq] at e
          rw [← e]; rfl
        | criterion c => simp only [DecisionTreeBuilder.call, Except.ok.injEq] at e; rw [← e]; rfl
        | setNbins name n =>
          simp only [DecisionTreeBuilder.call, DecisionTreeBuilder.setNbins] at e
          split at e <;> simp only [Except.ok.injEq, reduceCtorEq] at e
          rw [← e]; rfl) cs _ b hb
    · intro f hf
      have h := configure_last (call := DecisionTreeBuilder.call (K := K)) (obs := fun b => HMap.get? b.nBins f.name)
        (sel := fun c => (Spec.treeBins f.name c).map some) (fun b c b' e => by
        cases c with
        | maxDepth d =>
          simp only [DecisionTreeBuilder.call, DecisionTreeBuilder.setMaxDepth] at e
          split at e <;> simp only [Except.ok.injEq, reduceCtorEq] at e
          rw [← e]; rfl
        | criterion c => simp only [DecisionTreeBuilder.call, Except.ok.injEq] at e; rw [← e]; rfl
        | setNbins name n =>
          simp only [DecisionTreeBuilder.call, DecisionTreeBuilder.setNbins] at e
          split at e <;> simp only [Except.ok.injEq, reduceCtorEq] at e
          rw [← e]
          simp only [HMap.get?_insert, Spec.treeBins]
          split <;> rfl) cs _ b hb
      rw [h, (new_builder_bins hs hr hf).1]
      exact lastOf_map_some _ _ _

/-- C85, end to end: after every such chain, building succeeds when the final numbers of bins are positive and no column is cut into
two or more bins narrower than `1e-9`; the learner has the last depth and criterion, cuts every column into the last number of bins
given for it, and trains a tree for every weighting of the rows with some positive weight. -/
theorem tree_configured_trains {env : TreeEnv K} (h0 : env.fmin < 0 ∧ 0 < env.fmax) (horder : ∀ m, (env.order m).Perm m) {s : Sample K}
    (hs : SampleOk s) (hfe : s.features ≠ []) (hr : 0 < s.nSample)
    (hb : ∀ f ∈ s.features, ∀ v, ValueOf s.nSample f v → env.fmin + 1 / 1000 < v ∧ v + 1 / 1000 < env.fmax)
    (cs : List TreeCall) (hd : ∀ d, TreeCall.maxDepth d ∈ cs → 0 < d)
    (hname : ∀ name n, TreeCall.setNbins name n ∈ cs → ∃ f ∈ s.features, f.name = name)
    (hw : ∀ f ∈ s.features, ∀ n, n = Spec.lastOf (Spec.treeBins f.name) cs (min f.distinctValueCount 255) → 0 < n ∧
      ∀ lo hi, IsRange s.nSample f lo hi → (n = 1 ∨ 1 / 10 ^ 9 ≤ binWidth lo hi n)) :
    ∃ b t, configure DecisionTreeBuilder.call (DecisionTreeBuilder.new s) cs = .ok b ∧ b.build env = .ok t ∧
      t.maxDepth = Spec.lastOf Spec.treeDepth cs 2 ∧ t.criterion = Spec.lastOf Spec.treeCriterion cs .entropy ∧
      (∀ f ∈ s.features, ∃ bins, HMap.get? t.bins f.name = some bins ∧
        bins.length = Spec.lastOf (Spec.treeBins f.name) cs (min f.distinctValueCount 255) ∧ Tiles env.fmin bins env.fmax) ∧
      ∀ dist, dist.length = s.nSample → (∃ i < s.nSample, 0 < dist.getD i 0) →
        TrainOk env t s dist ∧ ∃ tree, t.produce env s dist = .ok tree := by
  obtain ⟨b, e⟩ := (tree_configured hs hr cs).1.2 ⟨hd, hname⟩
  obtain ⟨b1, b2, b3, b4⟩ := (tree_configured hs hr cs).2 b e
  obtain ⟨t, t1, t2, t3, t4⟩ := build_ok h0 b (by rw [b1]; exact hs) (by rw [b1]; exact hr) (by rw [b1]; exact hb) (by
    rw [b1]
    intro f hf
    obtain ⟨lo, hi, hlo⟩ := exists_range hr (hs.columns f hf)
    obtain ⟨n1, n2⟩ := hw f hf _ rfl
    exact ⟨_, lo, hi, b4 f hf, n1, hlo, n2 lo hi hlo⟩)
  rw [b1] at t4
  have hbins : ∀ f ∈ s.features, ∃ bins, HMap.get? t.bins f.name = some bins ∧
      bins.length = Spec.lastOf (Spec.treeBins f.name) cs (min f.distinctValueCount 255) ∧ Tiles env.fmin bins env.fmax := by
    intro f hf
    obtain ⟨bins, q1, q2, q3⟩ := t4 f hf
    rw [b4 f hf, Option.some.injEq] at q2
    exact ⟨bins, q1, q2, q3⟩
  refine ⟨b, t, e, t1, by rw [t3, b2], by rw [t2, b3], hbins, ?_⟩
  intro dist hdl hp
  have hok : TrainOk env t s dist := by
    refine ⟨h0.1.trans h0.2, horder, hs, hfe, hdl, hp, ?_, ?_⟩
    · intro f hf
      obtain ⟨bins, q1, _, q2⟩ := hbins f hf
      exact ⟨bins, q1, q2⟩
    · intro f hf i hi
      have := hb f hf (f.val i) ⟨i, hi, Feature.index_val (hs.columns f hf) hi⟩
      have he : (0 : K) < 1 / 1000 := by positivity
      constructor <;> linarith [this.1, this.2]
  exact ⟨hok, tree_training_succeeds hok⟩

/-! ## Regression trees -/

/-- C85 for `RegressionTreeBuilder`: defaults depth 2, `λ = 0.01`, no loss. -/
theorem reg_configured {s : Sample K} (hs : SampleOk s) (hr : 0 < s.nSample) (cs : List (RegCall K)) :
    ((∃ b, configure RegressionTreeBuilder.call (RegressionTreeBuilder.new s) cs = .ok b) ↔
      (∀ d, RegCall.maxDepth d ∈ cs → 0 < d) ∧ ∀ name n, RegCall.setNbins name n ∈ cs → ∃ f ∈ s.features, f.name = name) ∧
    ∀ b, configure RegressionTreeBuilder.call (RegressionTreeBuilder.new s) cs = .ok b →
      b.sample = s ∧ b.maxDepth = Spec.lastOf Spec.regDepth cs 2 ∧ b.lambdaL2 = Spec.lastOf Spec.regLambda cs (1 / 100) ∧
      b.loss = Spec.lastOf Spec.regLoss cs none ∧
      ∀ f ∈ s.features, HMap.get? b.nBins f.name = some (Spec.lastOf (Spec.regBins f.name) cs (min f.distinctValueCount 255)) := by
  have hinit : ∀ k, (HMap.get? (RegressionTreeBuilder.new s).nBins k).isSome ↔ ∃ f ∈ s.features, f.name = k := by
    intro k
    unfold RegressionTreeBuilder.new
    simp only
    have hnd : ((s.features.map (fun f => (f.name, min f.distinctValueCount 255))).map Prod.fst).Nodup := by
      rw [List.map_map]; exact hs.names
    rw [get?_collect_isSome hnd]
    simp
  set I : RegressionTreeBuilder K → Prop := fun b => b.sample = s ∧ ∀ k, (HMap.get? b.nBins k).isSome ↔ ∃ f ∈ s.features, f.name = k with hIdef
  have hI0 : I (RegressionTreeBuilder.new s) := ⟨rfl, hinit⟩
  have hI : ∀ b c b', I b → RegressionTreeBuilder.call b c = .ok b' → I b' := by
    rintro b c b' ⟨h0, h⟩ e
    cases c with
    | maxDepth d =>
      simp only [RegressionTreeBuilder.call, RegressionTreeBuilder.setMaxDepth] at e
      split at e <;> simp only [Except.ok.injEq, reduceCtorEq] at e
      rw [← e]; exact ⟨h0, h⟩
    | loss c => simp only [RegressionTreeBuilder.call, Except.ok.injEq] at e; rw [← e]; exact ⟨h0, h⟩
    | lambda c => simp only [RegressionTreeBuilder.call, Except.ok.injEq] at e; rw [← e]; exact ⟨h0, h⟩
    | setNbins name n =>
      simp only [RegressionTreeBuilder.call, RegressionTreeBuilder.setNbins] at e
      cases hg : HMap.get? b.nBins name with
      | none => simp [hg] at e
      | some v =>
        simp only [hg, Except.ok.injEq] at e
        rw [← e]
        exact ⟨h0, fun k => by rw [← h k]; exact setNbins_isSome (by simp [hg]) k⟩
  constructor
  · rw [configure_ok_iff (call := RegressionTreeBuilder.call (K := K)) (I := I)
      (P := fun c => (∀ d, c = .maxDepth d → 0 < d) ∧ ∀ name n, c = .setNbins name n → ∃ f ∈ s.features, f.name = name) ?_ hI cs _ hI0]
    · constructor
      · intro h; exact ⟨fun d hd => (h _ hd).1 d rfl, fun name n hn => (h _ hn).2 name n rfl⟩
      · rintro ⟨h1, h2⟩ c hc; exact ⟨fun d e => h1 d (e ▸ hc), fun name n e => h2 name n (e ▸ hc)⟩
    · rintro b c ⟨-, hb⟩
      cases c with
      | maxDepth d =>
        simp only [RegressionTreeBuilder.call, RegressionTreeBuilder.setMaxDepth, RegCall.maxDepth.injEq, forall_eq', reduceCtorEq,
          false_implies, implies_true, and_true]
        split <;> simp_all
      | loss c => simp [RegressionTreeBuilder.call]
      | lambda c => simp [RegressionTreeBuilder.call]
      | setNbins name n =>
        simp only [RegressionTreeBuilder.call, RegressionTreeBuilder.setNbins, reduceCtorEq, false_implies, implies_true, true_and,
          RegCall.setNbins.injEq, and_imp]
        have := hb name
        cases hg : HMap.get? b.nBins name with
        | none => simp only [hg, Option.isSome_none, Bool.false_eq_true, false_iff] at this; simp only [reduceCtorEq, exists_false, false_iff]; exact fun h => this (h name n rfl rfl)
        | some v => simp only [hg, Option.isSome_some, true_iff] at this; simp only [Except.ok.injEq, exists_eq', true_iff]; intro k _ e _; rw [← e]; exact this
  · intro b hb
    refine ⟨(configure_inv hI cs _ b hI0 hb).1, ?_, ?_, ?_, ?_⟩
    · exact configure_last (obs := RegressionTreeBuilder.maxDepth) (fun b c b' e => by
        cases c with
        | maxDepth d =>
          simp only [RegressionTreeBuilder.call, RegressionTreeBuilder.setMaxDepth] at e
          split at e <;> simp only [Except.ok.injEq, reduceCtorEq] at e
          rw [← e]; rfl
        | loss c => simp only [RegressionTreeBuilder.call, Except.ok.injEq] at e; rw [← e]; rfl
        | lambda c => simp only [RegressionTreeBuilder.call, Except.ok.injEq] at e; rw [← e]; rfl
        | setNbins name n =>
          simp only [RegressionTreeBuilder.call, RegressionTreeBuilder.setNbins] at e
          split at e <;> simp only [Except.ok.injEq, reduceCtorEq] at e
          rw [← e]; rfl) cs _ b hb
    · exact configure_last (obs := RegressionTreeBuilder.lambdaL2) (fun b c b' e => by
        cases c with
        | maxDepth d =>
          simp only [RegressionTreeBuilder.call, RegressionTreeBuilder.setMaxDepth] at e
          split at e <;> simp only [Except.ok.injEq, reduceCtorEq] at e
          rw [← e]; rfl
        | loss c => simp only [RegressionTreeBuilder.call, Except.ok.injEq] at e; rw [← e]; rfl
        | lambda c => simp only [RegressionTreeBuilder.call, Except.ok.injEq] at e; rw [← e]; rfl
        | setNbins name n =>
          simp only [RegressionTreeBuilder.call, RegressionTreeBuilder.setNbins] at e
          split at e <;> simp only [Except.ok.injEq, reduceCtorEq] at e
          rw [← e]; rfl) cs _ b hb
    · exact configure_last (obs := RegressionTreeBuilder.loss) (fun b c b' e => by
        cases c with
        | maxDepth d =>
          simp only [RegressionTreeBuilder.call, RegressionTreeBuilder.setMaxDepth] at e
          split at e <;> simp only [Except.ok.injEq, reduceCtorEq] at e
          rw [← e]; rfl
        | loss c => simp only [RegressionTreeBuilder.call, Except.ok.injEq] at e; rw [← e]; rfl
        | lambda c => simp only [RegressionTreeBuilder.call, Except.ok.injEq] at e; rw [← e]; rfl
        | setNbins name n =>
          simp only [RegressionTreeBuilder.call, RegressionTreeBuilder.setNbins] at e
          split at e <;> simp only [Except.ok.injEq, reduceCtorEq] at e
          rw [← e]; rfl) cs _ b hb
    · intro f hf
      have h := configure_last (call := RegressionTreeBuilder.call (K := K)) (obs := fun b => HMap.get? b.nBins f.name)
        (sel := fun c => (Spec.regBins f.name c).map some) (fun b c b' e => by
        cases c with
        | maxDepth d =>
          simp only [RegressionTreeBuilder.call, RegressionTreeBuilder.setMaxDepth] at e
          split at e <;> simp only [Except.ok.injEq, reduceCtorEq] at e
          rw [← e]; rfl
        | loss c => simp only [RegressionTreeBuilder.call, Except.ok.injEq] at e; rw [← e]; rfl
        | lambda c => simp only [RegressionTreeBuilder.call, Except.ok.injEq] at e; rw [← e]; rfl
        | setNbins name n =>
          simp only [RegressionTreeBuilder.call, RegressionTreeBuilder.setNbins] at e
          split at e <;> simp only [Except.ok.injEq, reduceCtorEq] at e
          rw [← e]
          simp only [HMap.get?_insert, Spec.regBins]
          split <;> rfl) cs _ b hb
      rw [h, show HMap.get? (RegressionTreeBuilder.new s).nBins f.name = _ from (new_builder_bins hs hr hf).1]
      exact lastOf_map_some _ _ _

/-- C85, end to end: after every chain in which a loss is given and the last `λ` is positive, building succeeds (bins as for decision
trees) and the learner trains a tree with at most `depth - 1` tests per path for every prediction vector of the right length. -/
theorem reg_configured_trains {env : TreeEnv K} (h0 : env.fmin < 0 ∧ 0 < env.fmax) {s : Sample K}
    (hs : SampleOk s) (hfe : s.features ≠ []) (hr : 0 < s.nSample)
    (hb : ∀ f ∈ s.features, ∀ v, ValueOf s.nSample f v → env.fmin + 1 / 1000 < v ∧ v + 1 / 1000 < env.fmax)
    (cs : List (RegCall K)) (hd : ∀ d, RegCall.maxDepth d ∈ cs → 0 < d)
    (hname : ∀ name n, RegCall.setNbins name n ∈ cs → ∃ f ∈ s.features, f.name = name)
    (hw : ∀ f ∈ s.features, ∀ n, n = Spec.lastOf (Spec.regBins f.name) cs (min f.distinctValueCount 255) → 0 < n ∧
      ∀ lo hi, IsRange s.nSample f lo hi → (n = 1 ∨ 1 / 10 ^ 9 ≤ binWidth lo hi n))
    (l : GBMLoss) (hl : Spec.lastOf Spec.regLoss cs none = some l.toLossFn) (hlam : 0 < Spec.lastOf Spec.regLambda cs (1 / 100)) :
    ∃ b t, configure RegressionTreeBuilder.call (RegressionTreeBuilder.new s) cs = .ok b ∧ b.build env = .ok t ∧
      t.lambdaL2 = Spec.lastOf Spec.regLambda cs (1 / 100) ∧ t.maxDepth = Spec.lastOf Spec.regDepth cs 2 ∧
      (∀ f ∈ s.features, ∀ bins, HMap.get? t.bins f.name = some bins →
        bins.length = Spec.lastOf (Spec.regBins f.name) cs (min f.distinctValueCount 255)) ∧
      ∀ pred, pred.length = s.nSample → ∃ tree, t.produce env s pred = .ok tree ∧
        ∀ s' i, (path s' i tree).length ≤ Spec.lastOf Spec.regDepth cs 2 - 1 := by
  obtain ⟨b, e⟩ := (reg_configured hs hr cs).1.2 ⟨hd, hname⟩
  obtain ⟨b1, b2, b3, b4, b5⟩ := (reg_configured hs hr cs).2 b e
  obtain ⟨t, t1, t2, t3, t4, t5, t6⟩ := reg_build_ok h0 b (by rw [b1]; exact hs) (by rw [b1]; exact hr) (by rw [b1]; exact hfe)
    (by rw [b4, hl]) (by rw [b1]; exact hb) (by
    rw [b1]
    intro f hf
    obtain ⟨lo, hi, hlo⟩ := exists_range hr (hs.columns f hf)
    obtain ⟨n1, n2⟩ := hw f hf _ rfl
    exact ⟨_, lo, hi, b5 f hf, n1, hlo, n2 lo hi hlo⟩)
  rw [b1] at t5 t6
  refine ⟨b, t, e, t1, by rw [t3, b3], by rw [t4, b2], ?_, ?_⟩
  · intro f hf bins hbi
    have := t6 f hf bins hbi
    rw [b5 f hf, Option.some.injEq] at this
    exact this
  · intro pred hp
    obtain ⟨tree, ht⟩ := reg_training_succeeds_losses (t := t) (env := env) t5 hr l t2 (Or.inl (by rw [t3, b3]; exact hlam)) hp
    refine ⟨tree, ht, fun s' i => ?_⟩
    have hdep : t.maxDepth = Spec.lastOf Spec.regDepth cs 2 := by rw [t4, b2]
    rw [← hdep]
    cases l with
    | L1 => exact reg_tree_depth hs t5.size (l1_derivs hs t2 hp) ht s' i
    | L2 => exact reg_tree_depth hs t5.size (l2_derivs hs t2 hp) ht s' i

/-! ## Neural networks -/

/-- C85 for `NeuralNetwork`: no chain panics; the layers are the appended ones in order, and the last number of epochs (default 100), of
iterations (200), mini-batch size (default from the sample size) and task (binary) count.  The learning rate and loss cannot be set. -/
theorem nn_configured (n d : Nat) (cs : List NNCall) :
    ∃ nn, configure NeuralNetwork.call (NeuralNetwork.init n d) cs = .ok nn ∧
      nn.dimensions = d :: (cs.filterMap Spec.nnLayer).map Prod.fst ∧ nn.activations = (cs.filterMap Spec.nnLayer).map Prod.snd ∧
      nn.nEpoch = Spec.lastOf Spec.nnEpoch cs 100 ∧ nn.nIter = Spec.lastOf Spec.nnIter cs 200 ∧
      nn.minibatchSize = Spec.lastOf Spec.nnMinibatch cs (NeuralNetwork.init n d).minibatchSize ∧
      nn.task = Spec.lastOf Spec.nnTask cs .binary ∧ nn.learningRate = 1 / 1000 ∧ nn.lossFunc = .crossEntropy := by
  suffices h : ∀ nn0 : NeuralNetwork, ∃ nn, configure NeuralNetwork.call nn0 cs = .ok nn ∧
      nn.dimensions = nn0.dimensions ++ (cs.filterMap Spec.nnLayer).map Prod.fst ∧
      nn.activations = nn0.activations ++ (cs.filterMap Spec.nnLayer).map Prod.snd ∧
      nn.nEpoch = Spec.lastOf Spec.nnEpoch cs nn0.nEpoch ∧ nn.nIter = Spec.lastOf Spec.nnIter cs nn0.nIter ∧
      nn.minibatchSize = Spec.lastOf Spec.nnMinibatch cs nn0.minibatchSize ∧
      nn.task = Spec.lastOf Spec.nnTask cs nn0.task ∧ nn.learningRate = nn0.learningRate ∧ nn.lossFunc = nn0.lossFunc from h _
  induction cs with
  | nil => intro nn0; exact ⟨nn0, rfl, by simp, by simp, rfl, rfl, rfl, rfl, rfl, rfl⟩
  | cons c cs ih =>
    intro nn0
    simp only [lastOf_cons]
    cases c with
    | append dim a =>
      obtain ⟨nn, h⟩ := ih (nn0.append dim a)
      refine ⟨nn, h.1, ?_, ?_, h.2.2.2.1, h.2.2.2.2.1, h.2.2.2.2.2.1, h.2.2.2.2.2.2.1, h.2.2.2.2.2.2.2.1, h.2.2.2.2.2.2.2.2⟩
      · rw [h.2.1]; simp [NeuralNetwork.append, Spec.nnLayer]
      · rw [h.2.2.1]; simp [NeuralNetwork.append, Spec.nnLayer]
    | epoch m => exact ih (nn0.setEpoch m)
    | iter m => exact ih (nn0.setIter m)
    | minibatch m => exact ih (nn0.setMinibatch m)
    | task t => exact ih (nn0.setTask t)

/-- A regression network with one output answers with that output, the composition of its layers; with several outputs or
another task it panics. -/
theorem nn_regression_predict (f : NNHypothesis) (sample : Sample ℝ) (i : Nat) {x : List ℝ} {y : ℝ}
    (hx : sample.at' i = .ok (x, y)) (hd : Shaped f.layers x.length) :
    (f.task = .regression → outDim f.layers x.length = 1 → ∃ a, f.predictReg sample i = .ok a ∧ netFn f.layers x = [a]) ∧
    (f.task ≠ .regression ∨ outDim f.layers x.length ≠ 1 → f.predictReg sample i = .error .assertion) := by
  obtain ⟨h2, h3⟩ := nn_eval_is_composition f x hd
  unfold NNHypothesis.predictReg
  simp only [hx, h2]
  constructor
  · intro ht h1
    rw [h1, List.length_eq_one_iff] at h3
    obtain ⟨a, ha⟩ := h3
    exact ⟨a, by simp [ht, ha], ha⟩
  · intro h
    cases ht : f.task with
    | binary => rfl
    | multiClass n => rfl
    | regression =>
      rcases h with h | h
      · exact absurd ht h
      · rw [← h3] at h
        match hq : netFn f.layers x, h with
        | [], _ => rfl
        | [a], h => simp at h
        | _ :: _ :: _, _ => rfl

/-- C85, end to end: a chain with at least one layer, all of positive width, gives a learner that returns a network of the configured
widths, activations and task for every sample whose labels fit the last width. -/
theorem nn_configured_produce (m d n : Nat) (cs : List NNCall) (hne : cs.filterMap Spec.nnLayer ≠ [])
    (hpos : ∀ p ∈ cs.filterMap Spec.nnLayer, 0 < p.1) (noise : Nat → Nat → Nat → ℝ) (noiseBias : Nat → Nat → ℝ)
    (draws : Nat → Option (List Nat)) (sample : Sample ℝ)
    (hrow : ∀ i < n, ∃ x y v, sample.at' i = .ok (x, y) ∧ x.length = d ∧ Encodes y ((cs.filterMap Spec.nnLayer).getLast hne).1 v)
    (hdraw : ∀ e, ∃ b, draws e = some b ∧ b ≠ [] ∧ ∀ i ∈ b, i < n) :
    ∃ nn f, configure NeuralNetwork.call (NeuralNetwork.init m d) cs = .ok nn ∧ nn.produce noise noiseBias draws sample = .ok f ∧
      f.task = Spec.lastOf Spec.nnTask cs .binary ∧ Shaped f.layers d ∧
      outDim f.layers d = ((cs.filterMap Spec.nnLayer).getLast hne).1 ∧
      f.layers.map (fun l => l.activation) = (cs.filterMap Spec.nnLayer).map Prod.snd := by
  obtain ⟨nn, h1, h2, h3, h4, h5, h6, h7, h8, h9⟩ := nn_configured m d cs
  have hne' : (cs.filterMap Spec.nnLayer).map Prod.fst ≠ [] := by simpa using hne
  have hlast : ((cs.filterMap Spec.nnLayer).map Prod.fst).getLast hne' = ((cs.filterMap Spec.nnLayer).getLast hne).1 := by
    rw [List.getLast_map]
  obtain ⟨f, f1, f2, f3, f4, f5⟩ := nn_produce_ok nn noise noiseBias draws sample d n _ h2 hne' (by rw [h3]; simp) (by
    intro q hq
    obtain ⟨p, hp, rfl⟩ := List.mem_map.1 hq
    exact hpos p hp) (by rw [hlast]; exact hrow) hdraw
  exact ⟨nn, f, h1, f1, by rw [f2, h7], f3, by rw [f4, hlast], by rw [f5, h3]⟩

/-! ## The hypotheses are met -/

/-- A chain with repeated and interleaved calls on the example sample. -/
example : ∃ b, configure DecisionTreeBuilder.call (DecisionTreeBuilder.new exTreeSample)
    [.maxDepth 7, .setNbins "x" 9, .criterion .gini, .maxDepth 1, .setNbins "x" 3] = .ok b ∧ b.maxDepth = 1 ∧ b.criterion = .gini ∧
    HMap.get? b.nBins "x" = some 3 := by
  exact ⟨_, rfl, rfl, rfl, by decide +kernel⟩

/-- A misspelt column name. -/
example : configure DecisionTreeBuilder.call (DecisionTreeBuilder.new exTreeSample) [.maxDepth 7, .setNbins "y" 9] = .error .assertion := rfl

/-- A network from a chain whose calls are interleaved with the layers. -/
example : ∃ nn, configure NeuralNetwork.call (NeuralNetwork.init 10 3)
    [.epoch 7, .append 4 (.reLu 1), .iter 5, .append 2 (.softMax 1), .epoch 9, .task (.multiClass 2)] = .ok nn ∧ nn.dimensions = [3, 4, 2] ∧
    nn.activations = [.reLu 1, .softMax 1] ∧ nn.nEpoch = 9 ∧ nn.nIter = 5 ∧ nn.task = .multiClass 2 :=
  ⟨_, rfl, rfl, rfl, rfl, rfl, rfl⟩

end Miniboosts.Props
