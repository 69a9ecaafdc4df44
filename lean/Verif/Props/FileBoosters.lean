import Verif.Props.FileBoost
import Verif.Props.TreeBoosters

/-! # C106: from a file to a classifier, with every booster that has a guarantee -/

namespace Miniboosts.Props

open Miniboosts Real Spec

variable {env : TreeEnv ℝ} {s : Sample ℝ}

/-- `LearnableFile parseIx parse r ys θ`: the reader `r` is pointed at a csv file (with header and target column) or an svmlight file
whose cells are 0/1, whose labels are `ys`, ±1 and both present, and a vote of whose columns has margin `θ` on every row. -/
inductive LearnableFile (parseIx : List Char → Option Nat) (parse : List Char → Option ℝ) : SampleReader → List ℝ → ℝ → Prop
  | csv {names : List String} {t : String} {text : List (List (List Char))} {vals : List (List ℝ)} {b θ : ℝ} {w : String → ℝ}
      (comma : ∀ nm ∈ names, ',' ∉ nm.toList) (nodup : names.Nodup) (target : t ∈ names) (columns : 2 ≤ names.length)
      (table : IsTable parse names.length text vals) (vote : VoteTable names t vals b w θ) :
      LearnableFile parseIx parse
        { file := some (some "csv", csvLine (names.map String.toList) :: text.map csvLine), hasHeader := true, target := some t }
        (vals.map fun row => cell names row t) θ
  | svmlight {ext : Option String} {texts : List (List Char × List (List Char × List Char))} {rows : List (ℝ × List (Nat × ℝ))}
      {hasHeader : Bool} {target : Option String} {I : List Nat} {b θ : ℝ} {w : Nat → ℝ} (extension : ext ≠ some "csv")
      (lines : List.Forall₂ (IsSvmRow parseIx parse) texts rows) (nodup : ∀ row ∈ rows, (row.2.map Prod.fst).Nodup)
      (vote : VoteRows rows I b w θ) :
      LearnableFile parseIx parse
        { file := some (ext, texts.map (fun t => svmLine t.1 t.2)), hasHeader := hasHeader, target := target }
        (rows.map Prod.fst) θ

theorem learnableFile_reads {parseIx : List Char → Option Nat} {parse : List Char → Option ℝ} {r : SampleReader} {ys : List ℝ} {θ : ℝ}
    (h : LearnableFile parseIx parse r ys θ) :
    ∃ s, SampleReader.read parseIx parse r = .ok s ∧ s.nSample = ys.length ∧ (∀ i < s.nSample, s.target.getD i 0 = ys.getD i 0) ∧
      BoolSample s θ := by
  cases h with
  | csv h1 h2 h3 h4 h5 h6 =>
    obtain ⟨s, e1, e2, e3, e4⟩ := csv_file_bool parseIx parse h1 h2 h3 h4 h5 h6
    refine ⟨s, e1, by rw [e2, List.length_map], fun i hi => ?_, e4⟩
    rw [e2] at hi
    rw [e3 i hi, List.getD_eq_getElem?_getD, List.getElem?_map, List.getElem?_eq_getElem hi]; rfl
  | svmlight h1 h2 h3 h4 =>
    obtain ⟨s, e1, e2, e3, e4⟩ := svmlight_file_bool parseIx parse h1 h2 h3 _ _ h4
    refine ⟨s, e1, by rw [e2, List.length_map], fun i hi => ?_, e4⟩
    rw [e2] at hi
    rw [e3 i hi, List.getD_eq_getElem?_getD, List.getElem?_map, List.getElem?_eq_getElem hi]; rfl

theorem boolSample_rows (h : BoolSample s θ) : 2 ≤ s.nSample := by
  rw [← h.ok.labels]
  obtain ⟨i, hi, ei⟩ := List.getElem_of_mem h.both.1
  obtain ⟨j, hj, ej⟩ := List.getElem_of_mem h.both.2
  have : i ≠ j := by
    rintro rfl
    rw [ei] at ej; norm_num at ej
  omega

/-- A positive margin is a correct prediction. -/
theorem predict_of_margin {H X : Type*} [Classifier H X ℝ] {f : H} {x : X} {y : ℝ} (hy : y = 1 ∨ y = -1) (h : 0 < y * conf f x) :
    ((predict (K := ℝ) f x : Int) : ℝ) = y := by
  unfold predict
  rcases hy with rfl | rfl
  · rw [if_pos (by linarith)]; norm_num
  · rw [if_neg (by push Not; linarith)]; norm_num

/-- Soft margin at `ν = 1` is the margin of every row. -/
theorem softMargin_rows {X : Type*} {f : X → ℝ} {S : List (X × ℝ)} {ρ : ℝ} (h : SoftMarginGe S 1 f ρ) :
    ∀ e ∈ S, ρ ≤ e.2 * f e.1 := by
  intro e he
  obtain ⟨i, hi, rfl⟩ := List.getElem_of_mem he
  obtain ⟨h1, h2⟩ := LP.indicator_prob (K := ℝ) S.length i hi
  have h3 := h _ h1 ⟨fun p hp => ⟨h2.1 p hp, by
    rw [div_one, ← h2.2]; exact List.single_le_sum h2.1 p hp⟩, h2.2⟩
  rwa [LP.edge_indicator S i _ (List.getElem?_eq_getElem hi)] at h3

/-- What a file-to-classifier theorem promises: the file is read, trees of the criterion and depth are built, the booster is made from
the sample (`start`), its run returns, every query was answered by a tree (the weak learner did not panic), and the hypothesis predicts
the label of every row of the file. -/
def LearnsFile (env : TreeEnv ℝ) (parseIx : List Char → Option Nat) (parse : List Char → Option ℝ) (r : SampleReader) (ys : List ℝ)
    (cr : Criterion) (depth : Nat) {σ Hyp : Type*} [Classifier Hyp (Sample ℝ × Nat) ℝ]
    (start : Examples (Sample ℝ × Nat) ℝ → Except Panic σ) (booster : Examples (Sample ℝ × Nat) ℝ → Booster σ ℝ (TreeNode ℝ) Hyp) : Prop :=
  ∃ s, SampleReader.read parseIx parse r = .ok s ∧ s.nSample = ys.length ∧
    ∃ bd tr, ((DecisionTreeBuilder.new s).setCriterion cr).setMaxDepth depth = .ok bd ∧ bd.build env = .ok tr ∧
      ∃ s₀, start s.rows = .ok s₀ ∧
        ∃ n f qs, (booster s.rows).run (treeLearner env tr s) n s₀ = some (.ok (f, qs)) ∧ AllAnswered env tr s qs ∧
          ∀ i < ys.length, ((predict (K := ℝ) f (s, i) : Int) : ℝ) = ys.getD i 0

variable {parseIx : List Char → Option Nat} {parse : List Char → Option ℝ} {r : SampleReader} {ys : List ℝ} {θ : ℝ}

theorem learns_of {σ Hyp : Type*} [Classifier Hyp (Sample ℝ × Nat) ℝ] {start : Examples (Sample ℝ × Nat) ℝ → Except Panic σ}
    {booster : Examples (Sample ℝ × Nat) ℝ → Booster σ ℝ (TreeNode ℝ) Hyp} (h : LearnableFile parseIx parse r ys θ)
    (h0 : env.fmin + 1 / 1000 < 0 ∧ 1 + 1 / 1000 < env.fmax) (horder : ∀ m, (env.order m).Perm m) (cr : Criterion)
    (hln : cr = .entropy → env.ln = log) {depth : Nat} (hdep : 0 < depth)
    (key : ∀ s tr, TreesOk env tr s → tr.criterion = cr → s.isValidBinaryInstance = .ok () → StumpMargin s tr.bins θ → 2 ≤ s.nSample →
      s.nSample = ys.length →
      ∃ s₀, start s.rows = .ok s₀ ∧
        ∃ n f qs, (booster s.rows).run (treeLearner env tr s) n s₀ = some (.ok (f, qs)) ∧ AllAnswered env tr s qs ∧
          ∀ i < s.nSample, ((predict (K := ℝ) f (s, i) : Int) : ℝ) = s.target.getD i 0) :
    LearnsFile env parseIx parse r ys cr depth start booster := by
  obtain ⟨s, e1, e2, e3, e4⟩ := learnableFile_reads h
  obtain ⟨b, t, b1, b2, b3, b4, b5, b6⟩ := boolSample_ready h0 horder e4 cr hln hdep
  obtain ⟨s₀, k0, n, f, qs, k1, k2, k3⟩ := key s t b4 b3 b6 b5 (boolSample_rows e4) e2
  exact ⟨s, e1, e2, b, t, b1, b2, s₀, k0, n, f, qs, k1, k2, fun i hi => by rw [← e2] at hi; rw [k3 i hi, e3 i hi]⟩

theorem target_pm (ok : TreesOk env t s) {i : Nat} (hi : i < s.nSample) : s.target.getD i 0 = 1 ∨ s.target.getD i 0 = -1 :=
  rows_pmLabels ok ((s, i), s.target.getD i 0) (List.mem_map.2 ⟨i, List.mem_range.2 hi, rfl⟩)

/-- C106 for GraphSepBoost. -/
theorem file_graphsep (h : LearnableFile parseIx parse r ys θ) (hθ : 0 < θ)
    (h0 : env.fmin + 1 / 1000 < 0 ∧ 1 + 1 / 1000 < env.fmax) (horder : ∀ m, (env.order m).Perm m) (cr : Criterion)
    (hln : cr = .entropy → env.ln = log) {depth : Nat} (hdep : 0 < depth) :
    LearnsFile env parseIx parse r ys cr depth (fun _ => .ok GraphSepBoost.init) GraphSepBoost.booster :=
  learns_of h h0 horder cr hln hdep fun s tr ok _ hvalid hv _ _ => by
    obtain ⟨n, f, qs, e1, e2, e3⟩ := graphsep_trees ok hvalid hθ hv GraphSepBoost.init
    exact ⟨_, rfl, n, f, qs, e1, e3, e2⟩

/-- C106 for AdaBoostV, with a tolerance below the trees' edge and enough rounds. -/
theorem file_adaboostv (h : LearnableFile parseIx parse r ys θ) (hθ : 0 < θ)
    (h0 : env.fmin + 1 / 1000 < 0 ∧ 1 + 1 / 1000 < env.fmax) (horder : ∀ m, (env.order m).Perm m) (cr : Criterion)
    (hln : cr = .entropy → env.ln = log) {depth : Nat} (hdep : 0 < depth) {τ : ℝ} (hτ : 0 < τ) (hτ' : τ < treeFactor cr * θ ^ 2)
    {rounds : Nat} (hr : 2 * log ys.length / τ ^ 2 ≤ rounds) :
    LearnsFile env parseIx parse r ys cr depth (fun S => .ok (((AdaBoostV.init S).setTolerance τ).setForceQuitAt rounds))
      AdaBoostV.booster :=
  learns_of h h0 horder cr hln hdep fun s tr ok hc hvalid hv h2 hl => by
    have h2r : (2 : ℝ) ≤ s.nSample := by exact_mod_cast h2
    have hlog : 0 < log (s.nSample : ℝ) := log_pos (by linarith)
    rw [← hl, div_le_iff₀ (by positivity)] at hr
    have hpos : 0 < rounds := by
      rcases Nat.eq_zero_or_pos rounds with rfl | h
      · push_cast at hr; linarith
      · exact h
    obtain ⟨f, qs, e1, e2, e3⟩ := adaboostv_trees ok hvalid hθ hv (((AdaBoostV.init s.rows).setTolerance τ).setForceQuitAt rounds) hτ
      (by rw [hc]; show τ < _; linarith) hpos
      (by show 2 * log s.nSample ≤ τ ^ 2 * rounds; linarith)
    refine ⟨_, rfl, _, f, qs, e1, e3, fun i hi => predict_of_margin (target_pm ok hi) (lt_of_lt_of_le ?_ (e2 i hi))⟩
    rw [hc]; show 0 < _ - τ; linarith

/-- C106 for LPBoost, with a correct solver, any admissible `ν` and a tolerance below the trees' edge. -/
theorem file_lpboost (h : LearnableFile parseIx parse r ys θ) (hθ : 0 < θ)
    (h0 : env.fmin + 1 / 1000 < 0 ∧ 1 + 1 / 1000 < env.fmax) (horder : ∀ m, (env.order m).Perm m) (cr : Criterion)
    (hln : cr = .entropy → env.ln = log) {depth : Nat} (hdep : 0 < depth) {τ : ℝ} (hτ : 0 < τ) (hτ' : τ < treeFactor cr * θ ^ 2)
    {ν : ℝ} (hν : 1 ≤ ν) (hν' : ν ≤ ys.length) (solver : Solver ℝ) (hsolver : solver.Correct) :
    LearnsFile env parseIx parse r ys cr depth (fun S => ((LPBoost.init S).setTolerance τ).setNu ν) (LPBoost.booster solver) :=
  learns_of h h0 horder cr hln hdep fun s tr ok hc hvalid hv h2 hl => by
    rw [← hl] at hν'
    have hnu : ((LPBoost.init s.rows : LPBoost ℝ (TreeNode ℝ)).setTolerance τ).setNu ν
        = .ok { ((LPBoost.init s.rows : LPBoost ℝ (TreeNode ℝ)).setTolerance τ) with nu := ν } := by
      unfold LPBoost.setNu LPBoost.setTolerance LPBoost.init
      simp only [rows_length, checkNu, hν, hν', and_self, if_true]
    obtain ⟨f, qs, e1, e2, e3⟩ := lpboost_trees ok hvalid hθ hv { ((LPBoost.init s.rows : LPBoost ℝ (TreeNode ℝ)).setTolerance τ) with nu := ν }
      (rows_length s) solver hsolver hν hν' hτ
    refine ⟨_, hnu, _, f, qs, e1, e3, fun i hi => predict_of_margin (target_pm ok hi) (lt_of_lt_of_le ?_ (e2 i hi))⟩
    rw [hc]; show 0 < _ - τ; linarith

/-- C106 for CERLPBoost at its default `ν = 1`, with a tolerance below the trees' edge. -/
theorem file_cerlp (h : LearnableFile parseIx parse r ys θ) (hθ : 0 < θ)
    (h0 : env.fmin + 1 / 1000 < 0 ∧ 1 + 1 / 1000 < env.fmax) (horder : ∀ m, (env.order m).Perm m) (cr : Criterion)
    (hln : cr = .entropy → env.ln = log) {depth : Nat} (hdep : 0 < depth) {τ : ℝ} (hτ : 0 < τ) (hτ' : τ < treeFactor cr * θ ^ 2)
    {ft : FWType} (hft : ft = .classic ∨ ft = .shortStep) :
    LearnsFile env parseIx parse r ys cr depth (fun S => .ok (((CERLPBoost.init S).setTolerance τ).setFwType ft)) CERLPBoost.booster :=
  learns_of h h0 horder cr hln hdep fun s tr ok hc hvalid hv h2 hl => by
    have h2r : (2 : ℝ) ≤ s.nSample := by exact_mod_cast h2
    obtain ⟨f, qs, e1, e2, e3⟩ := cerlp_trees ok hvalid hθ hv (((CERLPBoost.init s.rows).setTolerance τ).setFwType ft) hft (le_refl (1 : ℝ))
      (by show (1 : ℝ) < _; linarith) (by show 0 < τ / 2; linarith) (by rw [hc]; show τ / 2 < _; linarith)
    refine ⟨_, rfl, _, f, qs, e1, e3, fun i hi => predict_of_margin (target_pm ok hi) (lt_of_lt_of_le ?_
      (softMargin_rows e2 ((s, i), s.target.getD i 0) (List.mem_map.2 ⟨i, List.mem_range.2 hi, rfl⟩)))⟩
    rw [hc]; show 0 < _ - 2 * (τ / 2); linarith

/-- C106 for MLPBoost at its default `ν = 1`, with a correct solver and a tolerance below the trees' edge. -/
theorem file_mlp (h : LearnableFile parseIx parse r ys θ) (hθ : 0 < θ)
    (h0 : env.fmin + 1 / 1000 < 0 ∧ 1 + 1 / 1000 < env.fmax) (horder : ∀ m, (env.order m).Perm m) (cr : Criterion)
    (hln : cr = .entropy → env.ln = log) {depth : Nat} (hdep : 0 < depth) {τ : ℝ} (hτ : 0 < τ) (hτ' : τ < treeFactor cr * θ ^ 2)
    {ft : FWType} (hft : ft = .classic ∨ ft = .shortStep) (solver : Solver ℝ) (hsolver : solver.Correct) (noise : Nat → Nat → ℝ) :
    LearnsFile env parseIx parse r ys cr depth (fun S => (MLPBoost.init S).map fun b => (b.setTolerance τ).setFwType ft)
      (MLPBoost.booster solver noise) :=
  learns_of h h0 horder cr hln hdep fun s tr ok hc hvalid hv h2 hl => by
    have h2r : (2 : ℝ) ≤ s.nSample := by exact_mod_cast h2
    obtain ⟨b, hb, b1, b2⟩ : ∃ b : MLPBoost (TreeNode ℝ), MLPBoost.init s.rows = .ok b ∧ b.nu = 1 ∧ True := by
      unfold MLPBoost.init
      rw [if_neg (by rw [rows_length]; omega)]
      exact ⟨_, rfl, rfl, trivial⟩
    obtain ⟨f, qs, e1, e2, e3⟩ := mlp_trees ok hvalid hθ hv ((b.setTolerance τ).setFwType ft) solver hsolver noise hft
      (by show 1 ≤ b.nu; rw [b1]) (by show b.nu < _; rw [b1]; linarith) (by show 0 < τ / 2; linarith)
    refine ⟨_, by rw [hb]; rfl, _, f, qs, e1, e3, fun i hi => predict_of_margin (target_pm ok hi) (lt_of_lt_of_le ?_
      (softMargin_rows (by rw [show ((b.setTolerance τ).setFwType ft).nu = 1 from b1] at e2; exact e2)
        ((s, i), s.target.getD i 0) (List.mem_map.2 ⟨i, List.mem_range.2 hi, rfl⟩)))⟩
    rw [hc]; show 0 < _ - 2 * (τ / 2); linarith

/-- C106 for AdaBoost. -/
theorem file_adaboost (h : LearnableFile parseIx parse r ys θ) (hθ : 0 < θ)
    (h0 : env.fmin + 1 / 1000 < 0 ∧ 1 + 1 / 1000 < env.fmax) (horder : ∀ m, (env.order m).Perm m) (cr : Criterion)
    (hln : cr = .entropy → env.ln = log) {depth : Nat} (hdep : 0 < depth) {τ : ℝ} (hτ : 0 < τ) (hτ' : τ ≤ treeFactor cr * θ ^ 2 / 2) :
    LearnsFile env parseIx parse r ys cr depth (fun S => .ok ((AdaBoost.init S).setTolerance τ)) AdaBoost.booster := by
  obtain ⟨s, e1, e2, e3, e4⟩ := learnableFile_reads h
  obtain ⟨c, w, hv⟩ := e4.vote
  obtain ⟨b, t, b1, b2, n, f, qs, k1, k2, k3⟩ := boolean_sample_learned h0 horder e4.ok e4.columns e4.cells e4.labels e4.both hv hθ cr hln
    hdep hτ hτ'
  exact ⟨s, e1, e2, b, t, b1, b2, _, rfl, n, f, qs, k1, k2, fun i hi => by rw [← e2] at hi; rw [k3 i hi, e3 i hi]⟩

/-- The majority of three columns, in a csv file. -/
theorem exMajority_learnable (parseIx : List Char → Option Nat) : ∃ r, LearnableFile parseIx exCells r [-1, 1, -1, 1, 1] (1 / 3) := by
  have h := LearnableFile.csv (parseIx := parseIx) (names := ["a", "b", "c", "y"]) (t := "y") (by decide) (by decide) (by decide) (by decide)
    exMajority_table exMajority_vote
  have e : (exMajority.map fun row => cell ["a", "b", "c", "y"] row "y") = [-1, 1, -1, 1, 1] := by
    have i4 : (["a", "b", "c", "y"] : List String).idxOf "y" = 3 := by decide
    simp [exMajority, cell, i4]
  rw [e] at h
  exact ⟨_, h⟩

/-- The index parser of the next example. -/
def exIndices (c : List Char) : Option Nat :=
  if c = ['0'] then some 0 else if c = ['1'] then some 1 else if c = ['2'] then some 2 else none

/-- The same in a svmlight file. -/
theorem exRows_learnable : ∃ r, LearnableFile exIndices exCells r [-1, 1, -1, 1, 1] (1 / 3) :=
  ⟨_, LearnableFile.svmlight (hasHeader := false) (target := none) (ext := none)
    (texts := [(['-', '1'], [(['2'], ['1'])]), (['1'], [(['1'], ['1']), (['2'], ['1'])]), (['-', '1'], [(['0'], ['1'])]),
      (['1'], [(['0'], ['1']), (['1'], ['1'])]), (['1'], [(['0'], ['1']), (['1'], ['1']), (['2'], ['1'])])])
    (by decide)
    (.cons ⟨by decide, by decide, by decide, by decide, by simp [exCells], by simp [exCells, exIndices]⟩ <|
      .cons ⟨by decide, by decide, by decide, by decide, by simp [exCells], by simp [exCells, exIndices]⟩ <|
      .cons ⟨by decide, by decide, by decide, by decide, by simp [exCells], by simp [exCells, exIndices]⟩ <|
      .cons ⟨by decide, by decide, by decide, by decide, by simp [exCells], by simp [exCells, exIndices]⟩ <|
      .cons ⟨by decide, by decide, by decide, by decide, by simp [exCells], by simp [exCells, exIndices]⟩ .nil)
    (by simp) exRows_vote⟩

/-- So LPBoost with edge trees of depth one, the default `ν` and tolerance 1/100 learns the majority from the file. -/
example (hsolver : solver.Correct) : ∃ r, LearnsFile exRealEnv exIndices exCells r [-1, 1, -1, 1, 1] .edge 1
    (fun S => ((LPBoost.init S).setTolerance (1 / 100)).setNu 1) (LPBoost.booster solver) := by
  obtain ⟨r, h⟩ := exRows_learnable
  refine ⟨r, file_lpboost h (by norm_num) (by norm_num [exRealEnv]) (fun m => ?_) .edge (by simp) (by norm_num) (by norm_num)
    (by norm_num [treeFactor]) (le_refl _) (by norm_num) solver hsolver⟩
  exact List.Perm.refl _

end Miniboosts.Props
