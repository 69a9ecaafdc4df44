import Verif.Model.Display
import Verif.Lemmas.Sample
import Verif.Lemmas.Std
import Verif.Spec.Sample

/-! # C100: printing a tree learner -/

namespace Miniboosts.Props

open Miniboosts Spec

set_option linter.unusedSectionVars false

variable {K : Type*} [Field K] [LinearOrder K] [IsStrictOrderedRing K]

/-- How one end of an interval is printed: the extreme number as an infinity, any other number as its sign and its absolute value (in the number format);
spaces may precede it. -/
def ShowsEnd (fmt1 : K → String) (infinity : String) (extreme x : K) (text : String) : Prop :=
  ∃ i t, text = spaces i ++ t ∧ ((x = extreme ∧ t = infinity) ∨
    (x ≠ extreme ∧ ((0 < x ∧ t = "+" ++ fmt1 x) ∨ (x < 0 ∧ t = "-" ++ fmt1 (-x)) ∨ (x = 0 ∧ t = " " ++ fmt1 0))))

/-- How an interval is printed. -/
def ShowsBin (fmt1 : K → String) (env : TreeEnv K) (b : Bin K) (text : String) : Prop :=
  ∃ s t, ShowsEnd fmt1 "-Inf" env.fmin b.start s ∧ ShowsEnd fmt1 "+Inf" env.fmax b.stop t ∧ text = "[" ++ s ++ ", " ++ t ++ ")"

theorem shows_end (fmt1 : K → String) (infinity : String) (extreme x : K) :
    ShowsEnd fmt1 infinity extreme x (padLeft 8 (if x = extreme then infinity else Bin.sgn x ++ fmt1 |x|)) := by
  refine ⟨_, _, rfl, ?_⟩
  by_cases h : x = extreme
  · exact .inl ⟨h, if_pos h⟩
  right
  rw [if_neg h]
  refine ⟨h, ?_⟩
  unfold Bin.sgn
  rcases lt_trichotomy x 0 with h' | h' | h'
  · exact .inr (.inl ⟨h', by rw [if_neg (not_lt.mpr h'.le), if_pos h', abs_of_neg h']⟩)
  · exact .inr (.inr ⟨h', by rw [h', abs_zero]; simp⟩)
  · exact .inl ⟨h', by rw [if_pos h', abs_of_pos h']⟩

theorem shows_bin (fmt1 : K → String) (env : TreeEnv K) (b : Bin K) : ShowsBin fmt1 env b (Bin.display fmt1 env b) :=
  ⟨_, _, shows_end fmt1 "-Inf" env.fmin b.start, shows_end fmt1 "+Inf" env.fmax b.stop, rfl⟩

theorem shows_bins (fmt1 : K → String) (env : TreeEnv K) (bins : List (Bin K)) :
    List.Forall₂ (ShowsBin fmt1 env) bins (bins.map (Bin.display fmt1 env)) := by
  induction bins with
  | nil => exact .nil
  | cons b bins ih => exact .cons (shows_bin fmt1 env b) ih

/-- What is printed of a list of intervals: all of them if there are at most three, else the first two and the last. -/
def shownBins (fmt1 : K → String) (env : TreeEnv K) (bins : List (Bin K)) (text : String) : Prop :=
  ∃ ts, List.Forall₂ (ShowsBin fmt1 env) bins ts ∧ ((ts.length ≤ 3 ∧ text = ", ".intercalate ts) ∨
    (∃ a b l c, ts = a :: b :: l ++ [c] ∧ l ≠ [] ∧ text = a ++ ", " ++ b ++ ", ... , " ++ c))

/-- A line that shows a column: its name, the number of its bins, its intervals; the widths are whatever they are. -/
def ShowsColumn (fmt1 : K → String) (env : TreeEnv K) (name : String) (bins : List (Bin K)) (line : String) : Prop :=
  ∃ i j text, shownBins fmt1 env bins text ∧ line = "\t* [" ++ (name ++ spaces i) ++ " | " ++ (spaces j ++ toString bins.length) ++ " bins]  " ++ text ++ "\n"

theorem bins_display (fmt1 : K → String) (env : TreeEnv K) (bins : List (Bin K)) :
    ∃ text, Bins.display fmt1 env bins = .ok text ∧ shownBins fmt1 env bins text := by
  unfold Bins.display
  split
  · rename_i h
    match bins, h with
    | a :: b :: c :: d :: l, _ =>
      have hne : (c :: d :: l) ≠ [] := by simp
      have e : a :: b :: c :: d :: l = (a :: b :: (c :: d :: l).dropLast) ++ [(c :: d :: l).getLast hne] := by
        simp only [List.cons_append, List.dropLast_append_getLast]
      have hl : (a :: b :: c :: d :: l).getLast? = some ((c :: d :: l).getLast hne) := by
        rw [e, List.getLast?_append]; rfl
      rw [hl]
      refine ⟨_, rfl, _, shows_bins fmt1 env _, .inr ⟨Bin.display fmt1 env a, Bin.display fmt1 env b, (c :: d :: l).dropLast.map (Bin.display fmt1 env),
        Bin.display fmt1 env ((c :: d :: l).getLast hne), ?_, by simp, ?_⟩⟩
      · rw [e]; simp only [List.map_append, List.map_cons, List.map_nil]
      · simp only [List.take_succ_cons, List.take_zero, List.map_cons, List.map_nil, String.intercalate]
        rfl
  · rename_i h
    exact ⟨_, rfl, _, shows_bins fmt1 env bins, .inl ⟨by rw [List.length_map]; omega, rfl⟩⟩

theorem display_lines (fmt1 : K → String) (env : TreeEnv K) (w b : Nat) (order : List (String × List (Bin K))) :
    ∃ lines, Bins.displayLines fmt1 env w b order = .ok lines ∧ List.Forall₂ (fun p line => ShowsColumn fmt1 env p.1 p.2 line) order lines := by
  induction order with
  | nil => exact ⟨[], rfl, .nil⟩
  | cons p order ih =>
    obtain ⟨name, bins⟩ := p
    obtain ⟨lines, h, hf⟩ := ih
    obtain ⟨text, h1, h2⟩ := bins_display fmt1 env bins
    refine ⟨_, by simp only [Bins.displayLines, h1, h]; rfl, .cons ⟨_, _, text, h2, rfl⟩ hf⟩

theorem max?_isSome {l : List Nat} (h : l ≠ []) : ∃ m, l.max? = some m := by
  cases l with
  | nil => exact absurd rfl h
  | cons a l => exact ⟨_, List.max?_cons'⟩

theorem display_all (fmt1 : K → String) (env : TreeEnv K) {order : List (String × List (Bin K))} (hne : order ≠ []) (hb : ∀ p ∈ order, p.2 ≠ []) :
    ∃ lines, Bins.displayAll fmt1 env order = .ok lines ∧ List.Forall₂ (fun p line => ShowsColumn fmt1 env p.1 p.2 line) order lines := by
  obtain ⟨w, hw⟩ := max?_isSome (l := order.map fun p => p.1.utf8ByteSize) (by simpa using hne)
  obtain ⟨b, hb'⟩ := max?_isSome (l := order.map fun p => Nat.log 10 p.2.length) (by simpa using hne)
  obtain ⟨lines, h1, h2⟩ := display_lines fmt1 env w (b + 1) order
  refine ⟨lines, ?_, h2⟩
  unfold Bins.displayAll
  rw [hw]
  simp only
  rw [if_neg, hb']
  · exact h1
  · simp only [List.any_eq_true, decide_eq_true_eq, not_exists, not_and]
    intro p hp h0
    exact hb p hp (List.length_eq_zero_iff.1 h0)

theorem display_none (fmt1 : K → String) (env : TreeEnv K) : Bins.displayAll fmt1 env ([] : List (String × List (Bin K))) = .error .unwrapNone := rfl

theorem cut_nonempty {env : TreeEnv K} {f : Feature K} {n : Nat} {bins : List (Bin K)} (h : Bins.cut env f n = .ok bins) : bins ≠ [] := by
  unfold Bins.cut at h
  split at h
  · cases h
  · cases h
  · injection h with h
    rw [← h]
    rename_i b l _
    cases l <;> simp [Bins.setLastStop]

theorem mapAll_forall {A : Type*} {f : Feature K → Except Panic A} {fs : List (Feature K)} {as : List A} (h : Sample.mapAll f fs = .ok as) :
    List.Forall₂ (fun c a => f c = .ok a) fs as := by
  induction fs generalizing as with
  | nil => injection h with h; subst h; exact .nil
  | cons c fs ih =>
    unfold Sample.mapAll at h
    cases hc : f c with
    | error e => rw [hc] at h; cases h
    | ok a =>
      rw [hc] at h
      cases hr : Sample.mapAll f fs with
      | error e => rw [hr] at h; cases h
      | ok as' =>
        rw [hr] at h
        injection h with h
        rw [← h]
        exact .cons hc (ih hr)

/-- What the two builders share: the bins of a built learner are those of the columns, by name, none without a bin. -/
theorem built_bins {env : TreeEnv K} {s : Sample K} (hs : SampleOk s) {nBins : List (String × Nat)} {bins : List (String × List (Bin K))}
    (h : Sample.mapAll (fun f => match HMap.get? nBins f.name with
      | none => .error .unwrapNone
      | some n => (Bins.cut env f n).map (fun bins => (f.name, bins))) s.features = .ok bins) :
    HMap.collect bins = bins ∧ bins.map Prod.fst = s.features.map Feature.name ∧ (∀ p ∈ bins, p.2 ≠ []) := by
  have hF := mapAll_forall h
  have key : bins.map Prod.fst = s.features.map Feature.name ∧ (∀ p ∈ bins, p.2 ≠ []) := by
    clear h
    generalize s.features = fs at hF
    induction hF with
    | nil => exact ⟨rfl, by simp⟩
    | @cons f p fs ps hx _ ih =>
      split at hx
      · cases hx
      rename_i n _
      cases hc : Bins.cut env f n with
      | error e => rw [hc] at hx; cases hx
      | ok b =>
        rw [hc] at hx
        injection hx with hx
        refine ⟨by simp only [List.map_cons, ih.1, ← hx], ?_⟩
        intro q hq
        rcases List.mem_cons.1 hq with rfl | hq
        · rw [← hx]; exact cut_nonempty hc
        · exact ih.2 q hq
  refine ⟨HMap.collect_of_nodup (by rw [key.1]; exact hs.names), key⟩

/-- The text printed for a learner: the depth, the rule for splitting, one line per column. -/
def PrintedAs (fmt1 : K → String) (env : TreeEnv K) (depth : Nat) (rule : String) (order : List (String × List (Bin K))) (text : String) : Prop :=
  ∃ lines, text = "----------\n# Decision Tree Weak Learner\n\n- Max depth: " ++ toString depth ++ "\n- " ++ rule ++ "\n- Bins:\n" ++ String.join lines ++ "----------" ∧
    List.Forall₂ (fun p line => ShowsColumn fmt1 env p.1 p.2 line) order lines

theorem shown_learner {env : TreeEnv K} (fmt1 : K → String) {s : Sample K} {bins order : List (String × List (Bin K))} (hp : order.Perm bins)
    (hn : bins.map Prod.fst = s.features.map Feature.name) (hb : ∀ p ∈ bins, p.2 ≠ []) :
    (s.features ≠ [] → ∃ lines, Bins.displayAll fmt1 env order = .ok lines ∧ List.Forall₂ (fun p line => ShowsColumn fmt1 env p.1 p.2 line) order lines) ∧
      (s.features = [] → Bins.displayAll fmt1 env order = .error .unwrapNone) := by
  constructor
  · intro hf
    refine display_all fmt1 env ?_ fun p h => hb p (hp.mem_iff.1 h)
    rintro rfl
    have : bins = [] := hp.nil_eq.symm ▸ rfl
    rw [this] at hn
    exact hf (by simpa using hn.symm)
  · intro hf
    have : bins = [] := by
      rw [hf] at hn
      simpa using hn
    rw [this] at hp
    rw [hp.eq_nil]
    exact display_none fmt1 env

/-- The documented names of the criteria. -/
def criterionName (c : Criterion) : String :=
  match c with
  | .entropy => "Entropy"
  | .edge => "Edge (Weighted accuracy)"
  | .gini => "Gini index"
  | .twoing => "Twoing Rule"

/-- **C100** for decision trees: whatever the order in which the hash map is traversed, a learner built from a well-formed sample with at least one
column can be printed; each column has its line.  Without columns printing panics. -/
theorem decision_tree_prints {env : TreeEnv K} {b : DecisionTreeBuilder K} (hs : SampleOk b.sample) {t : DecisionTree K} (h : b.build env = .ok t)
    (fmt1 : K → String) {order : List (String × List (Bin K))} (hp : order.Perm t.bins) :
    t.bins.map Prod.fst = b.sample.features.map Feature.name ∧
    (b.sample.features ≠ [] → ∃ text, t.display fmt1 env order = .ok text ∧
      PrintedAs fmt1 env b.maxDepth ("Splitting criterion: " ++ criterionName b.criterion) order text) ∧
      (b.sample.features = [] → t.display fmt1 env order = .error .unwrapNone) := by
  unfold DecisionTreeBuilder.build at h
  split at h
  · cases h
  rename_i bins hm
  injection h with h
  obtain ⟨h1, h2, h3⟩ := built_bins hs hm
  rw [h1] at h
  have hbins : t.bins = bins := by rw [← h]
  rw [hbins] at hp ⊢
  obtain ⟨g1, g2⟩ := shown_learner (env := env) fmt1 hp h2 h3
  refine ⟨h2, fun hf => ?_, fun hf => ?_⟩
  · obtain ⟨lines, g3, g4⟩ := g1 hf
    unfold DecisionTree.display
    rw [g3]
    refine ⟨_, rfl, lines, ?_, g4⟩
    rw [← h]
    simp only [String.append_assoc, criterionName]
    rfl
  · unfold DecisionTree.display
    rw [g2 hf]

/-- **C100** for regression trees. -/
theorem regression_tree_prints {env : TreeEnv K} {b : RegressionTreeBuilder K} (hs : SampleOk b.sample) {t : RegressionTree K} (h : b.build env = .ok t)
    (fmt1 : K → String) (lossName : String) {order : List (String × List (Bin K))} (hp : order.Perm t.bins) :
    t.bins.map Prod.fst = b.sample.features.map Feature.name ∧
    (b.sample.features ≠ [] → ∃ text, t.display fmt1 env lossName order = .ok text ∧
      PrintedAs fmt1 env b.maxDepth ("Loss function: " ++ lossName) order text) ∧
      (b.sample.features = [] → t.display fmt1 env lossName order = .error .unwrapNone) := by
  unfold RegressionTreeBuilder.build at h
  split at h
  · cases h
  rename_i bins hm
  split at h
  · cases h
  injection h with h
  obtain ⟨h1, h2, h3⟩ := built_bins hs hm
  rw [h1] at h
  have hbins : t.bins = bins := by rw [← h]
  rw [hbins] at hp ⊢
  obtain ⟨g1, g2⟩ := shown_learner (env := env) fmt1 hp h2 h3
  refine ⟨h2, fun hf => ?_, fun hf => ?_⟩
  · obtain ⟨lines, g3, g4⟩ := g1 hf
    unfold RegressionTree.display
    rw [g3]
    refine ⟨_, rfl, lines, ?_, g4⟩
    rw [← h]
    simp only [String.append_assoc]
    rfl
  · unfold RegressionTree.display
    rw [g2 hf]

/-- The number of bins in `info` is the largest number of bins of a column, whatever the traversal order. -/
theorem info_bins {order bins : List (String × List (Bin K))} (hp : order.Perm bins) :
    (∀ p ∈ bins, p.2.length ≤ Bins.largest order) ∧ (bins ≠ [] → ∃ p ∈ bins, p.2.length = Bins.largest order) ∧ (bins = [] → Bins.largest order = 0) := by
  have key : ∀ (l : List Nat) (a : Nat), (∀ x ∈ a :: l, x ≤ l.foldl max a) ∧ l.foldl max a ∈ a :: l := by
    intro l
    induction l with
    | nil => intro a; simp
    | cons b l ih =>
      intro a
      obtain ⟨h1, h2⟩ := ih (max a b)
      simp only [List.foldl_cons]
      refine ⟨?_, ?_⟩
      · intro x hx
        have hm := h1 (max a b) (by simp)
        rcases List.mem_cons.1 hx with rfl | hx
        · exact (le_max_left _ _).trans hm
        rcases List.mem_cons.1 hx with rfl | hx
        · exact (le_max_right _ _).trans hm
        · exact h1 x (List.mem_cons_of_mem _ hx)
      · rcases List.mem_cons.1 h2 with e | h
        · rw [e]
          rcases max_choice a b with e' | e' <;> rw [e'] <;> simp
        · simp [h]
  unfold Bins.largest
  refine ⟨?_, ?_, ?_⟩
  · intro p hpm
    have hmem : p.2.length ∈ order.map fun p => p.2.length := List.mem_map_of_mem (hp.mem_iff.2 hpm)
    split
    · rename_i e; rw [e] at hmem; cases hmem
    · rename_i a l e
      rw [e] at hmem
      exact (key l a).1 _ hmem
  · intro hne
    split
    · rename_i e
      have : order = [] := by simpa using e
      rw [this] at hp
      exact absurd hp.nil_eq.symm hne
    · rename_i a l e
      have := (key l a).2
      rw [← e, List.mem_map] at this
      obtain ⟨p, h1, h2⟩ := this
      exact ⟨p, hp.mem_iff.1 h1, h2⟩
  · rintro rfl
    rw [hp.eq_nil]; rfl

/-- A sample with a dense and a sparse column. -/
def exShown : Sample ℚ :=
  { nameToIndex := [("a", 0), ("bb", 1)], features := [.dense ⟨"a", [1, 2, 3, 4]⟩, .sparse ⟨"bb", [(1, 5)], 4⟩], target := [1, 1, -1, -1], nSample := 4, nFeature := 2 }

/-- The extreme numbers. -/
def exShownEnv : TreeEnv ℚ := { fmin := -1000, fmax := 1000, ln := fun _ => 0, order := id }

/-- Non-vacuity of `decision_tree_prints`: the default learner for this sample is built, with four bins and two. -/
example : SampleOk exShown ∧ ∃ t, (DecisionTreeBuilder.new exShown).build exShownEnv = .ok t ∧ t.bins.map (fun p => (p.1, p.2.length)) = [("a", 4), ("bb", 2)] := by
  refine ⟨⟨rfl, by decide, by decide, ?_, rfl⟩, ?_⟩
  · intro f hf
    simp only [exShown, List.mem_cons, List.not_mem_nil, or_false] at hf
    rcases hf with rfl | rfl
    · rfl
    · exact ⟨rfl, by simp, by simp [exShown]⟩
  · have h : ((DecisionTreeBuilder.new exShown).build exShownEnv).map (fun t => t.bins.map (fun p => (p.1, p.2.length))) = .ok [("a", 4), ("bb", 2)] := by decide +kernel
    cases hb : (DecisionTreeBuilder.new exShown).build exShownEnv with
    | error e => rw [hb] at h; cases h
    | ok t =>
      rw [hb] at h
      injection h with h
      exact ⟨t, rfl, h⟩

end Miniboosts.Props
