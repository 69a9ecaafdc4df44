import Verif.Spec.Frame
import Verif.Props.OtherSample

/-! # C99: samples from data frames -/

namespace Miniboosts.Props

open Miniboosts Spec

set_option linter.unusedSectionVars false

variable {K : Type*} [Field K] [LinearOrder K] [IsStrictOrderedRing K]

theorem collect_map_some (l : List K) : Series.collect (l.map some) = some l := by
  induction l with
  | nil => rfl
  | cons x l ih => simp [Series.collect, ih]

theorem collect_some {vs : List (Option K)} {l : List K} (h : Series.collect vs = some l) : vs = l.map some := by
  induction vs generalizing l with
  | nil => cases h; rfl
  | cons v vs ih =>
    cases v with
    | none => cases h
    | some x =>
      simp only [Series.collect, Option.map_eq_some_iff] at h
      obtain ⟨l', h, rfl⟩ := h
      rw [ih h]; rfl

theorem series_values {s : Series K} {l : List K} : s.values = .ok l ↔ s.data = .f64 (l.map some) := by
  unfold Series.values
  cases s.data with
  | other n => simp
  | f64 vs =>
    cases h : Series.collect vs with
    | none =>
      simp only [h, reduceCtorEq, SeriesData.f64.injEq, false_iff]
      rintro rfl
      rw [collect_map_some] at h; cases h
    | some l' =>
      rw [collect_some h]
      simp only [collect_map_some, Except.ok.injEq, SeriesData.f64.injEq]
      constructor
      · rintro rfl; rfl
      · intro e
        exact List.map_injective_iff.2 (Option.some_injective K) e

theorem frame_features {cs : List (Series K)} {fs : List (Feature K)} : DataFrame.features cs = .ok fs ↔
    List.Forall₂ (fun c f => ∃ l : List K, c.data = .f64 (l.map some) ∧ f = Feature.dense ⟨c.name, l⟩) cs fs := by
  induction cs generalizing fs with
  | nil => simp [DataFrame.features, eq_comm]
  | cons c cs ih =>
    unfold DataFrame.features DenseFeature.fromSeries
    rw [List.forall₂_cons_left_iff]
    constructor
    · intro h
      split at h
      · cases h
      rename_i f hf
      split at h
      · cases h
      rename_i fs' hfs
      injection h with h
      cases hv : c.values with
      | error e => rw [hv] at hf; cases hf
      | ok l =>
        rw [hv] at hf
        injection hf with hf
        exact ⟨_, fs', ⟨l, series_values.1 hv, by rw [← hf]⟩, ih.1 hfs, h.symm⟩
    · rintro ⟨f, fs', ⟨l, hl, rfl⟩, h, rfl⟩
      rw [series_values.2 hl, ih.2 h]
      rfl

/-- **C99**: `from_dataframe` returns exactly when every column and the target are of type `f64` without nulls; otherwise it panics. -/
theorem frame_read_iff (d : DataFrame K) (t : Series K) : (∃ s, Sample.fromDataframe d t = .ok s) ↔ (∀ c ∈ d.columns, Numeric c) ∧ Numeric t := by
  constructor
  · rintro ⟨s, h⟩
    unfold Sample.fromDataframe at h
    split at h
    · cases h
    rename_i l ht
    split at h
    · cases h
    rename_i fs hf
    refine ⟨?_, l, series_values.1 ht⟩
    have := frame_features.1 hf
    intro c hc
    obtain ⟨k, hk, rfl⟩ := List.getElem_of_mem hc
    rw [List.forall₂_iff_get] at this
    obtain ⟨l, hl, -⟩ := this.2 k hk (this.1 ▸ hk)
    exact ⟨l, hl⟩
  · rintro ⟨hc, l, hl⟩
    have : ∃ fs, DataFrame.features d.columns = .ok fs := by
      generalize d.columns = cs at hc
      induction cs with
      | nil => exact ⟨_, rfl⟩
      | cons c cs ih =>
        obtain ⟨fs, hfs⟩ := ih fun c h => hc c (List.mem_cons_of_mem _ h)
        obtain ⟨lc, hlc⟩ := hc c (by simp)
        exact ⟨.dense ⟨c.name, lc⟩ :: fs, frame_features.2 (.cons ⟨lc, hlc, rfl⟩ (frame_features.1 hfs))⟩
    obtain ⟨fs, hfs⟩ := this
    unfold Sample.fromDataframe
    rw [series_values.2 hl, hfs]
    exact ⟨_, rfl⟩

/-- **C99**: the sample has the shape, the column names in their order, the cells and the labels of the frame; it is well-formed exactly when the
target has one value per row. -/
theorem frame_keeps_cells {d : DataFrame K} (hd : FrameOk d) {t : Series K} {s : Sample K} (h : Sample.fromDataframe d t = .ok s) :
    s.shape = d.shape ∧ s.features.map Feature.name = d.columns.map Series.name ∧ (∀ i < d.shape.1, ∀ nm, valueAt s i nm = frameCell d i nm) ∧
      t.data = .f64 (s.target.map some) ∧ (SampleOk s ↔ t.len = d.shape.1) := by
  unfold Sample.fromDataframe at h
  split at h
  · cases h
  rename_i l ht
  split at h
  · cases h
  rename_i fs hf
  injection h with h
  have hF := frame_features.1 hf
  have hnames : fs.map Feature.name = d.columns.map Series.name := by
    clear h hf
    generalize d.columns = cs at hF
    induction hF with
    | nil => rfl
    | cons hx _ ih =>
      obtain ⟨l, -, rfl⟩ := hx
      simp only [List.map_cons, ih, Feature.name]
  have hcols : ∀ f ∈ fs, ColumnOk d.shape.1 f := by
    intro f hfm
    obtain ⟨k, hk, rfl⟩ := List.getElem_of_mem hfm
    rw [List.forall₂_iff_get] at hF
    obtain ⟨lc, h1, h2⟩ := hF.2 k (hF.1 ▸ hk) hk
    simp only [List.get_eq_getElem] at h1 h2
    rw [h2]
    have := hd.lengths _ (List.getElem_mem (hF.1 ▸ hk : k < d.columns.length))
    unfold Series.len at this
    rw [h1] at this
    simpa [ColumnOk] using this
  have hlen : fs.length = d.columns.length := by simpa using congrArg List.length hnames
  have htab : Sample.indexNames fs = (fs.map Feature.name).zipIdx := Sample.indexNames_ok (by rw [hnames]; exact hd.names)
  rw [← h]
  refine ⟨rfl, hnames, ?_, series_values.1 ht, ?_⟩
  · intro i hi nm
    unfold valueAt frameCell
    simp only
    clear hnames hlen htab h hf
    have hcols' : ∀ f ∈ fs, ColumnOk d.shape.1 f := hcols
    clear hcols
    generalize d.shape.1 = n at hi hcols'
    generalize d.columns = cs at hF
    induction hF with
    | nil => rfl
    | @cons c f cs fs hx hrest ih =>
      obtain ⟨lc, h1, rfl⟩ := hx
      simp only [List.find?_cons, Feature.name]
      by_cases e : c.name = nm
      · have hl : lc.length = n := hcols' (.dense ⟨c.name, lc⟩) (List.mem_cons_self ..)
        simp only [e, decide_true, Option.map_some, h1, List.getElem?_map]
        rw [List.getElem?_eq_getElem (by omega)]
        show some (lc.getD i 0) = _
        rw [List.getD_eq_getElem?_getD, List.getElem?_eq_getElem (by omega)]
        rfl
      · simp only [e, decide_false]
        exact ih fun f hf => hcols' f (List.mem_cons_of_mem _ hf)
  · have htl : t.len = l.length := by
      unfold Series.len
      rw [series_values.1 ht]; simp
    rw [htl]
    exact ⟨fun h => h.labels, fun e => ⟨hlen.symm, by simp only [hnames]; exact hd.names, htab, hcols, e⟩⟩

/-- A target of another length is accepted by `from_dataframe`; the check at the start of boosting then refuses the sample. -/
theorem frame_target_length [FloorRing K] {d : DataFrame K} (hd : FrameOk d) {t : Series K} {s : Sample K} (h : Sample.fromDataframe d t = .ok s)
    (hne : t.len ≠ d.shape.1) : s.isValidBinaryInstance = .error .assertion := by
  obtain ⟨h1, -, -, h2, -⟩ := frame_keeps_cells hd h
  have h3 : s.nSample = d.shape.1 := congrArg Prod.fst h1
  have h4 : t.len = s.target.length := by
    unfold Series.len
    rw [h2]; simp
  unfold Sample.isValidBinaryInstance isValidBinary
  rw [if_pos (by rw [h3, ← h4]; exact fun e => hne e.symm)]

/-- **C99**: a frame with the cells of a csv file, the target column taken out, becomes a sample with the same rows, columns and labels as the one
read from the file. -/
theorem frame_like_csv {names : List String} {y : String} {vals : List (List ℝ)} {s : Sample ℝ} (hn : names.Nodup) (hs : ReadsAs s names y vals)
    {d : DataFrame ℝ} (hd : FrameOk d) (hnames : d.columns.map Series.name = names.erase y) (hrows : d.shape.1 = vals.length)
    (hnum : ∀ c ∈ d.columns, Numeric c) (hcells : ∀ nm ∈ names.erase y, ∀ (i : Nat) (hi : i < vals.length), frameCell d i nm = some (cell names vals[i] nm))
    {t : Series ℝ} (ht : t.data = .f64 (s.target.map some)) :
    ∃ s', Sample.fromDataframe d t = .ok s' ∧ SampleOk s' ∧ s'.shape = s.shape ∧ SameColumns s s' ∧ s'.target = s.target ∧
      ∀ i < vals.length, (∀ nm, valueAt s' i nm = valueAt s i nm) ∧ s'.at' i = s.at' i := by
  have hl : s.nSample = vals.length := congrArg Prod.fst hs.shape
  obtain ⟨s', h'⟩ := (frame_read_iff d t).2 ⟨hnum, s.target, ht⟩
  obtain ⟨g1, g2, g3, g4, g5⟩ := frame_keeps_cells hd h'
  have hlen : t.len = d.shape.1 := by
    unfold Series.len
    rw [ht, hrows, ← hl, ← hs.ok.labels]; simp
  have hok := g5.2 hlen
  have hsame : SameColumns s s' := by
    unfold SameColumns
    rw [g2, hnames, hs.columnNames]
  have hn' : s'.nSample = vals.length := (congrArg Prod.fst g1).trans hrows
  have hval : ∀ i < vals.length, ∀ nm, valueAt s' i nm = valueAt s i nm := by
    intro i hi nm
    by_cases hm : nm ∈ names.erase y
    · rw [g3 i (by omega), hcells nm hm i hi, readsAs_valueAt hn hs hm hi]
    · rw [valueAt_none (by rw [g2, hnames]; exact hm), valueAt_none (by rw [hs.columnNames]; exact hm)]
  have htarget : s'.target = s.target := by
    rw [ht] at g4
    injection g4 with g4
    exact (List.map_injective_iff.2 (Option.some_injective ℝ) g4).symm
  refine ⟨s', h', hok, ?_, hsame, htarget, fun i hi => ⟨hval i hi, ?_⟩⟩
  · refine Prod.ext (hn'.trans hl.symm) ?_
    show s'.nFeature = s.nFeature
    rw [hok.count, hs.ok.count]
    have := congrArg List.length hsame
    simpa using this.symm
  · unfold Sample.at'
    rw [mapAll_congr (row_of_same_columns hok hs.ok hsame.symm (by omega) (by omega) fun nm => hval i hi nm), htarget]

/-- A frame with two numeric columns. -/
def exFrame : DataFrame ℚ := ⟨[⟨"a", .f64 [some 1, some 2]⟩, ⟨"b", .f64 [some 0, some 5]⟩]⟩

/-- Non-vacuity of `frame_keeps_cells`, and what it says there. -/
example : FrameOk exFrame ∧ ∃ s, Sample.fromDataframe exFrame ⟨"y", .f64 [some 1, some (-1)]⟩ = .ok s ∧ valueAt s 1 "b" = some 5 ∧
    s.target = [1, -1] := by
  refine ⟨⟨by decide, by decide⟩, _, rfl, by decide +kernel, rfl⟩

/-- Non-vacuity of `frame_like_csv`: the table with the columns `a`, `y` and the rows `1, 1` and `2, -1`. -/
example : ∃ (s : Sample ℝ) (d : DataFrame ℝ), ReadsAs s ["a", "y"] "y" [[1, 1], [2, -1]] ∧ FrameOk d ∧ d.columns.map Series.name = ["a", "y"].erase "y" ∧
    d.shape.1 = 2 ∧ (∀ c ∈ d.columns, Numeric c) ∧
    ∀ nm ∈ ["a", "y"].erase "y", ∀ (i : Nat) (hi : i < ([[1, 1], [2, -1]] : List (List ℝ)).length),
      frameCell d i nm = some (cell ["a", "y"] (([[1, 1], [2, -1]] : List (List ℝ))[i]) nm) := by
  obtain ⟨s, -, hs⟩ := setTarget_ofTable (names := ["a", "y"]) (by decide) (t := "y") (by decide) (vals := ([[1, 1], [2, -1]] : List (List ℝ))) (by simp)
  refine ⟨s, ⟨[⟨"a", .f64 [some 1, some 2]⟩]⟩, hs, ⟨by simp, by simp [DataFrame.shape]⟩, by decide, rfl, ?_, ?_⟩
  · intro c hc
    rw [List.mem_singleton.1 hc]
    exact ⟨[1, 2], rfl⟩
  · intro nm hn i hi
    have : nm = "a" := by simpa using hn
    subst this
    match i, hi with
    | 0, _ => simp [frameCell, cell]
    | 1, _ => simp [frameCell, cell]

/-- A null and a column of integers make it panic. -/
example : Sample.fromDataframe (⟨[⟨"a", .f64 [some 1, none]⟩]⟩ : DataFrame ℚ) ⟨"y", .f64 [some 1, some (-1)]⟩ = .error .unwrapNone ∧
    Sample.fromDataframe (⟨[⟨"a", .other 2⟩]⟩ : DataFrame ℚ) ⟨"y", .f64 [some 1, some (-1)]⟩ = .error .unwrapNone := ⟨rfl, rfl⟩

/-- Non-vacuity of `frame_target_length`: a target with one value for two rows. -/
example : FrameOk exFrame ∧ (∃ s, Sample.fromDataframe exFrame ⟨"y", .f64 [some 1]⟩ = .ok s) ∧ (⟨"y", .f64 [some 1]⟩ : Series ℚ).len ≠ exFrame.shape.1 :=
  ⟨⟨by decide, by decide⟩, ⟨_, rfl⟩, by decide⟩

end Miniboosts.Props
