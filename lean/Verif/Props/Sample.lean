import Verif.Lemmas.Sample
import Mathlib.Algebra.Order.Field.Rat
import Mathlib.Data.Rat.Floor
import Mathlib.Tactic.IntervalCases
import Mathlib.Tactic.NormNum

/-! # C43 csv files, C46 labels, C47 renaming -/

set_option linter.unusedSectionVars false

namespace Miniboosts.Props

open Spec

variable {K : Type*} [Field K] [LinearOrder K] [IsStrictOrderedRing K]

/-- The text of a csv line with the given cells. -/
def csvLine (cells : List (List Char)) : List Char := [','].intercalate cells

/-- `text` (cells of the data lines) is a rectangular table with `width` columns denoting the numbers `vals`:
no cell contains a comma and every cell parses to the number at its place. -/
structure IsTable (parse : List Char → Option K) (width : Nat) (text : List (List (List Char)))
    (vals : List (List K)) : Prop where
  noComma : ∀ row ∈ text, ∀ c ∈ row, ',' ∉ c
  parses : text.map (fun r => r.map parse) = vals.map (fun r => r.map some)
  width : ∀ r ∈ vals, r.length = width

/-- What reading a table `vals` with column names `names` and target column `t` must give. -/
structure ReadsAs (s : Sample K) (names : List String) (t : String) (vals : List (List K)) : Prop where
  ok : SampleOk s
  shape : s.shape = (vals.length, names.length - 1)
  columnNames : s.features.map Feature.name = names.erase t
  /-- row by row, in column order, with the target cell split off -/
  rows : ∀ (r : Nat) (row : List K), vals[r]? = some row →
    ∃ y, row[names.idxOf t]? = some y ∧ s.at' r = .ok (row.eraseIdx (names.idxOf t), y)
  /-- the target vector is the target column -/
  target : ∀ (r : Nat) (row : List K), vals[r]? = some row → s.target[r]? = row[names.idxOf t]?
  /-- lookup by name gives the column of that name -/
  lookup : ∀ nm ∈ names, nm ≠ t → ∃ f, s.byName nm = .ok f ∧
    ∀ (r : Nat) (row : List K), vals[r]? = some row → ∃ x, row[names.idxOf nm]? = some x ∧ f.index r = .ok x
  missing : ∀ nm, nm ∉ names ∨ nm = t → s.byName nm = .error .unwrapNone

theorem setTarget_ofTable {names : List String} (hn : names.Nodup) {t : String} (ht : t ∈ names)
    {vals : List (List K)} (hw : ∀ r ∈ vals, r.length = names.length) :
    ∃ s, (Sample.ofTable names vals).setTarget t = .ok s ∧ ReadsAs s names t vals := by
  set fs : List (Feature K) := (Sample.columns names vals).map Feature.dense with hfs
  have hnames : fs.map Feature.name = names := by
    rw [hfs, List.map_map]
    exact Sample.columns_names names vals
  have hlen : fs.length = names.length := by rw [hfs, List.length_map, Sample.columns_length]
  have hcol : ∀ (j : Nat) (nm : String), names[j]? = some nm →
      fs[j]? = some (Feature.dense { name := nm, sample := vals.map fun r => r.getD j 0 }) := by
    intro j nm hj
    rw [hfs, List.getElem?_map, Sample.columns_get hj]
    rfl
  set p := names.idxOf t with hp
  have hplt : p < names.length := List.idxOf_lt_length_of_mem ht
  have hpt : names[p]? = some t := by
    rw [List.getElem?_eq_getElem hplt]
    exact congrArg some (List.getElem_idxOf hplt)
  have hfind : fs.findIdx? (fun f => f.name == t) = some p := by
    rw [List.findIdx?_eq_some_iff_getElem]
    refine ⟨by omega, ?_, ?_⟩
    · have := hcol p t hpt
      have h2 : fs[p] = Feature.dense { name := t, sample := vals.map fun r => r.getD p 0 } := by
        rw [List.getElem?_eq_getElem (by omega)] at this
        exact Option.some.inj this
      rw [h2]; simp [Feature.name]
    · intro j hj
      have hjl : j < names.length := by omega
      have h2 := hcol j names[j] (List.getElem?_eq_getElem hjl)
      rw [List.getElem?_eq_getElem (by omega)] at h2
      rw [Option.some.inj h2]
      simp only [Feature.name, beq_iff_eq]
      intro he
      have : names.idxOf t = j := by
        rw [← he]; exact hn.idxOf_getElem j hjl
      omega
  have herase : (fs.eraseIdx p).map Feature.name = names.erase t := by
    rw [← List.eraseIdx_idxOf_eq_erase, ← hp]
    have : (fs.eraseIdx p).map Feature.name = (fs.map Feature.name).eraseIdx p := by
      apply List.ext_getElem?
      intro i
      simp only [List.getElem?_map, List.getElem?_eraseIdx]
      split <;> rfl
    rw [this, hnames]
  have hnd : ((fs.eraseIdx p).map Feature.name).Nodup := by rw [herase]; exact hn.erase t
  set s : Sample K := { nameToIndex := Sample.indexNames (fs.eraseIdx p), features := fs.eraseIdx p, target := vals.map fun r => r.getD p 0, nSample := vals.length, nFeature := fs.length - 1 } with hs
  have htable : s.nameToIndex = (s.features.map Feature.name).zipIdx := Sample.indexNames_ok hnd
  refine ⟨s, ?_, ?_⟩
  · unfold Sample.setTarget
    show (match fs.findIdx? (fun f => f.name == t) with
      | none => _
      | some pos => _) = _
    rw [hfind]
    simp only
    have : (Sample.ofTable names vals).features[p]? = some (Feature.dense { name := t, sample := vals.map fun r => r.getD p 0 }) :=
      hcol p t hpt
    rw [this]
    simp only [Feature.intoTarget]
    have h0 : (Sample.ofTable names vals).nFeature ≠ 0 := by
      show fs.length ≠ 0
      omega
    rw [if_neg h0]
    rfl
  · have hmem : ∀ f ∈ fs, ∃ j nm, names[j]? = some nm ∧
        f = Feature.dense { name := nm, sample := vals.map fun r => r.getD j 0 } := by
      intro f hf
      obtain ⟨j, hj, rfl⟩ := List.getElem_of_mem hf
      have hjn : j < names.length := by omega
      have h2 := hcol j names[j] (List.getElem?_eq_getElem hjn)
      rw [List.getElem?_eq_getElem hj] at h2
      exact ⟨j, _, List.getElem?_eq_getElem hjn, Option.some.inj h2⟩
    have htgt : ∀ (r : Nat) (row : List K), vals[r]? = some row → s.target[r]? = row[p]? := by
      intro r row hr
      have hwr : row.length = names.length := hw row (List.mem_of_getElem? hr)
      show (vals.map fun r => r.getD p 0)[r]? = _
      rw [List.getElem?_map, hr, Option.map_some, List.getElem?_eq_getElem (by omega),
        List.getD_eq_getElem?_getD, List.getElem?_eq_getElem (by omega)]
      rfl
    have hmap : ∀ (r : Nat) (row : List K), vals[r]? = some row → Sample.mapAll (fun f => f.index r) fs = .ok row := by
      intro r row hr
      have hwr : row.length = names.length := hw row (List.mem_of_getElem? hr)
      rw [Sample.mapAll_ok _ (fun f => match f.index r with | .ok x => x | .error _ => 0)]
      · congr 1
        apply List.ext_getElem?
        intro j
        rw [List.getElem?_map]
        by_cases hj : j < names.length
        · rw [hcol j _ (List.getElem?_eq_getElem hj), List.getElem?_eq_getElem (by omega)]
          simp only [Option.map_some, Feature.index, DenseFeature.index, List.getElem?_map, hr]
          rw [List.getD_eq_getElem?_getD, List.getElem?_eq_getElem (by omega)]
          rfl
        · rw [List.getElem?_eq_none (by omega), List.getElem?_eq_none (by omega)]
          rfl
      · intro f hf
        obtain ⟨j, nm, _, rfl⟩ := hmem f hf
        simp only [Feature.index, DenseFeature.index, List.getElem?_map, hr, Option.map_some]
    refine ⟨⟨?_, hnd, htable, ?_, ?_⟩, ?_, herase, ?_, htgt, ?_, ?_⟩
    · show fs.length - 1 = (fs.eraseIdx p).length
      rw [List.length_eraseIdx, if_pos (by omega)]
    · intro f hf
      obtain ⟨j, nm, _, rfl⟩ := hmem f (List.mem_of_mem_eraseIdx hf)
      simp [ColumnOk, hs]
    · simp [hs]
    · simp [Sample.shape, hs, hlen]
    · intro r row hr
      have hwr : row.length = names.length := hw row (List.mem_of_getElem? hr)
      refine ⟨row[p], List.getElem?_eq_getElem (by omega), ?_⟩
      unfold Sample.at'
      rw [Sample.mapAll_eraseIdx _ fs row p (hmap r row hr)]
      simp only
      rw [htgt r row hr, List.getElem?_eq_getElem (by omega)]
    · intro nm hnm hne
      have hj : names.idxOf nm < names.length := List.idxOf_lt_length_of_mem hnm
      have hjn : names[names.idxOf nm]? = some nm := by
        rw [List.getElem?_eq_getElem hj]; exact congrArg some (List.getElem_idxOf hj)
      set j := names.idxOf nm with hjdef
      have hjp : j ≠ p := by
        intro he
        rw [he, hpt] at hjn
        exact hne (Option.some.inj hjn).symm
      set f : Feature K := Feature.dense { name := nm, sample := vals.map fun r => r.getD j 0 } with hf
      have hfmem : f ∈ s.features := by
        show f ∈ fs.eraseIdx p
        rw [List.mem_eraseIdx_iff_getElem?]
        exact ⟨j, hjp, hcol j nm hjn⟩
      refine ⟨f, Sample.byName_ok hnd htable hfmem, ?_⟩
      intro r row hr
      have hwr : row.length = names.length := hw row (List.mem_of_getElem? hr)
      refine ⟨row[j], List.getElem?_eq_getElem (by omega), ?_⟩
      simp only [hf, Feature.index, DenseFeature.index, List.getElem?_map, hr, Option.map_some]
      rw [List.getD_eq_getElem?_getD, List.getElem?_eq_getElem (by omega)]
      rfl
    · intro nm hnm
      apply Sample.byName_missing htable
      show nm ∉ (fs.eraseIdx p).map Feature.name
      rw [herase]
      rcases hnm with hnm | rfl
      · exact fun h => hnm (List.mem_of_mem_erase h)
      · exact fun h => (hn.not_mem_erase) h

/-- **C43**: reading a rectangular numeric csv file with a header keeps every cell. -/
theorem csv_header_keeps_cells (parseIx : List Char → Option Nat) (parse : List Char → Option K)
    {names : List String} (hcomma : ∀ nm ∈ names, ',' ∉ nm.toList) (hn : names.Nodup) {t : String} (ht : t ∈ names)
    {text : List (List (List Char))} {vals : List (List K)} (h : IsTable parse names.length text vals) :
    ∃ s, SampleReader.read parseIx parse
        { file := some (some "csv", csvLine (names.map String.toList) :: text.map csvLine), hasHeader := true, target := some t } = .ok s
      ∧ ReadsAs s names t vals := by
  have hne : names ≠ [] := by rintro rfl; cases ht
  obtain ⟨s, h1, h2⟩ := setTarget_ofTable hn ht h.width
  refine ⟨s, ?_, h2⟩
  unfold SampleReader.read
  simp only [if_true]
  have := Sample.fromCsv_header parse names hne hcomma text vals h.noComma h.parses h.width
  simp only [csvLine]
  rw [show (List.map csvLine text) = text.map (fun r => [','].intercalate r) from rfl, this]
  exact h1

/-- **C43** without a header: the columns are called `Feat. [1]`, `Feat. [2]`, … (counted from one). -/
theorem csv_noheader_keeps_cells (parseIx : List Char → Option Nat) (parse : List Char → Option K)
    {m : Nat} {t : Nat} (ht : t < m) {text : List (List (List Char))} {vals : List (List K)}
    (h : IsTable parse m text vals) (hne : vals ≠ []) :
    ∃ s, SampleReader.read parseIx parse
        { file := some (some "csv", text.map csvLine), hasHeader := false, target := some (Sample.defaultName (t + 1)) } = .ok s
      ∧ ReadsAs s ((List.range m).map fun i => Sample.defaultName (i + 1)) (Sample.defaultName (t + 1)) vals := by
  cases vals with
  | nil => exact absurd rfl hne
  | cons v vals =>
    cases text with
    | nil => have := h.parses; simp at this
    | cons row text =>
      have hv : v.length = m := h.width v (by simp)
      have hvn : v ≠ [] := by rintro rfl; simp at hv; omega
      have := Sample.fromCsv_noheader parse row text v vals hvn h.noComma h.parses
        (fun r hr => by rw [hv]; exact h.width r (List.mem_cons_of_mem _ hr))
      rw [hv] at this
      have hnd : ((List.range m).map fun i => Sample.defaultName (i + 1)).Nodup := by
        apply List.Nodup.map _ List.nodup_range
        intro a b hab
        have := Sample.defaultName_injective hab
        omega
      obtain ⟨s, h1, h2⟩ := setTarget_ofTable (vals := v :: vals) hnd
        (List.mem_map.mpr ⟨t, List.mem_range.mpr ht, rfl⟩) (by simpa using h.width)
      refine ⟨s, ?_, h2⟩
      unfold SampleReader.read
      simp only [if_true]
      rw [show (List.map csvLine (row :: text)) = (row :: text).map (fun r => [','].intercalate r) from rfl, this]
      exact h1

/-- A digit-by-digit number parser, for the examples only. -/
def exParse (c : List Char) : Option ℚ :=
  if c = [] then none
  else if c.all Char.isDigit then some (c.foldl (fun (a : ℚ) d => 10 * a + ((d.toNat - 48 : Nat) : ℚ)) 0) else none

/-- The hypotheses of C43 on a concrete file: header `a,y,b`, lines `1,1,25` and `3,0,4`. -/
example : IsTable exParse 3 [["1".toList, "1".toList, "25".toList], ["3".toList, "0".toList, "4".toList]]
    [[1, 1, 25], [3, 0, 4]] := ⟨by decide, by decide +kernel, by decide⟩

example : (SampleReader.read (K := ℚ) (fun _ => none) exParse
    { file := some (some "csv", ["a,y,b".toList, "1,1,25".toList, "3,0,4".toList]), hasHeader := true, target := some "y" })
    = .ok { nameToIndex := [("a", 0), ("b", 1)], features := [.dense ⟨"a", [1, 3]⟩, .dense ⟨"b", [25, 4]⟩], target := [1, 0], nSample := 2, nFeature := 2 } := by
  decide +kernel

/-- Beyond C43 (non-rectangular files): a data line that is too short is accepted, and the later values of
the missing columns move up one row.  Here line 1 lacks its `b` cell, so row 0 reports the `b` value of line 2. -/
theorem csv_short_line_shifts :
    ∃ s, SampleReader.read (K := ℚ) (fun _ => none) exParse
        { file := some (some "csv", ["a,y,b".toList, "1,1".toList, "3,0,4".toList]), hasHeader := true, target := some "y" } = .ok s
      ∧ s.at' 0 = .ok ([1, 4], 1) ∧ s.at' 1 = .error .outOfRange := by
  refine ⟨{ nameToIndex := [("a", 0), ("b", 1)], features := [.dense ⟨"a", [1, 3]⟩, .dense ⟨"b", [4]⟩], target := [1, 0], nSample := 2, nFeature := 2 }, ?_, ?_, ?_⟩ <;> decide +kernel

/-- A line with more cells than the header panics. -/
theorem csv_long_line_panics :
    SampleReader.read (K := ℚ) (fun _ => none) exParse
        { file := some (some "csv", ["a,y".toList, "1,1,7".toList]), hasHeader := true, target := some "y" }
      = .error .outOfRange := by decide +kernel

/-! ## C46 -/

theorem dedupAdj_mem (l : List K) (x : K) : x ∈ dedupAdj l ↔ x ∈ l := by
  induction l with
  | nil => simp [dedupAdj]
  | cons a l ih =>
    cases l with
    | nil => simp [dedupAdj]
    | cons b l =>
      unfold dedupAdj
      by_cases hab : a = b
      · rw [if_pos hab, ih]; subst hab; simp
      · rw [if_neg hab, List.mem_cons, ih, List.mem_cons (a := x) (b := a)]

theorem dedupAdj_sorted (l : List K) (h : l.Pairwise (· ≤ ·)) : (dedupAdj l).Pairwise (· < ·) := by
  induction l with
  | nil => simp [dedupAdj]
  | cons a l ih =>
    cases l with
    | nil => simp [dedupAdj]
    | cons b l =>
      have h' := List.pairwise_cons.mp h
      unfold dedupAdj
      by_cases hab : a = b
      · rw [if_pos hab]; exact ih h'.2
      · rw [if_neg hab, List.pairwise_cons]
        refine ⟨?_, ih h'.2⟩
        intro x hx
        rw [dedupAdj_mem] at hx
        have hlt : a < b := lt_of_le_of_ne (h'.1 b (by simp)) hab
        rcases List.mem_cons.mp hx with rfl | hx
        · exact hlt
        · exact lt_of_lt_of_le hlt ((List.pairwise_cons.mp h'.2).1 x hx)

/-- **C46** (first half): `unique_target` lists exactly the labels that occur, each once, in increasing order. -/
theorem unique_target_spec (s : Sample K) :
    s.uniqueTarget.Pairwise (· < ·) ∧ ∀ y, y ∈ s.uniqueTarget ↔ y ∈ s.target := by
  refine ⟨dedupAdj_sorted _ (sortVec_sorted _), fun y => ?_⟩
  rw [Sample.uniqueTarget, dedupAdj_mem]
  exact (sortVec_perm s.target).mem_iff

example : ({ nameToIndex := [], features := [], target := [1, -1, 1, 0], nSample := 4, nFeature := 0 } : Sample ℚ).uniqueTarget
    = [-1, 0, 1] := by decide +kernel

theorem trunc_intCast [FloorRing K] (z : Int) : trunc (z : K) = z := by
  unfold trunc; split <;> simp

/-- `y` is an integer that fits into 32 bits. -/
def Fits [FloorRing K] (y : K) : Prop := ∃ z : Int, y = z ∧ -2147483648 ≤ z ∧ z ≤ 2147483647

theorem asI32_fits [FloorRing K] {y : K} (h : Fits y) : ((asI32 y : Int) : K) = y := by
  obtain ⟨z, rfl, h1, h2⟩ := h
  unfold asI32
  rw [trunc_intCast, min_eq_right h2, max_eq_right h1]

/-- **C46** (second half): among samples whose labels fit into 32-bit integers or are not integral,
`is_valid_binary_instance` accepts exactly those with one label per row, integral labels and exactly two different
ones. -/
theorem valid_binary_iff_partial [FloorRing K] (s : Sample K)
    (hfit : ∀ y ∈ s.target, (∃ z : Int, y = z) → Fits y) :
    s.isValidBinaryInstance = .ok () ↔
      s.target.length = s.nSample ∧ (∀ y ∈ s.target, ∃ z : Int, y = z) ∧ distinct s.target = 2 := by
  unfold Sample.isValidBinaryInstance isValidBinary
  have hint : (s.target.any fun y => decide ((trunc y : K) ≠ y)) = true ↔ ¬ ∀ y ∈ s.target, ∃ z : Int, y = z := by
    rw [List.any_eq_true]
    constructor
    · rintro ⟨y, hy, h⟩ hall
      obtain ⟨z, rfl⟩ := hall y hy
      rw [trunc_intCast] at h
      simp at h
    · intro h
      simp only [not_forall] at h
      obtain ⟨y, hy, hz⟩ := h
      refine ⟨y, hy, ?_⟩
      rw [decide_eq_true_eq]
      exact fun e => hz ⟨trunc y, e.symm⟩
  by_cases hl : s.nSample = s.target.length
  · rw [if_neg (by simpa using hl)]
    by_cases hi : ∀ y ∈ s.target, ∃ z : Int, y = z
    · rw [if_neg (by rw [hint]; simpa using hi)]
      have hcard : (s.target.map asI32).dedup.length = distinct s.target := by
        unfold distinct
        rw [← List.card_toFinset]
        have : ((s.target.map asI32).toFinset : Finset Int) = s.target.toFinset.image asI32 := by
          ext z; simp
        rw [this, Finset.card_image_of_injOn]
        intro a ha b hb hab
        have ha' := asI32_fits (hfit a (by simpa using ha) (hi a (by simpa using ha)))
        have hb' := asI32_fits (hfit b (by simpa using hb) (hi b (by simpa using hb)))
        rw [← ha', ← hb', hab]
      rw [hcard]
      by_cases h2 : distinct s.target = 2
      · rw [if_neg (by simpa using h2)]; simpa [hl, h2] using hi
      · rw [if_pos (by simpa using h2)]; simp [h2]
    · rw [if_pos (hint.mpr hi)]
      simp only [hi, reduceCtorEq, false_and, and_false]
  · rw [if_pos (by simpa using hl)]
    simp only [reduceCtorEq, false_iff]
    exact fun h => hl h.1.symm

/-- The restriction is needed: the labels `3·10⁹`, `4·10⁹`, `0` are three different integers, but the first
two saturate to the same 32-bit integer and the sample is accepted. -/
theorem valid_binary_accepts_three_labels :
    ({ nameToIndex := [], features := [], target := [3000000000, 4000000000, 0], nSample := 3, nFeature := 0 } : Sample ℚ).isValidBinaryInstance
      = .ok () ∧ distinct ([3000000000, 4000000000, 0] : List ℚ) = 3 := by
  constructor <;> decide +kernel

example : (∀ y ∈ ([1, -1, 1] : List ℚ), (∃ z : Int, y = z) → Fits y) := by
  intro y hy _
  simp only [List.mem_cons, List.not_mem_nil, or_false] at hy
  rcases hy with rfl | rfl | rfl
  · exact ⟨1, by norm_num⟩
  · exact ⟨-1, by norm_num⟩
  · exact ⟨1, by norm_num⟩

/-! ## C47 -/

/-- The column with another name. -/
def renamed (nm : String) : Feature K → Feature K
  | .dense f => .dense { f with name := nm }
  | .sparse f => .sparse { f with name := nm }

theorem replaceName_fst (nm : String) (f : Feature K) : (Feature.replaceName nm f).1 = renamed nm f := by
  cases f <;> rfl
theorem replaceName_snd (nm : String) (f : Feature K) : (Feature.replaceName nm f).2 = f.name := by
  cases f <;> rfl
theorem renamed_name (nm : String) (f : Feature K) : (renamed nm f).name = nm := by cases f <;> rfl
theorem renamed_self (f : Feature K) : renamed f.name f = f := by cases f <;> rfl
theorem renamed_twice (a b : String) (f : Feature K) : renamed a (renamed b f) = renamed a f := by cases f <;> rfl
theorem renamed_index (nm : String) (f : Feature K) (i : Nat) : (renamed nm f).index i = f.index i := by
  cases f <;> rfl

/-- **C47**: renaming panics exactly when the number of names is wrong. -/
theorem rename_panics_iff {s : Sample K} (hs : SampleOk s) (names : List String) :
    (∃ e, s.replaceNames names = .error e) ↔ names.length ≠ s.features.length := by
  unfold Sample.replaceNames
  rw [hs.count]
  constructor
  · rintro ⟨e, he⟩ hl
    rw [if_neg (by simpa using hl)] at he
    cases he
  · intro h
    exact ⟨_, if_pos h⟩

/-- **C47**: otherwise it returns the old names, changes only names, makes lookup work under the new names, and
renaming back restores the sample. -/
theorem rename_spec {s : Sample K} (hs : SampleOk s) {names : List String} (hl : names.length = s.features.length) (hn : names.Nodup) :
    ∃ s', s.replaceNames names = .ok (s', s.features.map Feature.name) ∧ SampleOk s' ∧
      s'.target = s.target ∧ s'.shape = s.shape ∧ s'.features.map Feature.name = names ∧
      (∀ (j : Nat) (f : Feature K), s.features[j]? = some f → ∃ nm g, names[j]? = some nm ∧ s'.features[j]? = some g ∧ g = renamed nm f ∧
        s'.byName nm = .ok g ∧ ∀ i, g.index i = f.index i) ∧
      s'.replaceNames (s.features.map Feature.name) = .ok (s, names) := by
  set fs := List.zipWith renamed names s.features with hfs
  have hlen : fs.length = s.features.length := by rw [hfs, List.length_zipWith, hl, min_self]
  have hnames : fs.map Feature.name = names := by
    apply List.ext_getElem
    · simp [hlen, hl]
    · intro i h1 h2
      simp [hfs, renamed_name]
  have hnd : (fs.map Feature.name).Nodup := by rw [hnames]; exact hn
  set s' : Sample K := { s with features := fs, nameToIndex := Sample.indexNames fs } with hs'
  have htab : s'.nameToIndex = (s'.features.map Feature.name).zipIdx := Sample.indexNames_ok hnd
  have hrep : s.replaceNames names = .ok (s', s.features.map Feature.name) := by
    unfold Sample.replaceNames
    rw [if_neg (by rw [hs.count]; simpa using hl)]
    have h1 : List.zipWith (fun name f => (Feature.replaceName name f).1) names s.features
        ++ s.features.drop names.length = fs := by
      rw [hl, List.drop_length, List.append_nil, hfs]
      simp only [replaceName_fst]
    have h2 : List.zipWith (fun name f => (Feature.replaceName name f).2) names s.features
        = s.features.map Feature.name := by
      apply List.ext_getElem
      · simp [hl]
      · intro i h1 h2; simp [replaceName_snd]
    rw [h1, h2]
  refine ⟨s', hrep, ⟨?_, hnd, htab, ?_, hs.labels⟩, rfl, rfl, hnames, ?_, ?_⟩
  · show s.nFeature = fs.length
    rw [hs.count, hlen]
  · intro f hf
    obtain ⟨j, hj, rfl⟩ := List.getElem_of_mem hf
    have hj' : j < s.features.length := by rw [← hlen]; exact hj
    have := hs.columns s.features[j] (List.getElem_mem hj')
    have e : s'.features[j] = renamed (names[j]'(by omega)) s.features[j] := by
      show fs[j] = _
      simp [hfs]
    rw [e]
    cases hc : s.features[j] with
    | dense f => rw [hc] at this; exact this
    | sparse f => rw [hc] at this; exact this
  · intro j f hf
    have hj : j < s.features.length := (List.getElem?_eq_some_iff.mp hf).1
    have hfj : s.features[j] = f := (List.getElem?_eq_some_iff.mp hf).2
    have hj1 : j < names.length := by omega
    have hg : s'.features[j]? = some (renamed names[j] f) := by
      show fs[j]? = _
      rw [List.getElem?_eq_getElem (by omega)]
      simp [hfs, hfj]
    refine ⟨names[j], renamed names[j] f, List.getElem?_eq_getElem hj1, hg, rfl, ?_, renamed_index _ _⟩
    have := Sample.byName_ok hnd htab (List.mem_of_getElem? hg)
    rw [renamed_name] at this
    exact this
  · unfold Sample.replaceNames
    rw [if_neg (by show ¬ _ ≠ s.nFeature; rw [hs.count]; simp)]
    have h1 : List.zipWith (fun name f => (Feature.replaceName name f).1) (s.features.map Feature.name) s'.features
        ++ s'.features.drop (s.features.map Feature.name).length = s.features := by
      show List.zipWith _ _ fs ++ fs.drop _ = _
      rw [List.length_map, ← hlen, List.drop_length, List.append_nil]
      apply List.ext_getElem
      · simp [hlen]
      · intro i h1 h2
        simp [replaceName_fst, hfs, renamed_twice, renamed_self]
    have h2 : List.zipWith (fun name f => (Feature.replaceName name f).2) (s.features.map Feature.name) s'.features
        = names := by
      show List.zipWith _ _ fs = _
      apply List.ext_getElem
      · simp [hlen, hl]
      · intro i h1 h2
        simp [replaceName_snd, hfs, renamed_name]
    simp only [h1, h2]
    rw [Sample.indexNames_ok hs.names, ← hs.table]

/-- A sample meeting the hypotheses of C47. -/
def exTable3 : Sample ℚ :=
  { nameToIndex := [("a", 0), ("b", 1)], features := [.dense ⟨"a", [1, 3]⟩, .sparse ⟨"b", [(1, 4)], 2⟩], target := [1, 0], nSample := 2, nFeature := 2 }

theorem exTable3_ok : SampleOk exTable3 := by
  refine ⟨rfl, by decide, by decide +kernel, ?_, rfl⟩
  intro f hf
  simp only [exTable3, List.mem_cons, List.not_mem_nil, or_false] at hf
  rcases hf with rfl | rfl
  · rfl
  · refine ⟨rfl, by decide, ?_⟩
    intro p hp
    simp only [List.mem_singleton] at hp
    subst hp; decide

example : (exTable3.replaceNames ["b", "c"]).map Prod.snd = .ok ["a", "b"] := by decide +kernel

end Miniboosts.Props
