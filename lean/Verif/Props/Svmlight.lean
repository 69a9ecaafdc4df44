import Verif.Lemmas.Svmlight
import Verif.Props.Sample

/-! # C44 svmlight files -/

set_option linter.unusedSectionVars false

namespace Miniboosts.Props

open Spec

variable {K : Type*} [Field K] [LinearOrder K] [IsStrictOrderedRing K]

/-- The text of a svmlight line with label text `y` and the pairs `i:x`. -/
def svmLine (y : List Char) (pairs : List (List Char × List Char)) : List Char :=
  [' '].intercalate (y :: pairs.map (fun p => p.1 ++ ':' :: p.2))

/-- The words `y` and `pairs` are written without blanks (nor colons inside a pair) and parse to the label
`row.1` and the (index, value) pairs `row.2`. -/
structure IsSvmRow (parseIx : List Char → Option Nat) (parse : List Char → Option K)
    (text : List Char × List (List Char × List Char)) (row : K × List (Nat × K)) : Prop where
  labelNe : text.1 ≠ []
  labelBlank : ∀ c ∈ text.1, c.isWhitespace = false
  blank : ∀ p ∈ text.2, (∀ c ∈ p.1, c.isWhitespace = false) ∧ ∀ c ∈ p.2, c.isWhitespace = false
  colon : ∀ p ∈ text.2, ':' ∉ p.1 ∧ ':' ∉ p.2
  label : parse text.1 = some row.1
  pairs : text.2.map (fun p => (parseIx p.1, parse p.2)) = row.2.map (fun q => (some q.1, some q.2))

/-- What reading the svmlight rows must give: the labels in order, and for each feature index mentioned
anywhere a column (named after the index, counted from one) with the given values and zero elsewhere; an
index that no line mentions has no column. -/
structure SvmReadsAs (s : Sample K) (rows : List (K × List (Nat × K))) : Prop where
  ok : SampleOk s
  nSample : s.nSample = rows.length
  target : s.target = rows.map Prod.fst
  mentioned : ∀ i, (∃ row ∈ rows, i ∈ row.2.map Prod.fst) → ∃ f, s.byName (Sample.defaultName (i + 1)) = .ok f ∧
    ∀ (r : Nat) (row : K × List (Nat × K)), rows[r]? = some row →
      (∀ x, (i, x) ∈ row.2 → f.index r = .ok x) ∧ (i ∉ row.2.map Prod.fst → f.index r = .ok 0)
  unmentioned : ∀ nm, (∀ i, (∃ row ∈ rows, i ∈ row.2.map Prod.fst) → nm ≠ Sample.defaultName (i + 1)) →
    s.byName nm = .error .unwrapNone

theorem lineIs_of_text {parseIx : List Char → Option Nat} {parse : List Char → Option K}
    {text : List Char × List (List Char × List Char)} {row : K × List (Nat × K)}
    (h : IsSvmRow parseIx parse text row) : Sample.LineIs parseIx parse (svmLine text.1 text.2) row := by
  refine ⟨text.1, text.2.map (fun p => p.1 ++ ':' :: p.2), ?_, h.label, ?_⟩
  · unfold svmLine
    apply Sample.splitWhitespace_intercalate
    · intro w hw
      rcases List.mem_cons.mp hw with rfl | hw
      · exact h.labelNe
      · obtain ⟨p, _, rfl⟩ := List.mem_map.mp hw
        simp
    · intro w hw
      rcases List.mem_cons.mp hw with rfl | hw
      · exact h.labelBlank
      · obtain ⟨p, hp, rfl⟩ := List.mem_map.mp hw
        intro c hc
        rcases List.mem_append.mp hc with hc | hc
        · exact (h.blank p hp).1 c hc
        · rcases List.mem_cons.mp hc with rfl | hc
          · decide
          · exact (h.blank p hp).2 c hc
  · have hp := h.pairs
    have hc := h.colon
    generalize row.2 = q at hp
    generalize text.2 = t at hp hc
    induction t generalizing q with
    | nil => cases q with
      | nil => rfl
      | cons => simp at hp
    | cons p t ih =>
      cases q with
      | nil => simp at hp
      | cons a q =>
        simp only [List.map_cons, List.cons.injEq, Prod.mk.injEq] at hp ⊢
        have hcp := hc p (by simp)
        refine ⟨?_, ih q hp.2 (fun u hu => hc u (List.mem_cons_of_mem _ hu))⟩
        exact Sample.indexAndFeature_ok parseIx parse hcp.1 hcp.2 hp.1.1 hp.1.2

/-- **C44** (svmlight): reading a svmlight file in which no line repeats a feature index keeps every number,
and the values that are not mentioned read as zero. -/
theorem svmlight_keeps_values (parseIx : List Char → Option Nat) (parse : List Char → Option K)
    {ext : Option String} (hext : ext ≠ some "csv") {texts : List (List Char × List (List Char × List Char))}
    {rows : List (K × List (Nat × K))} (h : List.Forall₂ (IsSvmRow parseIx parse) texts rows)
    (hn : ∀ row ∈ rows, (row.2.map Prod.fst).Nodup) (hasHeader : Bool) (target : Option String) :
    ∃ s, SampleReader.read parseIx parse
        { file := some (ext, texts.map (fun t => svmLine t.1 t.2)), hasHeader := hasHeader, target := target } = .ok s
      ∧ SvmReadsAs s rows := by
  have hl : List.Forall₂ (Sample.LineIs parseIx parse) (texts.map (fun t => svmLine t.1 t.2)) rows := by
    rw [List.forall₂_map_left_iff]
    exact h.imp (fun _ _ => lineIs_of_text)
  obtain ⟨fs, h1, h2⟩ := Sample.svmLines_ok parseIx parse _ rows [] hl [] (by intro i; simp [Sample.entries])
  simp only [List.map_nil, List.length_nil, List.nil_append] at h1 h2
  set feats : List (Feature K) := fs.map (fun f => Feature.sparse { f with nSample := rows.length }) with hfeats
  set kept := feats.filter (fun f => !f.isEmpty) with hkept
  set s : Sample K := { nameToIndex := Sample.indexNames kept, features := kept, target := rows.map Prod.fst, nSample := rows.length, nFeature := kept.length } with hs
  have hmem : ∀ f, f ∈ kept ↔ ∃ i, Sample.entries rows i ≠ [] ∧
      f = Feature.sparse ⟨Sample.defaultName (i + 1), Sample.entries rows i, rows.length⟩ := by
    intro f
    rw [hkept, List.mem_filter, hfeats, List.mem_map]
    constructor
    · rintro ⟨⟨g, hg, rfl⟩, hne⟩
      obtain ⟨i, hi, rfl⟩ := List.getElem_of_mem hg
      have := h2 i
      rw [List.getElem?_eq_getElem hi] at this
      simp only at this
      refine ⟨i, ?_, ?_⟩
      · rw [← this.2]
        intro he
        simp [Feature.isEmpty, he] at hne
      · rw [← this.1, ← this.2]
    · rintro ⟨i, hne, rfl⟩
      have := h2 i
      cases hi : fs[i]? with
      | none => rw [hi] at this; exact absurd this hne
      | some g =>
        rw [hi] at this
        simp only at this
        refine ⟨⟨g, List.mem_of_getElem? hi, ?_⟩, ?_⟩
        · rw [← this.1, ← this.2]
        · cases he : Sample.entries rows i with
          | nil => exact absurd he hne
          | cons a l => simp [Feature.isEmpty]
  have hnames : (feats.map Feature.name).Nodup := by
    have : feats.map Feature.name = (List.range fs.length).map (fun i => Sample.defaultName (i + 1)) := by
      apply List.ext_getElem?
      intro i
      rw [hfeats, List.getElem?_map, List.getElem?_map, List.getElem?_map]
      have := h2 i
      by_cases hi : i < fs.length
      · rw [List.getElem?_eq_getElem hi] at this ⊢
        rw [List.getElem?_range hi]
        simp only at this
        simp [Feature.name, this.1]
      · rw [List.getElem?_eq_none (by omega), List.getElem?_eq_none (by simpa using hi)]
        rfl
    rw [this]
    apply List.Nodup.map _ List.nodup_range
    intro a b hab
    have := Sample.defaultName_injective hab
    omega
  have hkn : (kept.map Feature.name).Nodup := hnames.sublist (List.filter_sublist.map _)
  have htab : s.nameToIndex = (s.features.map Feature.name).zipIdx := Sample.indexNames_ok hkn
  have hent : ∀ i, Sample.entries rows i ≠ [] ↔ ∃ row ∈ rows, i ∈ row.2.map Prod.fst := by
    intro i
    constructor
    · intro hne
      obtain ⟨⟨r, x⟩, hp⟩ := List.exists_mem_of_ne_nil _ hne
      obtain ⟨row, hr, hm⟩ := Sample.entries_mem.mp hp
      exact ⟨row, List.mem_of_getElem? hr, List.mem_map.mpr ⟨(i, x), hm, rfl⟩⟩
    · rintro ⟨row, hr, hi⟩
      obtain ⟨r, hlt, rfl⟩ := List.getElem_of_mem hr
      obtain ⟨⟨i', x⟩, hm, rfl⟩ := List.mem_map.mp hi
      exact List.ne_nil_of_mem (Sample.entries_mem.mpr ⟨_, List.getElem?_eq_getElem hlt, hm⟩)
  refine ⟨s, ?_, ⟨rfl, hkn, htab, ?_, ?_⟩, rfl, rfl, ?_, ?_⟩
  · unfold SampleReader.read
    simp only [if_neg hext]
    unfold Sample.fromSvmlight
    rw [h1]
    rfl
  · intro f hf
    obtain ⟨i, _, rfl⟩ := (hmem f).mp hf
    refine ⟨rfl, Sample.entries_sorted hn i, ?_⟩
    rintro ⟨r, x⟩ hp
    obtain ⟨row, hr, _⟩ := Sample.entries_mem.mp hp
    exact (List.getElem?_eq_some_iff.mp hr).1
  · simp [hs]
  · intro i hi
    set f : Feature K := Feature.sparse ⟨Sample.defaultName (i + 1), Sample.entries rows i, rows.length⟩ with hf
    refine ⟨f, ?_, ?_⟩
    · have := Sample.byName_ok hkn htab ((hmem f).mpr ⟨i, (hent i).mpr hi, rfl⟩)
      exact this
    · intro r row hr
      have hsorted := Sample.entries_sorted hn i
      constructor
      · intro x hx
        simp only [hf, Feature.index]
        congr 1
        exact sparse_index_mem (f := ⟨Sample.defaultName (i + 1), Sample.entries rows i, rows.length⟩) hsorted
          (Sample.entries_mem.mpr ⟨row, hr, hx⟩)
      · intro hx
        simp only [hf, Feature.index]
        congr 1
        apply sparse_index_absent
        rintro ⟨r', x⟩ hp rfl
        obtain ⟨row', hr', hm⟩ := Sample.entries_mem.mp hp
        rw [hr] at hr'
        cases hr'
        exact hx (List.mem_map.mpr ⟨(i, x), hm, rfl⟩)
  · intro nm hnm
    apply Sample.byName_missing htab
    intro hmem'
    obtain ⟨f, hf, rfl⟩ := List.mem_map.mp hmem'
    obtain ⟨i, hi, rfl⟩ := (hmem f).mp hf
    exact hnm i ((hent i).mp hi) rfl

/-- The index parser of the examples. -/
def exParseIx (c : List Char) : Option Nat :=
  if c = [] then none
  else if c.all Char.isDigit then some (c.foldl (fun (a : Nat) d => 10 * a + (d.toNat - 48)) 0) else none

/-- The hypotheses of C44 on the file with the lines `1 0:5 3:2` and `0 3:7`. -/
example : List.Forall₂ (IsSvmRow exParseIx exParse)
    [("1".toList, [("0".toList, "5".toList), ("3".toList, "2".toList)]), ("0".toList, [("3".toList, "7".toList)])]
    [((1 : ℚ), [(0, 5), (3, 2)]), (0, [(3, 7)])] := by
  refine .cons ⟨by decide, by decide, by decide, by decide, by decide +kernel, by decide +kernel⟩
    (.cons ⟨by decide, by decide, by decide, by decide, by decide +kernel, by decide +kernel⟩ .nil)

example : SampleReader.read (K := ℚ) exParseIx exParse { file := some (none, ["1 0:5 3:2".toList, "0 3:7".toList]) }
    = .ok { nameToIndex := [("Feat. [1]", 0), ("Feat. [4]", 1)], features := [.sparse ⟨"Feat. [1]", [(0, 5)], 2⟩, .sparse ⟨"Feat. [4]", [(0, 2), (1, 7)], 2⟩], target := [1, 0], nSample := 2, nFeature := 2 } := by
  decide +kernel

end Miniboosts.Props
