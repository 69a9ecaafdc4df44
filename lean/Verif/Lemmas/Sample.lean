import Verif.Lemmas.Feature
import Verif.Lemmas.Basic
import Std.Data.String.ToNat

set_option linter.unusedSectionVars false

namespace Miniboosts

open Spec

variable {K : Type*} [Field K] [LinearOrder K]

namespace Sample

/-! ## mapAll -/

theorem mapAll_ok {A : Type*} (f : Feature K → Except Panic A) (g : Feature K → A) (l : List (Feature K))
    (h : ∀ c ∈ l, f c = .ok (g c)) : mapAll f l = .ok (l.map g) := by
  induction l with
  | nil => rfl
  | cons c l ih =>
    unfold mapAll
    rw [h c (by simp), ih (fun c hc => h c (List.mem_cons_of_mem _ hc))]
    rfl

theorem mapAll_eraseIdx {A : Type*} (f : Feature K → Except Panic A) (l : List (Feature K)) (r : List A) (p : Nat)
    (h : mapAll f l = .ok r) : mapAll f (l.eraseIdx p) = .ok (r.eraseIdx p) := by
  induction l generalizing r p with
  | nil =>
    unfold mapAll at h
    injection h with h
    subst h
    simp [mapAll]
  | cons c l ih =>
    unfold mapAll at h
    cases hc : f c with
    | error e => rw [hc] at h; cases h
    | ok a =>
      rw [hc] at h
      simp only at h
      cases hl : mapAll f l with
      | error e => rw [hl] at h; cases h
      | ok as =>
        rw [hl] at h
        simp only [Except.map, Except.ok.injEq] at h
        subst h
        cases p with
        | zero => simpa using hl
        | succ p =>
          rw [List.eraseIdx_cons_succ, List.eraseIdx_cons_succ]
          unfold mapAll
          rw [hc]
          simp only
          rw [ih as p hl]
          rfl

/-! ## Columns of a table -/

/-- The columns of a rectangular table of numbers. -/
def columns (names : List String) (vals : List (List K)) : List (DenseFeature K) :=
  names.zipIdx.map fun p => { name := p.1, sample := vals.map fun r => r.getD p.2 0 }

theorem columns_length (names : List String) (vals : List (List K)) : (columns names vals).length = names.length := by
  simp [columns]

theorem columns_names (names : List String) (vals : List (List K)) :
    (columns names vals).map (fun f => f.name) = names := by
  simp only [columns, List.map_map, Function.comp_def]
  apply List.ext_getElem <;> simp

theorem columns_nil (names : List String) :
    columns (K := K) names [] = names.map DenseFeature.new := by
  apply List.ext_getElem
  · simp [columns]
  · intro i h1 h2
    simp [columns, DenseFeature.new]

theorem columns_append (names : List String) (vals : List (List K)) (row : List K)
    (hr : row.length = names.length) :
    List.zipWith (fun f x => DenseFeature.append f x) (columns names vals) row = columns names (vals ++ [row]) := by
  apply List.ext_getElem
  · simp [columns, hr]
  · intro i h1 h2
    have hi : i < row.length := by
      rw [List.length_zipWith] at h1; omega
    simp [columns, DenseFeature.append, hi]

theorem columns_get {names : List String} {vals : List (List K)} {j : Nat} {nm : String}
    (h : names[j]? = some nm) :
    (columns names vals)[j]? = some { name := nm, sample := vals.map fun r => r.getD j 0 } := by
  simp [columns, h]

theorem csvCells_ok (parse : List Char → Option K) (cells : List (List Char)) (xs : List K)
    (h : cells.map parse = xs.map some) (i : Nat) (pre fs : List (DenseFeature K)) (hi : pre.length = i)
    (hl : fs.length = xs.length) :
    csvCells parse cells i (pre ++ fs) = .ok (pre ++ List.zipWith (fun f x => DenseFeature.append f x) fs xs) := by
  induction cells generalizing xs i pre fs with
  | nil =>
    have : xs = [] := by cases xs with | nil => rfl | cons => simp at h
    subst this
    have : fs = [] := List.length_eq_zero_iff.mp (by simpa using hl)
    subst this
    simp [csvCells]
  | cons c cells ih =>
    cases xs with
    | nil => simp at h
    | cons x xs =>
      cases fs with
      | nil => simp at hl
      | cons f fs =>
        simp only [List.map_cons, List.cons.injEq] at h
        unfold csvCells
        rw [h.1]
        simp only
        have hg : (pre ++ f :: fs)[i]? = some f := by
          rw [List.getElem?_append_right (by omega)]; simp [hi]
        rw [hg]
        simp only
        have hset : (pre ++ f :: fs).set i (f.append x) = (pre ++ [f.append x]) ++ fs := by
          rw [List.set_append_right _ _ (by omega)]; simp [hi]
        rw [hset, ih xs h.2 (i + 1) (pre ++ [f.append x]) fs (by simp [hi]) (by simpa using hl)]
        simp

theorem csvLines_ok (parse : List Char → Option K) (names : List String) (hne : names ≠ [])
    (text : List (List (List Char))) (vals done : List (List K))
    (hc : ∀ row ∈ text, ∀ c ∈ row, ',' ∉ c)
    (hp : text.map (fun r => r.map parse) = vals.map (fun r => r.map some))
    (hw : ∀ r ∈ vals, r.length = names.length) :
    csvLines parse (text.map fun r => [','].intercalate r) true (columns names done) done.length
      = .ok (columns names (done ++ vals), (done ++ vals).length) := by
  induction text generalizing vals done with
  | nil =>
    have : vals = [] := by cases vals with | nil => rfl | cons => simp at hp
    subst this
    simp [csvLines]
  | cons row text ih =>
    cases vals with
    | nil => simp at hp
    | cons v vals =>
      simp only [List.map_cons, List.cons.injEq] at hp
      have hv : v.length = names.length := hw v (by simp)
      have hrow : row ≠ [] := by
        rintro rfl
        have := congrArg List.length hp.1
        simp only [List.map_nil, List.length_nil, List.length_map] at this
        rw [hv] at this
        exact hne (List.length_eq_zero_iff.mp this.symm)
      rw [List.map_cons]
      unfold csvLines
      rw [if_neg (by simp), List.splitOn_intercalate ',' (hc row (by simp)) hrow]
      have h1 := csvCells_ok parse row v hp.1 0 [] (columns names done) rfl (by rw [columns_length, hv])
      simp only [List.nil_append] at h1
      rw [h1]
      simp only
      rw [columns_append names done v hv]
      have h2 := ih vals (done ++ [v]) (fun r hr => hc r (List.mem_cons_of_mem _ hr)) hp.2
        (fun r hr => hw r (List.mem_cons_of_mem _ hr))
      rw [List.length_append, List.length_singleton] at h2
      rw [h2]
      simp

theorem parseCells_ok (parse : List Char → Option K) (cells : List (List Char)) (xs : List K)
    (h : cells.map parse = xs.map some) : parseCells parse cells = .ok xs := by
  induction cells generalizing xs with
  | nil =>
    have : xs = [] := by cases xs with | nil => rfl | cons => simp at h
    subst this; rfl
  | cons c cells ih =>
    cases xs with
    | nil => simp at h
    | cons x xs =>
      simp only [List.map_cons, List.cons.injEq] at h
      unfold parseCells
      rw [h.1]
      simp only
      rw [ih xs h.2]; rfl

/-- The sample obtained from a table before a target is chosen. -/
def ofTable (names : List String) (vals : List (List K)) : Sample K :=
  { nameToIndex := indexNames ((columns names vals).map Feature.dense)
    features := (columns names vals).map Feature.dense, target := [], nSample := vals.length
    nFeature := ((columns names vals).map Feature.dense).length }

theorem fromCsv_header (parse : List Char → Option K) (names : List String) (hne : names ≠ [])
    (hcomma : ∀ nm ∈ names, ',' ∉ nm.toList) (text : List (List (List Char))) (vals : List (List K))
    (hc : ∀ row ∈ text, ∀ c ∈ row, ',' ∉ c)
    (hp : text.map (fun r => r.map parse) = vals.map (fun r => r.map some))
    (hw : ∀ r ∈ vals, r.length = names.length) :
    fromCsv parse (([','].intercalate (names.map String.toList)) :: text.map fun r => [','].intercalate r) true
      = .ok (ofTable names vals) := by
  unfold fromCsv
  simp only [if_true]
  rw [List.splitOn_intercalate ',' (by
    intro l hl
    obtain ⟨nm, h1, rfl⟩ := List.mem_map.mp hl
    exact hcomma nm h1) (by simpa using hne)]
  have hcols : (names.map String.toList).map (fun c => DenseFeature.new (K := K) (String.ofList c))
      = columns names [] := by
    rw [columns_nil, List.map_map]
    apply List.map_congr_left
    intro nm _
    simp
  rw [hcols]
  have h := csvLines_ok parse names hne text vals [] hc hp hw
  simp only [List.length_nil, List.nil_append] at h
  rw [h]
  rfl

theorem fromCsv_noheader (parse : List Char → Option K) (row : List (List Char)) (text : List (List (List Char)))
    (v : List K) (vals : List (List K)) (hne : v ≠ [])
    (hc : ∀ r ∈ row :: text, ∀ c ∈ r, ',' ∉ c)
    (hp : (row :: text).map (fun r => r.map parse) = (v :: vals).map (fun r => r.map some))
    (hw : ∀ r ∈ vals, r.length = v.length) :
    fromCsv parse ((row :: text).map fun r => [','].intercalate r) false
      = .ok (ofTable ((List.range v.length).map fun i => defaultName (i + 1)) (v :: vals)) := by
  simp only [List.map_cons, List.cons.injEq] at hp
  set names := (List.range v.length).map fun i => defaultName (i + 1) with hnames
  have hlen : names.length = v.length := by simp [hnames]
  have hrow : row ≠ [] := by
    rintro rfl
    have := congrArg List.length hp.1
    simp only [List.map_nil, List.length_nil, List.length_map] at this
    exact hne (List.length_eq_zero_iff.mp this.symm)
  have hcols : (v.zipIdx).map (fun p => (DenseFeature.new (K := K) (defaultName (p.2 + 1))).append p.1)
      = columns names [v] := by
    apply List.ext_getElem
    · simp [columns, hlen]
    · intro i h1 h2
      have hi : i < v.length := by simpa using h1
      simp [columns, hnames, DenseFeature.new, DenseFeature.append, hi]
  unfold fromCsv
  simp only [Bool.false_eq_true, if_false]
  rw [List.map_cons]
  unfold csvLines
  rw [if_pos rfl, List.splitOn_intercalate ',' (hc row (by simp)) hrow, parseCells_ok parse row v hp.1]
  simp only
  rw [hcols]
  have hnn : names ≠ [] := by
    intro h0; rw [h0] at hlen
    exact hne (List.length_eq_zero_iff.mp hlen.symm)
  have h := csvLines_ok parse names hnn text vals [v] (fun r hr => hc r (List.mem_cons_of_mem _ hr)) hp.2
    (fun r hr => by rw [hlen]; exact hw r hr)
  simp only [List.length_singleton, List.cons_append, List.nil_append] at h
  rw [zero_add, h]
  rfl

/-! ## Choosing the target, looking columns up by name -/

theorem indexNames_ok {fs : List (Feature K)} (hn : (fs.map Feature.name).Nodup) :
    indexNames fs = (fs.map Feature.name).zipIdx := by
  unfold indexNames
  apply HMap.collect_of_nodup
  have : ((fs.map Feature.name).zipIdx).map Prod.fst = fs.map Feature.name := by
    apply List.ext_getElem <;> simp
  rw [this]; exact hn

theorem byName_ok {s : Sample K} (hn : (s.features.map Feature.name).Nodup)
    (ht : s.nameToIndex = (s.features.map Feature.name).zipIdx) {f : Feature K} (hf : f ∈ s.features) :
    s.byName f.name = .ok f := by
  obtain ⟨j, hj, rfl⟩ := List.getElem_of_mem hf
  have hget : HMap.get? s.nameToIndex (s.features[j]).name = some j := by
    rw [ht]
    apply HMap.get?_of_nodup
    · have : ((s.features.map Feature.name).zipIdx).map Prod.fst = s.features.map Feature.name := by
        apply List.ext_getElem <;> simp
      rw [this]; exact hn
    · rw [List.mem_iff_getElem]
      exact ⟨j, by simpa using hj, by simp⟩
  unfold byName
  rw [hget]
  simp only
  rw [List.getElem?_eq_getElem hj]

theorem byName_missing {s : Sample K} (ht : s.nameToIndex = (s.features.map Feature.name).zipIdx) {nm : String}
    (hf : nm ∉ s.features.map Feature.name) : s.byName nm = .error .unwrapNone := by
  have : HMap.get? s.nameToIndex nm = none := by
    rw [HMap.get?_eq_none_iff, ht]
    have : ((s.features.map Feature.name).zipIdx).map Prod.fst = s.features.map Feature.name := by
      apply List.ext_getElem <;> simp
    rw [this]; exact hf
  unfold byName
  rw [this]

theorem defaultName_injective : Function.Injective defaultName := by
  intro a b h
  unfold defaultName at h
  have h' := congrArg String.toList h
  simp only [String.toList_append] at h'
  have h1 := List.append_cancel_right h'
  have h2 := List.append_cancel_left h1
  have h3 : toString a = toString b := String.toList_inj.mp h2
  exact Nat.repr_injective h3

end Sample

end Miniboosts
