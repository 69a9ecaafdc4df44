import Verif.Lemmas.Sample
import Mathlib.Data.List.Flatten

set_option linter.unusedSectionVars false

namespace Miniboosts

open Spec

variable {K : Type*} [Field K] [LinearOrder K]

namespace Sample

/-! ## The text of a line -/

theorem splitWhitespace_intercalate (ws : List (List Char)) (h1 : ∀ w ∈ ws, w ≠ [])
    (h2 : ∀ w ∈ ws, ∀ c ∈ w, c.isWhitespace = false) : splitWhitespace ([' '].intercalate ws) = ws := by
  unfold splitWhitespace
  have hsp : (' ' : Char).isWhitespace = true := by decide
  have key : ∀ ws : List (List Char), ws ≠ [] → (∀ w ∈ ws, ∀ c ∈ w, c.isWhitespace = false) →
      ([' '].intercalate ws).splitOnP Char.isWhitespace = ws := by
    intro ws
    induction ws with
    | nil => intro h; exact absurd rfl h
    | cons w ws ih =>
      intro _ h
      cases ws with
      | nil =>
        rw [List.intercalate_singleton, List.splitOnP_eq_singleton (h w (by simp))]
      | cons v ws =>
        rw [List.intercalate_cons_cons, List.append_assoc, List.singleton_append,
          List.splitOnP_append_cons_of_forall_mem (h w (by simp)) ' ' hsp,
          ih (by simp) (fun u hu => h u (List.mem_cons_of_mem _ hu))]
  by_cases hne : ws = []
  · subst hne; rfl
  · rw [key ws hne h2, List.filter_eq_self]
    intro w hw
    cases hw' : w with
    | nil => exact absurd hw' (h1 w hw)
    | cons a l => rfl

theorem indexAndFeature_ok (parseIx : List Char → Option Nat) (parse : List Char → Option K)
    {a b : List Char} (ha : ':' ∉ a) (hb : ':' ∉ b) {i : Nat} {x : K} (hi : parseIx a = some i)
    (hx : parse b = some x) : indexAndFeature parseIx parse (a ++ ':' :: b) = .ok (i, x) := by
  unfold indexAndFeature
  rw [List.splitOn_append_cons_self_of_not_mem ha, List.splitOn_eq_singleton hb]
  simp only [hi, hx]

/-! ## The columns while reading -/

/-- `fs` are the columns read so far: the `i`-th has the `i`-th default name and the entries `g i`; columns not
created yet have no entries. -/
def FsIs (fs : List (SparseFeature K)) (g : Nat → List (Nat × K)) : Prop :=
  ∀ i, match fs[i]? with
    | some f => f.name = defaultName (i + 1) ∧ f.sample = g i
    | none => g i = []

theorem growTo_length (i : Nat) (fs : List (SparseFeature K)) : i < (growTo i fs).length := by
  simp [growTo]; omega

theorem growTo_is {fs : List (SparseFeature K)} {g : Nat → List (Nat × K)} (h : FsIs fs g) (i : Nat) :
    FsIs (growTo i fs) g := by
  intro j
  have hj := h j
  unfold growTo
  by_cases hlt : j < fs.length
  · rw [List.getElem?_append_left hlt]; exact hj
  · rw [List.getElem?_append_right (by omega)]
    have hnone : fs[j]? = none := List.getElem?_eq_none (by omega)
    rw [hnone] at hj
    simp only at hj
    by_cases hlt2 : j - fs.length < i + 1 - fs.length
    · rw [List.getElem?_map, List.getElem?_range hlt2]
      simp only [Option.map_some, SparseFeature.new]
      refine ⟨?_, hj.symm⟩
      congr 1; omega
    · rw [List.getElem?_eq_none (by simpa using hlt2)]
      exact hj

/-- Entries added by one line. -/
def add (n : Nat) (g : Nat → List (Nat × K)) (pairs : List (Nat × K)) : Nat → List (Nat × K) :=
  fun i => g i ++ (pairs.filter (fun p => p.1 = i)).map (fun p => (n, p.2))

theorem svmWords_ok (parseIx : List Char → Option Nat) (parse : List Char → Option K) (n : Nat)
    (words : List (List Char)) (pairs : List (Nat × K))
    (hw : words.map (indexAndFeature parseIx parse) = pairs.map Except.ok)
    (fs : List (SparseFeature K)) (g : Nat → List (Nat × K)) (h : FsIs fs g) :
    ∃ fs', svmWords parseIx parse n words fs = .ok fs' ∧ FsIs fs' (add n g pairs) := by
  induction words generalizing pairs fs g with
  | nil =>
    have : pairs = [] := by cases pairs with | nil => rfl | cons => simp at hw
    subst this
    refine ⟨fs, rfl, ?_⟩
    have : add n g [] = g := by funext i; simp [add]
    rw [this]; exact h
  | cons w words ih =>
    cases pairs with
    | nil => simp at hw
    | cons p pairs =>
      obtain ⟨i, x⟩ := p
      simp only [List.map_cons, List.cons.injEq] at hw
      have hgr := growTo_is h i
      have hlt := growTo_length i fs
      unfold svmWords
      rw [hw.1]
      simp only
      rw [List.getElem?_eq_getElem hlt]
      simp only
      have hnew : FsIs ((growTo i fs).set i ((growTo i fs)[i].append (n, x)))
          (fun j => if j = i then g j ++ [(n, x)] else g j) := by
        intro j
        have hj := hgr j
        by_cases hji : j = i
        · subst hji
          rw [List.getElem?_eq_getElem hlt] at hj
          rw [List.getElem?_set_self hlt]
          simp only [if_true]
          exact ⟨hj.1, by show (growTo j fs)[j].sample ++ [(n, x)] = _; rw [hj.2]⟩
        · rw [List.getElem?_set_ne (Ne.symm hji)]
          simp only [hji, if_false]
          exact hj
      obtain ⟨fs', h1, h2⟩ := ih pairs hw.2 _ _ hnew
      refine ⟨fs', h1, ?_⟩
      have : add n (fun j => if j = i then g j ++ [(n, x)] else g j) pairs = add n g ((i, x) :: pairs) := by
        funext j
        unfold add
        by_cases hji : j = i
        · subst hji; simp
        · have : ¬ (i = j) := fun e => hji e.symm
          simp [hji, this]
      rw [this] at h2
      exact h2

/-- The entries of column `i` after the rows `rows`. -/
def entries (rows : List (K × List (Nat × K))) (i : Nat) : List (Nat × K) :=
  rows.zipIdx.flatMap fun p => (p.1.2.filter (fun q => q.1 = i)).map (fun q => (p.2, q.2))

theorem entries_append (rows : List (K × List (Nat × K))) (row : K × List (Nat × K)) :
    entries (rows ++ [row]) = add rows.length (entries rows) row.2 := by
  funext i
  simp [entries, add, List.zipIdx_append]

/-- A line of a svmlight file denotes a label and index/value pairs. -/
def LineIs (parseIx : List Char → Option Nat) (parse : List Char → Option K) (line : List Char)
    (row : K × List (Nat × K)) : Prop :=
  ∃ w words, splitWhitespace line = w :: words ∧ parse w = some row.1 ∧
    words.map (indexAndFeature parseIx parse) = row.2.map Except.ok

theorem svmLines_ok (parseIx : List Char → Option Nat) (parse : List Char → Option K)
    (lines : List (List Char)) (rows done : List (K × List (Nat × K)))
    (h : List.Forall₂ (LineIs parseIx parse) lines rows) (fs : List (SparseFeature K))
    (hfs : FsIs fs (entries done)) :
    ∃ fs', svmLines parseIx parse lines fs (done.map Prod.fst) done.length
        = .ok (fs', (done ++ rows).map Prod.fst, (done ++ rows).length)
      ∧ FsIs fs' (entries (done ++ rows)) := by
  induction lines generalizing rows done fs with
  | nil =>
    cases h
    exact ⟨fs, by simp [svmLines], by simpa using hfs⟩
  | cons line lines ih =>
    cases h with
    | cons hl hrest =>
      rename_i row rows
      obtain ⟨w, words, h1, h2, h3⟩ := hl
      obtain ⟨fs1, h4, h5⟩ := svmWords_ok parseIx parse done.length words row.2 h3 fs _ hfs
      rw [← entries_append] at h5
      obtain ⟨fs2, h6, h7⟩ := ih rows (done ++ [row]) hrest fs1 h5
      refine ⟨fs2, ?_, by simpa using h7⟩
      unfold svmLines
      rw [h1]
      simp only [h2, h4]
      simp only [List.map_append, List.map_cons, List.map_nil, List.length_append, List.length_singleton] at h6
      rw [h6]
      simp [Nat.add_comm, Nat.add_left_comm]

theorem entries_mem {rows : List (K × List (Nat × K))} {i r : Nat} {x : K} :
    (r, x) ∈ entries rows i ↔ ∃ row, rows[r]? = some row ∧ (i, x) ∈ row.2 := by
  unfold entries
  simp only [List.mem_flatMap, List.mem_map, List.mem_filter, decide_eq_true_eq, Prod.exists, Prod.mk.injEq]
  constructor
  · rintro ⟨y, l, k, hk, i', x', ⟨hm, rfl⟩, rfl, rfl⟩
    exact ⟨y, l, (List.mk_mem_zipIdx_iff_getElem?.mp hk), hm⟩
  · rintro ⟨y, l, hr, hm⟩
    exact ⟨y, l, r, List.mk_mem_zipIdx_iff_getElem?.mpr hr, i, x, ⟨hm, rfl⟩, rfl, rfl⟩

theorem entries_sorted {rows : List (K × List (Nat × K))}
    (hn : ∀ row ∈ rows, (row.2.map Prod.fst).Nodup) (i : Nat) :
    ((entries rows i).map Prod.fst).Pairwise (· < ·) := by
  induction rows using List.reverseRecOn with
  | nil => simp [entries]
  | append_singleton rows row ih =>
    rw [entries_append]
    unfold add
    rw [List.map_append, List.pairwise_append]
    refine ⟨ih (fun r hr => hn r (by simp [hr])), ?_, ?_⟩
    · have hrow := hn row (by simp)
      have : (row.2.filter (fun p => decide (p.1 = i))).length ≤ 1 := by
        have hsub : ((row.2.filter (fun p => decide (p.1 = i))).map Prod.fst).Nodup :=
          hrow.sublist (List.filter_sublist.map _)
        have hrep : (row.2.filter (fun p => decide (p.1 = i))).map Prod.fst
            = List.replicate (row.2.filter (fun p => decide (p.1 = i))).length i := by
          rw [List.eq_replicate_iff]
          refine ⟨by simp, ?_⟩
          intro b hb
          obtain ⟨q, hq, rfl⟩ := List.mem_map.mp hb
          simpa using (List.mem_filter.mp hq).2
        rw [hrep] at hsub
        exact List.nodup_replicate.mp hsub
      match hq : row.2.filter (fun p => decide (p.1 = i)) with
      | [] => simp [hq]
      | [a] => simp [hq]
      | a :: b :: l => rw [hq] at this; simp at this
    · intro a ha b hb
      obtain ⟨⟨r, x⟩, hr, rfl⟩ := List.mem_map.mp ha
      obtain ⟨row', hr', _⟩ := entries_mem.mp hr
      have hlt := (List.getElem?_eq_some_iff.mp hr').1
      simp only [List.map_map, List.mem_map, Function.comp] at hb
      obtain ⟨_, _, rfl⟩ := hb
      exact hlt

end Sample

end Miniboosts
