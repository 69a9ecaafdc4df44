import Verif.Lemmas.CrossValidation
import Mathlib.Algebra.Order.Field.Rat
import Mathlib.Data.Rat.Floor
import Mathlib.Algebra.Order.Floor.Semifield
import Mathlib.Tactic.IntervalCases
import Mathlib.Tactic.NormNum
import Mathlib.Tactic.FieldSimp
import Mathlib.Tactic.Linarith

/-! # C48 cross-validation -/

set_option linter.unusedSectionVars false

namespace Miniboosts.Props

open Spec

variable {K : Type*} [Field K] [LinearOrder K] [IsStrictOrderedRing K]

/-- The examples of a sample as `Sample::at` reports them, row by row. -/
def examplesOf (s : Sample K) : List (Except Panic (List K × K)) := (List.range s.nSample).map s.at'

/-- A cross-validation object whose index vector lists every row once (what `new`, `train_ratio`, `n_folds`
and any `shuffle` leave behind: `cv_start`). -/
structure CvOk (c : CrossValidation K) : Prop where
  sample : SampleOk c.sample
  train : c.trainSize ≤ c.sample.nSample
  rows : c.ix.Perm (List.range c.sample.nSample)
  start : c.currentFold = 0

/-- The number of test rows of a full fold. -/
def testSize (c : CrossValidation K) : Nat := c.sample.nSample - c.trainSize

/-- Everything the builder can produce meets `CvOk`. -/
theorem cv_start [FloorSemiring K] {s : Sample K} (hs : SampleOk s) : CvOk (CrossValidation.new s) ∧
    (∀ c : CrossValidation K, CvOk c →
      (∀ n, CvOk (c.setFolds n)) ∧
      (∀ perm : List Nat → List Nat, (∀ l, (perm l).Perm l) → CvOk (c.shuffle perm)) ∧
      ∀ r, (0 < r ∧ r < 1 → ∃ c', c.trainRatio r = .ok c' ∧ CvOk c') ∧
        (¬ (0 < r ∧ r < 1) → c.trainRatio r = .error .assertion)) := by
  refine ⟨⟨hs, ?_, List.Perm.refl _, rfl⟩, ?_⟩
  · show ⌊_⌋₊ ≤ s.nSample
    apply Nat.floor_le_of_le
    have : (0 : K) ≤ s.nSample := Nat.cast_nonneg _
    nlinarith
  · intro c hc
    refine ⟨fun n => ⟨hc.sample, hc.train, hc.rows, hc.start⟩, fun perm hp => ⟨hc.sample, hc.train, ?_, hc.start⟩, fun r => ⟨?_, ?_⟩⟩
    · exact (hp c.ix).trans hc.rows
    · intro hr
      refine ⟨{ c with trainSize := ⌊r * (c.sample.nSample : K)⌋₊ }, if_pos hr, hc.sample, ?_, hc.rows, hc.start⟩
      show ⌊r * (c.sample.nSample : K)⌋₊ ≤ c.sample.nSample
      apply Nat.floor_le_of_le
      have : (0 : K) ≤ c.sample.nSample := Nat.cast_nonneg _
      nlinarith [hr.1, hr.2]
    · intro hr
      unfold CrossValidation.trainRatio; rw [if_neg hr]

/-- The two halves of fold `i`. -/
def foldOf (c : CrossValidation K) (i : Nat) : Sample K × Sample K :=
  (c.sample.part (c.sample.nSample - (min ((i + 1) * testSize c) c.sample.nSample - i * testSize c))
      (c.ix.zipIdx.take (i * testSize c) ++ c.ix.zipIdx.drop (min ((i + 1) * testSize c) c.sample.nSample)),
    c.sample.part (min ((i + 1) * testSize c) c.sample.nSample - i * testSize c)
      ((c.ix.zipIdx.take (min ((i + 1) * testSize c) c.sample.nSample)).drop (i * testSize c)))

theorem foldAt_eq {c : CrossValidation K} (hc : CvOk c) {i : Nat} (hi : i * testSize c ≤ c.sample.nSample) :
    c.foldAt i = .ok (foldOf c i) := by
  unfold CrossValidation.foldAt
  rw [if_neg (Nat.not_lt.mpr hc.train)]
  refine Sample.split_ok hc.sample ?_ ?_ ?_ (min_le_right _ _)
  · intro j hj; exact List.mem_range.mp (hc.rows.mem_iff.mp hj)
  · rw [hc.rows.length_eq, List.length_range]
  · refine le_min ?_ hi
    exact Nat.mul_le_mul_right _ (Nat.le_succ i)

/-- **C48** (panics): fold `i` can be produced exactly when it starts inside the sample (or at its end). -/
theorem cv_fold_panics_iff {c : CrossValidation K} (hc : CvOk c) (i : Nat) :
    (∃ e, c.foldAt i = .error e) ↔ c.sample.nSample < i * testSize c := by
  constructor
  · rintro ⟨e, he⟩
    by_contra hcon
    rw [foldAt_eq hc (Nat.not_lt.mp hcon)] at he
    cases he
  · intro h
    refine ⟨.arith, ?_⟩
    unfold CrossValidation.foldAt
    rw [if_neg (Nat.not_lt.mpr hc.train)]
    exact Sample.split_panics (lt_of_le_of_lt (min_le_right _ _) h)

theorem zipIdx_map_fst {A : Type*} (l : List A) (n : Nat) : (l.zipIdx n).map Prod.fst = l := by
  induction l generalizing n with
  | nil => rfl
  | cons a l ih => simp [ih]

theorem examplesOf_part {s : Sample K} (hs : SampleOk s) (hd : Sample.AllDense s) {size : Nat} {L : List (Nat × Nat)}
    (hL : L.length = size) (hr : ∀ p ∈ L, p.1 < s.nSample) :
    examplesOf (s.part size L) = (L.map Prod.fst).map s.at' := by
  unfold examplesOf
  apply List.ext_getElem
  · simp [Sample.part, hL]
  · intro k h1 h2
    simp only [List.getElem_map, List.getElem_range]
    exact Sample.part_at hs hd hL hr (by simpa [Sample.part] using h1)

/-- What one fold must be: two well-formed samples with the columns of the given one which together contain
every example (with all its feature values and its label) exactly once; the test half has
`min (testSize) (rows left)` examples. -/
structure FoldOk (c : CrossValidation K) (i : Nat) (fold : Sample K × Sample K) : Prop where
  trainOk : SampleOk fold.1
  testOk : SampleOk fold.2
  names : fold.1.features.map Feature.name = c.sample.features.map Feature.name ∧
    fold.2.features.map Feature.name = c.sample.features.map Feature.name
  once : (examplesOf fold.1 ++ examplesOf fold.2).Perm (examplesOf c.sample)
  size : fold.2.nSample = min (testSize c) (c.sample.nSample - i * testSize c)

theorem zipIdx_lt {c : CrossValidation K} (hc : CvOk c) : ∀ p ∈ c.ix.zipIdx, p.1 < c.sample.nSample := by
  rintro ⟨a, b⟩ hp
  exact List.mem_range.mp (hc.rows.mem_iff.mp (List.mem_of_getElem? (List.mk_mem_zipIdx_iff_getElem?.mp hp)))

theorem examples_test {c : CrossValidation K} (hc : CvOk c) (hd : Sample.AllDense c.sample) (i : Nat) :
    examplesOf (foldOf c i).2
      = (((c.ix.take (min ((i + 1) * testSize c) c.sample.nSample)).drop (i * testSize c))).map c.sample.at' := by
  have hlen : c.ix.length = c.sample.nSample := by rw [hc.rows.length_eq, List.length_range]
  unfold foldOf
  rw [examplesOf_part hc.sample hd]
  · rw [List.map_drop, List.map_take, zipIdx_map_fst]
  · simp [hlen]
  · intro p hp
    exact zipIdx_lt hc p (List.mem_of_mem_take (List.mem_of_mem_drop hp))

theorem examples_train {c : CrossValidation K} (hc : CvOk c) (hd : Sample.AllDense c.sample) {i : Nat}
    (hi : i * testSize c ≤ c.sample.nSample) :
    examplesOf (foldOf c i).1
      = (c.ix.take (i * testSize c) ++ c.ix.drop (min ((i + 1) * testSize c) c.sample.nSample)).map c.sample.at' := by
  have hlen : c.ix.length = c.sample.nSample := by rw [hc.rows.length_eq, List.length_range]
  unfold foldOf
  rw [examplesOf_part hc.sample hd]
  · rw [List.map_append, List.map_drop, List.map_take, zipIdx_map_fst]
  · have : i * testSize c ≤ (i + 1) * testSize c := Nat.mul_le_mul_right _ (Nat.le_succ i)
    simp only [List.length_append, List.length_take, List.length_drop, List.length_zipIdx, hlen]
    omega
  · intro p hp
    rcases List.mem_append.mp hp with hp | hp
    · exact zipIdx_lt hc p (List.mem_of_mem_take hp)
    · exact zipIdx_lt hc p (List.mem_of_mem_drop hp)

theorem fold_ok {c : CrossValidation K} (hc : CvOk c) (hd : Sample.AllDense c.sample) {i : Nat}
    (hi : i * testSize c ≤ c.sample.nSample) : FoldOk c i (foldOf c i) := by
  have hlen : c.ix.length = c.sample.nSample := by rw [hc.rows.length_eq, List.length_range]
  have hm : i * testSize c ≤ (i + 1) * testSize c := Nat.mul_le_mul_right _ (Nat.le_succ i)
  refine ⟨Sample.part_ok hc.sample hd ?_, Sample.part_ok hc.sample hd ?_, ?_, ?_, ?_⟩
  · simp only [List.length_append, List.length_take, List.length_drop, List.length_zipIdx, hlen]
    omega
  · simp [hlen]
  · constructor <;> simp [foldOf, Sample.part, List.map_map, Function.comp_def, Feature.pick_name]
  · rw [examples_test hc hd, examples_train hc hd hi, ← List.map_append]
    unfold examplesOf
    refine List.Perm.map _ ?_
    refine List.Perm.trans ?_ hc.rows
    set b := min ((i + 1) * testSize c) c.sample.nSample
    have hab : i * testSize c ≤ b := le_min hm hi
    have e : c.ix = c.ix.take (i * testSize c) ++ ((c.ix.take b).drop (i * testSize c) ++ c.ix.drop b) := by
      conv_lhs => rw [← List.take_append_drop b c.ix, ← List.take_append_drop (i * testSize c) (c.ix.take b)]
      rw [List.take_take, min_eq_left hab, List.append_assoc]
    conv_rhs => rw [e]
    rw [List.append_assoc]
    exact List.Perm.append_left _ List.perm_append_comm
  · show min ((i + 1) * testSize c) c.sample.nSample - i * testSize c = _
    have : (i + 1) * testSize c = i * testSize c + testSize c := by rw [Nat.succ_mul]
    omega

/-- **C48** (one fold), for samples with dense columns only. -/
theorem cv_fold_partial {c : CrossValidation K} (hc : CvOk c) (hd : Sample.AllDense c.sample) {i : Nat}
    (hi : i * testSize c ≤ c.sample.nSample) : ∃ fold, c.foldAt i = .ok fold ∧ FoldOk c i fold :=
  ⟨foldOf c i, foldAt_eq hc hi, fold_ok hc hd hi⟩

theorem collect_eq (m : Nat) : ∀ (c : CrossValidation K), (∀ i, c.currentFold ≤ i → i < c.nFolds → c.foldAt i = .ok (foldOf c i)) →
    c.currentFold + m = c.nFolds → ∀ fuel, m < fuel →
    CrossValidation.collect fuel c = .ok ((List.range' c.currentFold m).map (foldOf c)) := by
  induction m with
  | zero =>
    intro c _ he fuel hf
    cases fuel with
    | zero => omega
    | succ fuel =>
      unfold CrossValidation.collect CrossValidation.next
      rw [if_pos (by omega)]
      rfl
  | succ m ih =>
    intro c h he fuel hf
    cases fuel with
    | zero => omega
    | succ fuel =>
      unfold CrossValidation.collect CrossValidation.next
      rw [if_neg (by omega), h c.currentFold (le_refl _) (by omega)]
      simp only
      have hfold : ∀ i, CrossValidation.foldAt { c with currentFold := c.currentFold + 1 } i = c.foldAt i := fun _ => rfl
      have hfo : foldOf { c with currentFold := c.currentFold + 1 } = foldOf c := rfl
      rw [ih { c with currentFold := c.currentFold + 1 } (fun i h1 h2 => by
        rw [hfold, hfo]; exact h i (by have : c.currentFold + 1 ≤ i := h1; omega) h2)
        (by show c.currentFold + 1 + m = c.nFolds; omega) fuel (by omega)]
      rw [hfo]
      rfl

theorem tests_prefix {c : CrossValidation K} (hc : CvOk c) (hd : Sample.AllDense c.sample) (m : Nat)
    (hm : ∀ i, i < m → i * testSize c ≤ c.sample.nSample) :
    (((List.range' 0 m).map (foldOf c)).flatMap (fun fold => examplesOf fold.2))
      = (c.ix.take (min (m * testSize c) c.sample.nSample)).map c.sample.at' := by
  induction m with
  | zero => simp
  | succ m ih =>
    rw [List.range'_1_concat, List.map_append, List.flatMap_append, ih (fun i hi => hm i (by omega))]
    simp only [Nat.zero_add, List.map_cons, List.map_nil, List.flatMap_cons, List.flatMap_nil, List.append_nil]
    rw [examples_test hc hd, ← List.map_append, min_eq_left (hm m (by omega))]
    congr 1
    set b := min ((m + 1) * testSize c) c.sample.nSample with hb
    have hab : m * testSize c ≤ b := le_min (Nat.mul_le_mul_right _ (Nat.le_succ m)) (hm m (by omega))
    conv_rhs => rw [← List.take_append_drop (m * testSize c) (c.ix.take b), List.take_take, min_eq_left hab]

/-- **C48** (full iteration), for samples with dense columns only: `for (train, test) in cv` yields `n_folds`
folds, each as in `FoldOk`; over all folds no example is tested twice, and exactly
`n - n_folds * testSize` examples are never tested (none when the folds cover the sample). -/
theorem cv_iteration_partial {c : CrossValidation K} (hc : CvOk c) (hd : Sample.AllDense c.sample)
    (hn : ∀ i, i < c.nFolds → i * testSize c ≤ c.sample.nSample) {fuel : Nat} (hf : c.nFolds < fuel) :
    ∃ folds untested, CrossValidation.collect fuel c = .ok folds ∧ folds.length = c.nFolds ∧
      (∀ (i : Nat) fold, folds[i]? = some fold → FoldOk c i fold) ∧
      (folds.flatMap (fun fold => examplesOf fold.2) ++ untested).Perm (examplesOf c.sample) ∧
      untested.length = c.sample.nSample - c.nFolds * testSize c := by
  have hlen : c.ix.length = c.sample.nSample := by rw [hc.rows.length_eq, List.length_range]
  refine ⟨(List.range' 0 c.nFolds).map (foldOf c), (c.ix.drop (min (c.nFolds * testSize c) c.sample.nSample)).map c.sample.at', ?_, ?_, ?_, ?_, ?_⟩
  · have := collect_eq c.nFolds c (fun i _ hi => foldAt_eq hc (hn i hi)) (by rw [hc.start]; simp) fuel hf
    rw [hc.start] at this
    exact this
  · simp
  · intro i fold h
    rw [List.getElem?_map] at h
    by_cases hi : i < c.nFolds
    · rw [List.getElem?_eq_getElem (by simpa using hi)] at h
      simp only [List.getElem_range', Option.map_some, Option.some.injEq, Nat.zero_add, Nat.one_mul] at h
      subst h
      exact fold_ok hc hd (hn i hi)
    · rw [List.getElem?_eq_none (by simpa using hi)] at h
      cases h
  · rw [tests_prefix hc hd c.nFolds hn, ← List.map_append, List.take_append_drop]
    exact List.Perm.map _ hc.rows
  · simp only [List.length_map, List.length_drop, hlen]
    omega

/-- **C48** (panics of a full iteration): some fold panics exactly when the last one starts beyond the end. -/
theorem cv_panics_iff {c : CrossValidation K} (hc : CvOk c) {fuel : Nat} (hf : c.nFolds < fuel) :
    (∃ e, CrossValidation.collect fuel c = .error e) ↔ ∃ i, i < c.nFolds ∧ c.sample.nSample < i * testSize c := by
  constructor
  · rintro ⟨e, he⟩
    by_contra hcon
    simp only [not_exists, not_and, Nat.not_lt] at hcon
    rw [collect_eq c.nFolds c (fun i _ hi => foldAt_eq hc (hcon i hi)) (by rw [hc.start]; simp) fuel hf] at he
    cases he
  · intro hex
    have key : ∀ (m : Nat) (c' : CrossValidation K), (∀ i, c'.foldAt i = c.foldAt i) → c'.currentFold + m = c'.nFolds →
        (∃ i, c'.currentFold ≤ i ∧ i < c'.nFolds ∧ c.sample.nSample < i * testSize c) → ∀ fuel, m < fuel →
        ∃ e, CrossValidation.collect fuel c' = .error e := by
      intro m
      induction m with
      | zero => rintro c' _ he ⟨i, h1, h2, _⟩; omega
      | succ m ih =>
        rintro c' hfold he ⟨i, h1, h2, h3⟩ fuel hf
        cases fuel with
        | zero => omega
        | succ fuel =>
          unfold CrossValidation.collect CrossValidation.next
          rw [if_neg (by omega)]
          cases hk : c'.foldAt c'.currentFold with
          | error e => exact ⟨e, rfl⟩
          | ok out =>
            simp only
            have hne : c'.currentFold ≠ i := by
              rintro rfl
              rw [hfold] at hk
              obtain ⟨e, he⟩ := (cv_fold_panics_iff hc _).mpr h3
              rw [he] at hk; cases hk
            obtain ⟨e, he'⟩ := ih { c' with currentFold := c'.currentFold + 1 } hfold
              (by show c'.currentFold + 1 + m = c'.nFolds; omega)
              ⟨i, by show c'.currentFold + 1 ≤ i; omega, h2, h3⟩ fuel (by omega)
            exact ⟨e, by rw [he']; rfl⟩
    obtain ⟨i, h1, h2⟩ := hex
    exact key c.nFolds c (fun _ => rfl) (by rw [hc.start]; simp) ⟨i, by rw [hc.start]; omega, h1, h2⟩ fuel hf

/-- **C48** is false without a condition on the sizes: with the default settings (ratio 0.8, 5 folds) the
iteration panics exactly for samples with 1, 2, 3, 6, 7 or 11 rows. -/
theorem cv_default_panics_iff [FloorSemiring K] {s : Sample K} (hs : SampleOk s) {fuel : Nat} (hf : 5 < fuel) :
    (∃ e, CrossValidation.collect fuel (CrossValidation.new s) = .error e) ↔ s.nSample ∈ [1, 2, 3, 6, 7, 11] := by
  rw [cv_panics_iff (cv_start hs).1 (by exact hf)]
  have ht : testSize (CrossValidation.new s) = s.nSample - 4 * s.nSample / 5 := by
    unfold testSize CrossValidation.new
    simp only
    congr 1
    have : (s.nSample : K) * (8 / 10) = ((4 * s.nSample : Nat) : K) / ((5 : Nat) : K) := by
      push_cast; ring
    rw [this, Nat.floor_div_eq_div]
  show (∃ i, i < 5 ∧ s.nSample < i * testSize (CrossValidation.new s)) ↔ _
  rw [ht]
  simp only [List.mem_cons, List.not_mem_nil, or_false]
  constructor
  · rintro ⟨i, hi, h⟩
    have hb : s.nSample < 20 := by interval_cases i <;> omega
    generalize s.nSample = n at h hb
    interval_cases i <;> interval_cases n <;> omega
  · intro h
    refine ⟨4, by omega, ?_⟩
    omega

/-- **C48** fails for sparse columns: their values keep the row numbers of the whole sample, so in every fold
but the first each sparse column of the test half reads zero in every row. -/
theorem cv_sparse_test_reads_zero {c : CrossValidation K} (hc : CvOk c) {i : Nat} (h1 : 1 ≤ i)
    {train test : Sample K} (h : c.foldAt i = .ok (train, test)) {f : Feature K} (hf : f ∈ test.features)
    (hsp : f.isSparse = true) {k : Nat} (hk : k < test.nSample) : f.index k = .ok 0 := by
  have hi : i * testSize c ≤ c.sample.nSample := by
    by_contra hcon
    obtain ⟨e, he⟩ := (cv_fold_panics_iff hc i).mpr (Nat.not_le.mp hcon)
    rw [he] at h; cases h
  rw [foldAt_eq hc hi] at h
  have e : (foldOf c i).2 = test := by cases h; rfl
  subst e
  obtain ⟨g, hg, rfl⟩ := List.mem_map.mp hf
  cases g with
  | dense g => simp [Feature.pick, Feature.isSparse] at hsp
  | sparse g =>
    simp only [Feature.pick, Feature.index]
    congr 1
    apply sparse_index_absent
    intro p hp
    obtain ⟨q, hq, rfl⟩ := List.mem_map.mp hp
    have hk' : k < min ((i + 1) * testSize c) c.sample.nSample - i * testSize c := hk
    have hpos : (i * testSize c) ≤ q.2 := by
      obtain ⟨j, hj, rfl⟩ := List.getElem_of_mem hq
      simp only [List.getElem_drop, List.getElem_take, List.getElem_zipIdx]
      omega
    have : (i + 1) * testSize c = i * testSize c + testSize c := by rw [Nat.succ_mul]
    have h2 : testSize c ≤ i * testSize c := Nat.le_mul_of_pos_left _ h1
    show q.2 ≠ k
    omega

/-- Four rows, one dense and one sparse column. -/
def exCvSample : Sample ℚ :=
  { nameToIndex := [("a", 0), ("b", 1)], features := [.dense ⟨"a", [10, 11, 12, 13]⟩, .sparse ⟨"b", [(1, 5), (3, 7)], 4⟩], target := [1, -1, 1, -1], nSample := 4, nFeature := 2 }

theorem exCvSample_ok : SampleOk exCvSample := by
  refine ⟨rfl, by decide, by decide +kernel, ?_, rfl⟩
  intro f hf
  simp only [exCvSample, List.mem_cons, List.not_mem_nil, or_false] at hf
  rcases hf with rfl | rfl
  · rfl
  · refine ⟨rfl, by decide, ?_⟩
    intro p hp
    simp only [List.mem_cons, List.not_mem_nil, or_false] at hp
    rcases hp with rfl | rfl <;> decide

/-- **C48** is false of the code: with two folds of two rows, the second test half contains rows 2 and 3, but
row 3, whose sparse value is 7, reads 0. -/
theorem cv_sparse_values_lost :
    CvOk (⟨2, 0, 2, exCvSample, [0, 1, 2, 3]⟩ : CrossValidation ℚ) ∧
    exCvSample.at' 3 = .ok ([13, 7], -1) ∧
    ∃ train test, (⟨2, 0, 2, exCvSample, [0, 1, 2, 3]⟩ : CrossValidation ℚ).foldAt 1 = .ok (train, test) ∧
      test.at' 1 = .ok ([13, 0], -1) := by
  refine ⟨⟨exCvSample_ok, by decide, by decide, rfl⟩, by decide +kernel, ?_⟩
  refine ⟨_, _, foldAt_eq ⟨exCvSample_ok, by decide, by decide, rfl⟩ (by decide), by decide +kernel⟩

/-- A sample and an iteration meeting the hypotheses of the positive theorems. -/
def exCvDense : Sample ℚ :=
  { nameToIndex := [("a", 0)], features := [.dense ⟨"a", [10, 11, 12, 13, 14]⟩], target := [1, -1, 1, -1, 1], nSample := 5, nFeature := 1 }

example : CvOk (CrossValidation.new exCvDense) ∧ Sample.AllDense exCvDense ∧ testSize (CrossValidation.new exCvDense) = 1 := by
  have hs : SampleOk exCvDense := by
    refine ⟨rfl, by decide, by decide +kernel, ?_, rfl⟩
    intro f hf
    simp only [exCvDense, List.mem_singleton] at hf
    subst hf; rfl
  refine ⟨(cv_start hs).1, ?_, ?_⟩
  · intro f hf
    simp only [exCvDense, List.mem_singleton] at hf
    subst hf; rfl
  · decide +kernel

end Miniboosts.Props
