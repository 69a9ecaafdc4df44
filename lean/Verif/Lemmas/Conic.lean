import Verif.Spec.Conic
import Verif.Lemmas.Basic
import Mathlib.Tactic.Ring
import Mathlib.Tactic.Linarith

/-! # Lemmas about the assembled programs -/

namespace Miniboosts

variable {K : Type*} [Field K] [LinearOrder K]

/-- The buffer holds the given columns; the last one is still open. -/
structure BufRep (c : CscBuf K) (cols : List (List (Nat × K))) : Prop where
  ptr : c.colPtr = (List.range cols.length).map fun j => (cols.take j).flatten.length
  row : c.rowIdx = cols.flatten.map Prod.fst
  val : c.nonzero = cols.flatten.map Prod.snd

namespace BufRep

omit [Field K] [LinearOrder K]

theorem nil : BufRep ({ colPtr := [], rowIdx := [], nonzero := [] } : CscBuf K) [] := ⟨rfl, rfl, rfl⟩

theorem one : BufRep ({ colPtr := [0], rowIdx := [], nonzero := [] } : CscBuf K) [[]] := ⟨rfl, rfl, rfl⟩

theorem pushPtr {c : CscBuf K} {cols} (h : BufRep c cols) : BufRep c.pushPtr (cols ++ [[]]) := by
  constructor
  · simp only [CscBuf.pushPtr, h.ptr, h.row, List.length_append, List.length_map, List.length_singleton,
      List.range_succ, List.map_append, List.map_singleton]
    congr 1
    · apply List.map_congr_left
      intro j hj
      rw [List.take_append_of_le_length (List.mem_range.1 hj).le]
    · simp
  · simp [CscBuf.pushPtr, h.row]
  · simp [CscBuf.pushPtr, h.val]

theorem push {c : CscBuf K} {cols cur} (h : BufRep c (cols ++ [cur])) (r : Nat) (v : K) :
    BufRep (c.push r v) (cols ++ [cur ++ [(r, v)]]) := by
  constructor
  · simp only [CscBuf.push, h.ptr, List.length_append, List.length_singleton]
    apply List.map_congr_left
    intro j hj
    have : j ≤ cols.length := by have := List.mem_range.1 hj; omega
    rw [List.take_append_of_le_length this, List.take_append_of_le_length this]
  · simp [CscBuf.push, h.row]
  · simp [CscBuf.push, h.val]

/-- The entries written by `pushAll`. -/
def seg (start : Nat) (vs : List K) : List (Nat × K) := (vs.zipIdx start).map fun p => (p.2, p.1)

theorem pushAll {c : CscBuf K} {cols cur} (h : BufRep c (cols ++ [cur])) (start : Nat) (vs : List K) :
    BufRep (c.pushAll start vs) (cols ++ [cur ++ seg start vs]) := by
  induction vs generalizing c cur start with
  | nil => simpa [CscBuf.pushAll, seg] using h
  | cons v vs ih =>
    have := ih (h.push start v) (start + 1)
    simpa [CscBuf.pushAll, seg, List.append_assoc] using this

theorem flatten_drop (cols : List (List (Nat × K))) (j : Nat) (l : List (Nat × K)) (hj : cols[j]? = some l) :
    (cols.flatten.drop (cols.take j).flatten.length).take l.length = l ∧
    ((cols.take (j + 1)).flatten.length) = (cols.take j).flatten.length + l.length := by
  induction cols generalizing j with
  | nil => simp at hj
  | cons c cols ih =>
    match j with
    | 0 => simp at hj; subst hj; simp
    | j + 1 =>
      obtain ⟨h1, h2⟩ := ih j (by simpa using hj)
      constructor
      · simp only [List.take_succ_cons, List.flatten_cons, List.length_append]
        rw [List.drop_append, List.drop_eq_nil_of_le (by omega), List.nil_append]
        simpa using h1
      · simp only [List.take_succ_cons, List.flatten_cons, List.length_append]
        rw [h2]; omega

/-- The finished matrix has exactly these columns. -/
theorem col_eq {c : CscBuf K} {cols} (h : BufRep c (cols ++ [[]])) (nRows nCols j : Nat) (l : List (Nat × K))
    (hj : cols[j]? = some l) : (c.toCsc nRows nCols).col j = l := by
  have hlt : j < cols.length := (List.getElem?_eq_some_iff.1 hj).1
  obtain ⟨h1, h2⟩ := flatten_drop cols j l hj
  unfold Csc.col CscBuf.toCsc
  simp only [h.ptr, h.row, h.val]
  have hfl : (cols ++ [[]]).flatten = cols.flatten := by rw [List.flatten_append]; simp
  have hz : ∀ l : List (Nat × K), List.zip (l.map Prod.fst) (l.map Prod.snd) = l := by
    intro l; rw [List.zip_map']; simp
  rw [hz, hfl]
  have g1 : ((List.range (cols ++ [([] : List (Nat × K))]).length).map
      fun j => ((cols ++ [[]]).take j).flatten.length).getD j 0 = (cols.take j).flatten.length := by
    rw [List.getD_eq_getElem?_getD, List.getElem?_map, List.getElem?_range (by simp; omega)]
    simp only [Option.map_some, Option.getD_some]
    rw [List.take_append_of_le_length hlt.le]
  have g2 : ((List.range (cols ++ [([] : List (Nat × K))]).length).map
      fun j => ((cols ++ [[]]).take j).flatten.length).getD (j + 1) 0 = (cols.take (j + 1)).flatten.length := by
    rw [List.getD_eq_getElem?_getD, List.getElem?_map, List.getElem?_range (by simp; omega)]
    simp only [Option.map_some, Option.getD_some]
    rw [List.take_append_of_le_length hlt]
  rw [g1, g2, h2, Nat.add_sub_cancel_left, h1]

/-- The finished matrix is well formed when its columns are. -/
theorem wellFormed {c : CscBuf K} {cols} (h : BufRep c (cols ++ [[]])) (nRows : Nat)
    (hrows : ∀ l ∈ cols, (l.map Prod.fst).Pairwise (· < ·) ∧ ∀ e ∈ l, e.1 < nRows) :
    (c.toCsc nRows cols.length).WellFormed := by
  have hgetD : ∀ j, j ≤ cols.length → (c.toCsc nRows cols.length).colPtr[j]? =
      some (cols.take j).flatten.length := by
    intro j hj
    show c.colPtr[j]? = _
    rw [h.ptr, List.getElem?_map, List.getElem?_range (by simp; omega), Option.map_some,
      List.take_append_of_le_length hj]
  constructor
  · simp [CscBuf.toCsc, h.ptr]
  · show c.rowIdx.length = c.nonzero.length
    rw [h.row, h.val, List.length_map, List.length_map]
  · rw [hgetD 0 (Nat.zero_le _)]; simp
  · rw [show (c.toCsc nRows cols.length).nCols = cols.length from rfl, hgetD _ le_rfl]
    show _ = some c.rowIdx.length
    rw [h.row, List.length_map, List.take_length, List.flatten_append]; simp
  · intro j hj
    have hj' : j < cols.length := hj
    rw [List.getD_eq_getElem?_getD, List.getD_eq_getElem?_getD, hgetD j hj'.le, hgetD (j + 1) hj']
    simp only [Option.getD_some]
    rw [(flatten_drop cols j cols[j] (by simp [hj'])).2]; omega
  · intro j hj
    have hj' : j < cols.length := hj
    rw [h.col_eq nRows cols.length j cols[j] (by simp [hj'])]
    exact hrows _ (List.getElem_mem hj')

end BufRep

/-- The coefficient of a column in a row. -/
def rc (col : List (Nat × K)) (i : Nat) : K := (col.map fun e => if e.1 = i then e.2 else 0).sum

omit [LinearOrder K] in
theorem rc_mul (col : List (Nat × K)) (i : Nat) (x : K) :
    (col.map fun e => if e.1 = i then e.2 * x else 0).sum = rc col i * x := by
  unfold rc
  induction col with
  | nil => simp
  | cons e col ih =>
    simp only [List.map_cons, List.sum_cons, ih, add_mul]
    congr 1
    split <;> simp

omit [LinearOrder K] in
theorem rc_append (a b : List (Nat × K)) (i : Nat) : rc (a ++ b) i = rc a i + rc b i := by
  simp [rc]

omit [LinearOrder K] in
theorem rc_cons (e : Nat × K) (b : List (Nat × K)) (i : Nat) :
    rc (e :: b) i = (if e.1 = i then e.2 else 0) + rc b i := by
  simp [rc]

omit [LinearOrder K] in
theorem rc_seg (start : Nat) (vs : List K) (i : Nat) :
    rc (BufRep.seg start vs) i = if start ≤ i then vs.getD (i - start) 0 else 0 := by
  induction vs generalizing start with
  | nil => simp [rc, BufRep.seg]
  | cons v vs ih =>
    have h : BufRep.seg start (v :: vs) = (start, v) :: BufRep.seg (start + 1) vs := by
      simp [BufRep.seg]
    rw [h, rc_cons, ih]
    by_cases h1 : start = i
    · subst h1; simp
    · by_cases h2 : start + 1 ≤ i
      · rw [if_neg h1, if_pos h2, if_pos (by omega)]
        obtain ⟨k, rfl⟩ : ∃ k, i = start + 1 + k := ⟨i - (start + 1), by omega⟩
        rw [show start + 1 + k - start = k + 1 by omega, show start + 1 + k - (start + 1) = k by omega]
        simp
      · rw [if_neg h1, if_neg h2, if_neg (by omega)]; simp

/-- The column of example number `p.2` (counted from 1) with margins `p.1`. -/
def exCol (n : Nat) (cap : K) (p : List K × Nat) : List (Nat × K) :=
  [(0, 1), (p.2, -1), (n + p.2, cap)] ++ BufRep.seg (1 + 2 * n) p.1

omit [LinearOrder K] in
theorem rc_exCol (n : Nat) (cap : K) (p : List K × Nat) (h1 : 1 ≤ p.2) (h2 : p.2 ≤ n) :
    rc (exCol n cap p) 0 = 1 ∧
    (∀ i, 1 ≤ i → i ≤ n → rc (exCol n cap p) i = if p.2 = i then -1 else 0) ∧
    (∀ i, n < i → i ≤ 2 * n → rc (exCol n cap p) i = if n + p.2 = i then cap else 0) ∧
    (∀ k, rc (exCol n cap p) (1 + 2 * n + k) = p.1.getD k 0) := by
  unfold exCol
  simp only [rc_append, rc_cons, rc_seg]
  have hnil : ∀ i, rc ([] : List (Nat × K)) i = 0 := fun i => rfl
  simp only [hnil]
  refine ⟨?_, ?_, ?_, ?_⟩
  · rw [if_pos trivial, if_neg (by omega), if_neg (by omega), if_neg (by omega)]; ring
  · intro i hi1 hi2
    rw [if_neg (by omega), if_neg (by omega : ¬ n + p.2 = i), if_neg (by omega : ¬ 1 + 2 * n ≤ i)]; ring
  · intro i hi1 hi2
    rw [if_neg (by omega), if_neg (by omega : ¬ p.2 = i), if_neg (by omega : ¬ 1 + 2 * n ≤ i)]; ring
  · intro k
    rw [if_neg (by omega), if_neg (by omega), if_neg (by omega), if_pos (by omega),
      Nat.add_sub_cancel_left]; ring

/-- The contribution of the example columns to row `i`. -/
def exRow (n : Nat) (cap : K) (s : Nat) (marg : List (List K)) (d : List K) (i : Nat) : K :=
  (List.zipWith (fun p x => rc (exCol n cap p) i * x) (marg.zipIdx s) d).sum

omit [LinearOrder K] in
theorem exRow_eq (n : Nat) (cap : K) (marg : List (List K)) (s : Nat) (d : List K)
    (hl : d.length = marg.length) (hs : 1 ≤ s) (hn : s + marg.length ≤ n + 1) :
    exRow n cap s marg d 0 = d.sum ∧
    (∀ i, 1 ≤ i → i ≤ n → exRow n cap s marg d i = -(if s ≤ i then d.getD (i - s) 0 else 0)) ∧
    (∀ i, n < i → i ≤ 2 * n → exRow n cap s marg d i = cap * (if n + s ≤ i then d.getD (i - (n + s)) 0 else 0)) ∧
    (∀ k, exRow n cap s marg d (1 + 2 * n + k) = (List.zipWith (fun m x => m.getD k 0 * x) marg d).sum) := by
  induction marg generalizing s d with
  | nil =>
    match d, hl with
    | [], _ => simp [exRow]
  | cons m marg ih =>
    match d, hl with
    | x :: d, hl =>
      simp only [List.length_cons] at hn hl
      obtain ⟨h1, h2, h3, h4⟩ := ih (s + 1) d (by simpa using hl) (by omega) (by omega)
      obtain ⟨c1, c2, c3, c4⟩ := rc_exCol n cap (m, s) hs (by simp only []; omega)
      simp only [] at c1 c2 c3 c4
      have hrec : ∀ i, exRow n cap s (m :: marg) (x :: d) i =
          rc (exCol n cap (m, s)) i * x + exRow n cap (s + 1) marg d i := by
        intro i; simp [exRow, List.zipIdx_cons]
      refine ⟨?_, ?_, ?_, ?_⟩
      · rw [hrec, c1, h1]; simp
      · intro i hi1 hi2
        rw [hrec, c2 i hi1 hi2, h2 i hi1 hi2]
        by_cases e : s = i
        · subst e; simp
        · rw [if_neg e]
          by_cases e2 : s + 1 ≤ i
          · rw [if_pos e2, if_pos (by omega)]
            obtain ⟨k, rfl⟩ : ∃ k, i = s + 1 + k := ⟨i - (s + 1), by omega⟩
            rw [show s + 1 + k - s = k + 1 by omega, show s + 1 + k - (s + 1) = k by omega]
            simp
          · rw [if_neg e2, if_neg (by omega)]; simp
      · intro i hi1 hi2
        rw [hrec, c3 i hi1 hi2, h3 i hi1 hi2]
        by_cases e : n + s = i
        · subst e; simp
        · rw [if_neg e]
          by_cases e2 : n + (s + 1) ≤ i
          · rw [if_pos e2, if_pos (by omega)]
            obtain ⟨k, rfl⟩ : ∃ k, i = n + (s + 1) + k := ⟨i - (n + (s + 1)), by omega⟩
            rw [show n + (s + 1) + k - (n + s) = k + 1 by omega,
              show n + (s + 1) + k - (n + (s + 1)) = k by omega]
            simp
          · rw [if_neg e2, if_neg (by omega)]; simp
      · intro k
        rw [hrec, c4, h4]; simp

omit [LinearOrder K] in
/-- `A x` through the columns. -/
theorem mulVec_cols (A : Csc K) (cols : List (List (Nat × K))) (hn : A.nCols = cols.length)
    (hcol : ∀ j l, cols[j]? = some l → A.col j = l) (x : List K) (hx : x.length = cols.length) (i : Nat) :
    A.mulVec x i = (List.zipWith (fun col v => rc col i * v) cols x).sum := by
  unfold Csc.mulVec
  congr 1
  apply List.ext_getElem?
  intro j
  rw [hn, List.getElem?_map, List.getElem?_zipWith]
  by_cases hj : j < cols.length
  · have h1 : cols[j]? = some cols[j] := by simp [hj]
    have h2 : x[j]? = some (x[j]'(by omega)) := by simp [hx, hj]
    rw [List.getElem?_range hj, h1, h2]
    simp only [Option.map_some]
    rw [hcol j _ h1, rc_mul, List.getD_eq_getElem?_getD, h2, Option.getD_some]
  · rw [List.getElem?_eq_none (by simpa using hj), List.getElem?_eq_none (by omega : cols.length ≤ j)]
    simp

/-- The columns of the matrix with a `γ` column. -/
def gammaCols (n nH : Nat) (marg : List (List K)) (cap : K) : List (List (Nat × K)) :=
  BufRep.seg (1 + 2 * n) (List.replicate nH (-1)) :: (marg.zipIdx 1).map (exCol n cap)

omit [LinearOrder K] in
theorem foldl_exCol (n : Nat) (cap : K) (l : List (List K × Nat)) (c : CscBuf K) (cols) (h : BufRep c cols) :
    BufRep (l.foldl (fun buf p =>
      ((((buf.pushPtr).push 0 1).push p.2 (-1)).push (n + p.2) cap).pushAll (1 + 2 * n) p.1) c)
      (cols ++ l.map (exCol n cap)) := by
  induction l generalizing c cols with
  | nil => simpa using h
  | cons p l ih =>
    rw [List.foldl_cons]
    have h1 := (((h.pushPtr.push 0 (1 : K)).push p.2 (-1)).push (n + p.2) cap).pushAll (1 + 2 * n) p.1
    have h2 := ih _ _ h1
    simpa [exCol, List.append_assoc] using h2

omit [LinearOrder K] in
theorem gamma_rep (n nH : Nat) (marg : List (List K)) (cap : K) :
    ∃ c : CscBuf K, BufRep c (gammaCols n nH marg cap ++ [[]]) ∧
      gammaConstraintMatrix n nH marg cap = c.toCsc (1 + 2 * n + nH) (1 + n) := by
  have h0 := (BufRep.one (K := K)).pushAll (cols := []) (cur := []) (1 + 2 * n) (List.replicate nH (-1))
  have h1 := (foldl_exCol n cap (marg.zipIdx 1) _ _ h0).pushPtr
  simp only [List.nil_append, List.singleton_append] at h1
  refine ⟨_, h1, ?_⟩
  unfold gammaConstraintMatrix
  simp only [Nat.add_sub_cancel_left]

omit [LinearOrder K] in
theorem dist_rep (n nH : Nat) (marg : List (List K)) (cap : K) :
    ∃ c : CscBuf K, BufRep c ((marg.zipIdx 1).map (exCol n cap) ++ [[]]) ∧
      distConstraintMatrix n nH marg cap = c.toCsc (1 + 2 * n + nH) n := by
  have h1 := (foldl_exCol n cap (marg.zipIdx 1) _ _ (BufRep.nil (K := K))).pushPtr
  have h2 : (marg.zipIdx 1) = (marg.zipIdx 0).map fun p => (p.1, p.2 + 1) := by
    rw [List.zipIdx_succ]
  refine ⟨_, by simpa using h1, ?_⟩
  rw [h2, List.foldl_map]
  unfold distConstraintMatrix
  simp only [Nat.add_assoc]

omit [LinearOrder K] in
/-- The rows of the matrix with a `γ` column. -/
theorem gamma_mulVec (n nH : Nat) (marg : List (List K)) (cap : K) (hm : marg.length = n) (γ : K) (d : List K)
    (hd : d.length = n) :
    let A := gammaConstraintMatrix n nH marg cap
    A.mulVec (γ :: d) 0 = d.sum ∧
    (∀ a, a < n → A.mulVec (γ :: d) (1 + a) = -d.getD a 0) ∧
    (∀ a, a < n → A.mulVec (γ :: d) (1 + n + a) = cap * d.getD a 0) ∧
    (∀ k, k < nH → A.mulVec (γ :: d) (1 + 2 * n + k) =
      -γ + (List.zipWith (fun m x => m.getD k 0 * x) marg d).sum) := by
  intro A
  obtain ⟨c, hc, hA⟩ := gamma_rep n nH marg cap
  have hrow : ∀ i, A.mulVec (γ :: d) i =
      rc (BufRep.seg (1 + 2 * n) (List.replicate nH (-1 : K))) i * γ + exRow n cap 1 marg d i := by
    intro i
    rw [mulVec_cols A (gammaCols n nH marg cap) (by
        show (gammaConstraintMatrix n nH marg cap).nCols = _
        rw [hA]; simp [CscBuf.toCsc, gammaCols, hm]; omega)
      (by intro j l hj
          show (gammaConstraintMatrix n nH marg cap).col j = l
          rw [hA]; exact hc.col_eq _ _ j l hj) _ (by simp [gammaCols, hm, hd])]
    simp only [gammaCols, List.zipWith_cons_cons, List.sum_cons, exRow, List.zipWith_map_left]
  obtain ⟨h1, h2, h3, h4⟩ := exRow_eq n cap marg 1 d (by omega) le_rfl (by omega)
  refine ⟨?_, ?_, ?_, ?_⟩
  · rw [hrow, h1, rc_seg, if_neg (by omega)]; ring
  · intro a ha
    rw [hrow, h2 _ (by omega) (by omega), rc_seg, if_neg (by omega), if_pos (by omega), Nat.add_sub_cancel_left]
    ring
  · intro a ha
    rw [hrow, h3 _ (by omega) (by omega), rc_seg, if_neg (by omega), if_pos (by omega),
      show 1 + n + a - (n + 1) = a by omega]
    ring
  · intro k hk
    rw [hrow, h4, rc_seg, if_pos (by omega), Nat.add_sub_cancel_left]
    simp [List.getD_eq_getElem?_getD, hk]

omit [LinearOrder K] in
/-- The rows of the matrix without a `γ` column. -/
theorem dist_mulVec (n nH : Nat) (marg : List (List K)) (cap : K) (hm : marg.length = n) (d : List K)
    (hd : d.length = n) :
    let A := distConstraintMatrix n nH marg cap
    A.mulVec d 0 = d.sum ∧
    (∀ a, a < n → A.mulVec d (1 + a) = -d.getD a 0) ∧
    (∀ a, a < n → A.mulVec d (1 + n + a) = cap * d.getD a 0) ∧
    (∀ k, A.mulVec d (1 + 2 * n + k) = (List.zipWith (fun m x => m.getD k 0 * x) marg d).sum) := by
  intro A
  obtain ⟨c, hc, hA⟩ := dist_rep n nH marg cap
  have hrow : ∀ i, A.mulVec d i = exRow n cap 1 marg d i := by
    intro i
    rw [mulVec_cols A ((marg.zipIdx 1).map (exCol n cap)) (by
        show (distConstraintMatrix n nH marg cap).nCols = _
        rw [hA]; simp [CscBuf.toCsc, hm])
      (by intro j l hj
          show (distConstraintMatrix n nH marg cap).col j = l
          rw [hA]; exact hc.col_eq _ _ j l hj) _ (by simp [hm, hd])]
    simp only [exRow, List.zipWith_map_left]
  obtain ⟨h1, h2, h3, h4⟩ := exRow_eq n cap marg 1 d (by omega) le_rfl (by omega)
  refine ⟨?_, ?_, ?_, ?_⟩
  · rw [hrow, h1]
  · intro a ha
    rw [hrow, h2 _ (by omega) (by omega), if_pos (by omega), Nat.add_sub_cancel_left]
  · intro a ha
    rw [hrow, h3 _ (by omega) (by omega), if_pos (by omega), show 1 + n + a - (n + 1) = a by omega]
  · intro k
    rw [hrow, h4]

end Miniboosts
