import Verif.Model.LPBoost
import Verif.Lemmas.ConicDual
import Verif.Lemmas.AdaBoostInv

/-! # The program LPBoost assembles -/

namespace Miniboosts

variable {K : Type*} [Field K] [LinearOrder K] {H X : Type*} [Classifier H X K]

/-- The model after the hypotheses `hs` have been added. -/
def LPModel.after (S : Examples X K) (nu : K) (hs : List H) : LPModel K :=
  hs.foldl (fun m h => m.addColumn S h) (LPModel.init S.length (1 / nu))

namespace LP

/-- Column of a slack variable. -/
def xiCol (K : Type*) [Field K] (n r : Nat) : List (Nat × K) := [(r, -1), (n + 1 + r, -1)]

/-- Column of a hypothesis weight. -/
def wCol (n : Nat) (m : List K) (k : Nat) : List (Nat × K) :=
  BufRep.seg 0 (m.map fun a => -a) ++ [(n, 1), (2 * n + k, -1)]

/-- All columns. -/
def cols (n : Nat) (ms : List (List K)) : List (List (Nat × K)) :=
  (BufRep.seg 0 (List.replicate n 1) :: (List.range n).map (xiCol K n)) ++
    (ms.zipIdx 1).map fun p => wCol n p.1 p.2

omit [LinearOrder K] in
theorem foldl_xi (n : Nat) (l : List Nat) (c : CscBuf K) (cs) (h : BufRep c cs) :
    BufRep (l.foldl (fun c r => (c.pushPtr.push r (-1)).push (n + 1 + r) (-1)) c) (cs ++ l.map (xiCol K n)) := by
  induction l generalizing c cs with
  | nil => simpa using h
  | cons r l ih =>
    rw [List.foldl_cons]
    have := ih _ _ ((h.pushPtr.push r (-1)).push (n + 1 + r) (-1))
    simpa [xiCol] using this

omit [LinearOrder K] in
theorem init_buf (n : Nat) :
    BufRep ({ colPtr := [0], rowIdx := List.range n, nonzero := List.replicate n 1 } : CscBuf K)
      [BufRep.seg 0 (List.replicate n 1)] := by
  refine ⟨rfl, ?_, ?_⟩
  · simp only [BufRep.seg, List.flatten_cons, List.flatten_nil, List.append_nil, List.map_map]
    apply List.ext_getElem
    · simp
    · intro i h1 h2; simp
  · simp only [BufRep.seg, List.flatten_cons, List.flatten_nil, List.append_nil, List.map_map]
    apply List.ext_getElem
    · simp
    · intro i h1 h2; simp

theorem after_spec (S : Examples X K) (nu : K) (hs : List H) :
    let m := LPModel.after S nu hs
    m.nExamples = S.length ∧ m.nHypotheses = hs.length ∧
      m.linObj = -1 :: (List.replicate S.length nu ++ List.replicate hs.length 0) ∧
      BufRep m.buf (cols S.length (hs.map (margins S))) := by
  unfold LPModel.after
  induction hs using List.reverseRecOn with
  | nil =>
    refine ⟨rfl, rfl, ?_, ?_⟩
    · simp [LPModel.init, List.replicate_succ]
    · have := foldl_xi S.length (List.range S.length) _ _ (init_buf (K := K) S.length)
      simpa [LPModel.init, cols] using this
  | append_singleton hs h ih =>
    obtain ⟨h1, h2, h3, h4⟩ := ih
    rw [List.foldl_append]
    simp only [List.foldl_cons, List.foldl_nil]
    generalize List.foldl (fun m h => LPModel.addColumn S m h) (LPModel.init S.length (1 / nu)) hs = m at h1 h2 h3 h4
    refine ⟨h1, by simp [LPModel.addColumn, h2], ?_, ?_⟩
    · simp [LPModel.addColumn, h3, List.replicate_succ']
    · have := ((h4.pushPtr.pushAll 0 ((margins S h).map fun yh => -yh)).push S.length 1).push
        (2 * S.length + (hs.length + 1)) (-1)
      simp only [LPModel.addColumn, h1, h2]
      convert this using 1
      simp [cols, wCol, List.zipIdx_append, Nat.add_comm]

omit [LinearOrder K] in
theorem cols_length (n : Nat) (ms : List (List K)) : (cols n ms).length = n + ms.length + 1 := by
  simp [cols]; try omega

omit [LinearOrder K] in
theorem cols_zero (n : Nat) (ms : List (List K)) : (cols n ms)[0]? = some (BufRep.seg 0 (List.replicate n 1)) := by
  simp [cols]

omit [LinearOrder K] in
theorem cols_xi (n : Nat) (ms : List (List K)) (r : Nat) (hr : r < n) :
    (cols n ms)[1 + r]? = some (xiCol K n r) := by
  rw [cols, List.getElem?_append_left (by simp; omega), Nat.add_comm, List.getElem?_cons_succ,
    List.getElem?_map, List.getElem?_range hr]
  rfl

omit [LinearOrder K] in
theorem cols_w (n : Nat) (ms : List (List K)) (k : Nat) (m : List K) (hk : ms[k]? = some m) :
    (cols n ms)[1 + n + k]? = some (wCol n m (k + 1)) := by
  rw [cols, List.getElem?_append_right (by simp; omega)]
  simp only [List.length_cons, List.length_map, List.length_range]
  rw [show 1 + n + k - (n + 1) = k by omega, List.getElem?_map, List.getElem?_zipIdx, hk]
  simp [Nat.add_comm]

end LP

/-- The program handed to the solver in the round in which the stored hypotheses are `hs`. -/
def LPBoost.program (S : Examples X K) (nu : K) (hs : List H) : Program K := (LPModel.after S nu hs).program

namespace LP

theorem program_A (S : Examples X K) (nu : K) (hs : List H) :
    ∃ c : CscBuf K, BufRep c (cols S.length (hs.map (margins S)) ++ [[]]) ∧
      (LPBoost.program S nu hs).A = c.toCsc (2 * S.length + hs.length + 1) (S.length + hs.length + 1) := by
  obtain ⟨h1, h2, h3, h4⟩ := after_spec S nu hs
  exact ⟨_, h4.pushPtr, by simp only [LPBoost.program, LPModel.program, h1, h2]⟩

theorem program_col (S : Examples X K) (nu : K) (hs : List H) (j : Nat) (l : List (Nat × K))
    (hj : (cols S.length (hs.map (margins S)))[j]? = some l) : (LPBoost.program S nu hs).A.col j = l := by
  obtain ⟨c, hc, hA⟩ := program_A S nu hs
  rw [hA]
  exact hc.col_eq _ _ j l hj

theorem program_dims (S : Examples X K) (nu : K) (hs : List H) :
    (LPBoost.program S nu hs).A.nRows = 2 * S.length + hs.length + 1 ∧
    (LPBoost.program S nu hs).A.nCols = S.length + hs.length + 1 ∧
    (LPBoost.program S nu hs).P = Csc.zeros (1 + S.length + hs.length) ∧
    (LPBoost.program S nu hs).q = -1 :: (List.replicate S.length nu ++ List.replicate hs.length 0) ∧
    (LPBoost.program S nu hs).b = (List.replicate (2 * S.length + hs.length + 1) 0).set S.length 1 ∧
    (LPBoost.program S nu hs).cones = [.nonneg S.length, .zero 1, .nonneg S.length, .nonneg hs.length] := by
  obtain ⟨h1, h2, h3, h4⟩ := after_spec S nu hs
  simp only [LPBoost.program, LPModel.program, h1, h2, h3, CscBuf.toCsc]
  trivial

omit [LinearOrder K] in
theorem seg_rows (start : Nat) (vs : List K) :
    (BufRep.seg start vs).map Prod.fst = List.range' start vs.length := by
  induction vs generalizing start with
  | nil => simp [BufRep.seg]
  | cons v vs ih =>
    have h : BufRep.seg start (v :: vs) = (start, v) :: BufRep.seg (start + 1) vs := by simp [BufRep.seg]
    rw [h, List.map_cons, ih, List.length_cons, List.range'_succ]

omit [LinearOrder K] in
theorem seg_rows_sorted (start : Nat) (vs : List K) :
    ((BufRep.seg start vs).map Prod.fst).Pairwise (· < ·) ∧
      ∀ e ∈ BufRep.seg start vs, start ≤ e.1 ∧ e.1 < start + vs.length := by
  rw [seg_rows]
  refine ⟨List.pairwise_lt_range', ?_⟩
  intro e he
  have : e.1 ∈ (BufRep.seg start vs).map Prod.fst := List.mem_map_of_mem he
  rw [seg_rows] at this
  simpa using this

theorem program_wellFormed (S : Examples X K) (nu : K) (hs : List H) :
    (LPBoost.program S nu hs).A.WellFormed := by
  obtain ⟨c, hc, hA⟩ := program_A S nu hs
  rw [hA, show S.length + hs.length + 1 = (cols S.length (hs.map (margins S))).length by
    rw [cols_length, List.length_map]]
  apply hc.wellFormed
  intro l hl
  simp only [cols, List.cons_append, List.mem_cons, List.mem_append, List.mem_map, List.mem_range] at hl
  rcases hl with rfl | ⟨r, hr, rfl⟩ | ⟨⟨m, k⟩, hp, rfl⟩
  · obtain ⟨h1, h2⟩ := seg_rows_sorted 0 (List.replicate S.length (1 : K))
    refine ⟨h1, fun e he => ?_⟩
    have := (h2 e he).2
    simp at this; omega
  · refine ⟨by simp [xiCol], ?_⟩
    intro e he
    simp only [xiCol, List.mem_cons, List.not_mem_nil, or_false] at he
    rcases he with rfl | rfl
    · simp only []; omega
    · simp only []; omega
  · obtain ⟨i, hi, he⟩ := List.getElem_of_mem hp
    simp only [List.getElem_zipIdx, Prod.mk.injEq] at he
    obtain ⟨he1, he2⟩ := he
    simp only [List.length_zipIdx, List.length_map] at hi
    have hm : m.length = S.length := by
      rw [← he1, List.getElem_map]; simp [margins]
    obtain ⟨h1, h2⟩ := seg_rows_sorted 0 (m.map fun a => -a)
    simp only [List.length_map, hm] at h2
    constructor
    · simp only [wCol, List.map_append, List.pairwise_append]
      refine ⟨h1, by simp; omega, ?_⟩
      intro a ha b hb
      obtain ⟨e, he, rfl⟩ := List.mem_map.1 ha
      have := (h2 e he).2
      simp at hb
      rcases hb with rfl | rfl <;> omega
    · intro e he
      simp only [wCol, List.mem_append, List.mem_cons, List.not_mem_nil, or_false] at he
      rcases he with he | rfl | rfl
      · have := (h2 e he).2; omega
      · simp only []; omega
      · simp only []; omega

omit [LinearOrder K] in
/-- The columns against a vector of multipliers. -/
def tc (col : List (Nat × K)) (z : List K) : K := (col.map fun e => e.2 * z.getD e.1 0).sum

omit [LinearOrder K] in
theorem tc_append (a b : List (Nat × K)) (z : List K) : tc (a ++ b) z = tc a z + tc b z := by simp [tc]

omit [LinearOrder K] in
theorem tc_cons (e : Nat × K) (b : List (Nat × K)) (z : List K) :
    tc (e :: b) z = e.2 * z.getD e.1 0 + tc b z := by simp [tc]

omit [LinearOrder K] in
theorem tc_seg (start : Nat) (vs z : List K) :
    tc (BufRep.seg start vs) z = ∑ i ∈ Finset.range vs.length, vs.getD i 0 * z.getD (start + i) 0 := by
  induction vs generalizing start with
  | nil => simp [tc, BufRep.seg]
  | cons v vs ih =>
    have h : BufRep.seg start (v :: vs) = (start, v) :: BufRep.seg (start + 1) vs := by simp [BufRep.seg]
    rw [h, tc_cons, ih, List.length_cons, Finset.sum_range_succ', add_comm]
    congr 1
    apply Finset.sum_congr rfl
    intro i _
    rw [show start + 1 + i = start + (i + 1) by omega]; rfl

/-- `Aᵀ z`. -/
theorem program_tmulVec (S : Examples X K) (nu : K) (hs : List H) (z : List K) :
    let A := (LPBoost.program S nu hs).A
    let n := S.length
    A.tmulVec z 0 = ∑ i ∈ Finset.range n, z.getD i 0 ∧
    (∀ r, r < n → A.tmulVec z (1 + r) = -z.getD r 0 - z.getD (n + 1 + r) 0) ∧
    (∀ k h, hs[k]? = some h → A.tmulVec z (1 + n + k) =
      -(∑ i ∈ Finset.range n, (margins S h).getD i 0 * z.getD i 0) + z.getD n 0 - z.getD (2 * n + 1 + k) 0) := by
  intro A n
  have htc : ∀ j l, (cols S.length (hs.map (margins S)))[j]? = some l → A.tmulVec z j = tc l z := by
    intro j l hj
    unfold Csc.tmulVec
    rw [program_col S nu hs j l hj]; rfl
  have hnil : tc ([] : List (Nat × K)) z = 0 := rfl
  refine ⟨?_, ?_, ?_⟩
  · rw [htc _ _ (cols_zero _ _), tc_seg, List.length_replicate]
    apply Finset.sum_congr rfl
    intro i hi
    have := Finset.mem_range.1 hi
    simp [List.getD_eq_getElem?_getD, this]
  · intro r hr
    rw [htc _ _ (cols_xi _ _ r hr)]
    simp only [xiCol, tc_cons, hnil]; ring
  · intro k h hk
    rw [htc _ _ (cols_w S.length (hs.map (margins S)) k (margins S h) (by simp [hk]))]
    simp only [wCol, tc_append, tc_cons, hnil, tc_seg, List.length_map]
    have hl : (margins S h).length = n := by simp [margins, n]
    rw [hl, show 2 * S.length + (k + 1) = 2 * n + 1 + k by omega, ← Finset.sum_neg_distrib]
    have : ∀ i ∈ Finset.range n, ((margins S h).map fun a => -a).getD i 0 * z.getD (0 + i) 0 =
        -((margins S h).getD i 0 * z.getD i 0) := by
      intro i hi
      have := Finset.mem_range.1 hi
      simp only [List.getD_eq_getElem?_getD, List.getElem?_map, Nat.zero_add]
      rw [List.getElem?_eq_getElem (by omega)]
      simp
    rw [Finset.sum_congr rfl this]
    ring

/-- `A x`. -/
theorem program_mulVec (S : Examples X K) (nu : K) (hs : List H) (x : List K) :
    let A := (LPBoost.program S nu hs).A
    let n := S.length
    (∀ i, i < n → A.mulVec x i = x.getD 0 0 - x.getD (1 + i) 0 -
      ∑ k ∈ Finset.range hs.length, ((hs.map (margins S)).getD k []).getD i 0 * x.getD (1 + n + k) 0) ∧
    A.mulVec x n = ∑ k ∈ Finset.range hs.length, x.getD (1 + n + k) 0 ∧
    (∀ r, r < n → A.mulVec x (n + 1 + r) = -x.getD (1 + r) 0) ∧
    (∀ k, k < hs.length → A.mulVec x (2 * n + 1 + k) = -x.getD (1 + n + k) 0) := by
  intro A n
  have hmv : ∀ i, A.mulVec x i = rc (BufRep.seg 0 (List.replicate n (1 : K))) i * x.getD 0 0 +
      ∑ r ∈ Finset.range n, rc (xiCol K n r) i * x.getD (1 + r) 0 +
      ∑ k ∈ Finset.range hs.length, rc (wCol n ((hs.map (margins S)).getD k []) (k + 1)) i * x.getD (1 + n + k) 0 := by
    intro i
    unfold Csc.mulVec
    have hd := (program_dims S nu hs).2.1
    rw [show A.nCols = S.length + hs.length + 1 from hd, sum_range_list,
      show S.length + hs.length + 1 = 1 + n + hs.length by omega, Finset.sum_range_add, Finset.sum_range_add]
    congr 1
    · congr 1
      · rw [Finset.sum_range_one, rc_mul, program_col S nu hs 0 _ (cols_zero _ _)]
      · apply Finset.sum_congr rfl
        intro r hr
        rw [rc_mul, program_col S nu hs _ _ (cols_xi _ _ r (Finset.mem_range.1 hr))]
    · apply Finset.sum_congr rfl
      intro k hk
      have hk := Finset.mem_range.1 hk
      rw [rc_mul, program_col S nu hs _ _ (cols_w S.length (hs.map (margins S)) k (margins S hs[k]) (by simp [hk]))]
      congr 3
      simp [List.getD_eq_getElem?_getD, hk]
  have hnil : ∀ i, rc ([] : List (Nat × K)) i = 0 := fun i => rfl
  have hρ : ∀ i, rc (BufRep.seg 0 (List.replicate n (1 : K))) i = if i < n then 1 else 0 := by
    intro i
    rw [rc_seg, if_pos (Nat.zero_le _)]
    by_cases h : i < n
    · simp [List.getD_eq_getElem?_getD, h]
    · simp [List.getD_eq_getElem?_getD, h]
  have hξ : ∀ r i, rc (xiCol K n r) i = (if r = i then -1 else 0) + (if n + 1 + r = i then -1 else 0) := by
    intro r i; simp [xiCol, rc_cons, hnil]
  have hlen : ∀ k, k < hs.length → ((hs.map (margins S)).getD k []).length = n := by
    intro k hk
    simp [List.getD_eq_getElem?_getD, hk, margins, n]
  have hw : ∀ k i, k < hs.length → rc (wCol n ((hs.map (margins S)).getD k []) (k + 1)) i =
      (if i < n then -((hs.map (margins S)).getD k []).getD i 0 else 0) + (if n = i then 1 else 0) +
        (if 2 * n + 1 + k = i then -1 else 0) := by
    intro k i hk
    have hl := hlen k hk
    generalize (hs.map (margins S)).getD k [] = m at hl
    simp only [wCol, rc_append, rc_cons, hnil, rc_seg, if_pos (Nat.zero_le _), Nat.sub_zero]
    rw [show 2 * n + (k + 1) = 2 * n + 1 + k by omega, add_zero, ← add_assoc]
    congr 2
    by_cases h : i < n
    · simp [List.getD_eq_getElem?_getD, h, hl]
    · simp [List.getD_eq_getElem?_getD, h, hl]
  have hwsum : ∀ i, ∑ k ∈ Finset.range hs.length, rc (wCol n ((hs.map (margins S)).getD k []) (k + 1)) i *
      x.getD (1 + n + k) 0 = ∑ k ∈ Finset.range hs.length,
        ((if i < n then -((hs.map (margins S)).getD k []).getD i 0 else 0) + (if n = i then 1 else 0) +
        (if 2 * n + 1 + k = i then -1 else 0)) * x.getD (1 + n + k) 0 := by
    intro i
    apply Finset.sum_congr rfl
    intro k hk
    rw [hw k i (Finset.mem_range.1 hk)]
  refine ⟨?_, ?_, ?_, ?_⟩
  · intro i hi
    rw [hmv, hρ, if_pos hi, hwsum, Finset.sum_eq_single i]
    · rw [hξ, if_pos rfl, if_neg (by omega)]
      have : ∀ k ∈ Finset.range hs.length,
          ((if i < n then -((hs.map (margins S)).getD k []).getD i 0 else 0) + (if n = i then 1 else 0) +
          (if 2 * n + 1 + k = i then -1 else 0)) * x.getD (1 + n + k) 0 =
          -(((hs.map (margins S)).getD k []).getD i 0 * x.getD (1 + n + k) 0) := by
        intro k _
        rw [if_pos hi, if_neg (by omega), if_neg (by omega)]; ring
      rw [Finset.sum_congr rfl this, Finset.sum_neg_distrib]; ring
    · intro r _ hne
      rw [hξ, if_neg hne, if_neg (by omega)]; ring
    · intro h; exact absurd (Finset.mem_range.2 hi) h
  · rw [hmv, hρ, if_neg (lt_irrefl _), hwsum, Finset.sum_eq_zero]
    · have : ∀ k ∈ Finset.range hs.length,
          ((if n < n then -((hs.map (margins S)).getD k []).getD n 0 else 0) + (if n = n then 1 else 0) +
          (if 2 * n + 1 + k = n then -1 else 0)) * x.getD (1 + n + k) 0 = x.getD (1 + n + k) 0 := by
        intro k _
        rw [if_neg (lt_irrefl _), if_pos rfl, if_neg (by omega)]; ring
      rw [Finset.sum_congr rfl this]; ring
    · intro r hr
      have := Finset.mem_range.1 hr
      rw [hξ, if_neg (by omega), if_neg (by omega)]; ring
  · intro r hr
    rw [hmv, hρ, if_neg (by omega), hwsum, Finset.sum_eq_single r]
    · rw [hξ, if_neg (by omega), if_pos rfl, Finset.sum_eq_zero]
      · ring
      · intro k _
        rw [if_neg (by omega), if_neg (by omega), if_neg (by omega)]; ring
    · intro r' hr' hne
      have := Finset.mem_range.1 hr'
      rw [hξ, if_neg (by omega), if_neg (by omega)]; ring
    · intro h; exact absurd (Finset.mem_range.2 hr) h
  · intro k hk
    rw [hmv, hρ, if_neg (by omega), hwsum, Finset.sum_eq_zero, Finset.sum_eq_single k]
    · rw [if_neg (by omega), if_neg (by omega), if_pos rfl]; ring
    · intro k' hk' hne
      rw [if_neg (by omega), if_neg (by omega), if_neg (by omega)]; ring
    · intro h; exact absurd (Finset.mem_range.2 hk) h
    · intro r hr
      have := Finset.mem_range.1 hr
      rw [hξ, if_neg (by omega), if_neg (by omega)]; ring

theorem program_isEq (S : Examples X K) (nu : K) (hs : List H) (i : Nat) :
    (Program.isEq (LPBoost.program S nu hs).cones)[i]? =
      if i < S.length then some false else if i = S.length then some true else
        if i < 2 * S.length + hs.length + 1 then some false else none := by
  rw [(program_dims S nu hs).2.2.2.2.2]
  simp only [Program.isEq, List.flatMap_cons, List.flatMap_nil, List.append_nil]
  by_cases h1 : i < S.length
  · rw [if_pos h1, List.getElem?_append_left (by simpa using h1)]; simp [h1]
  · rw [if_neg h1, List.getElem?_append_right (by simpa using h1)]
    by_cases h2 : i = S.length
    · simp [h2]
    · rw [if_neg h2, List.getElem?_append_right (by simp; omega), ← List.replicate_add]
      simp only [List.length_replicate]
      by_cases h3 : i < 2 * S.length + hs.length + 1
      · rw [if_pos h3, List.getElem?_replicate, if_pos (by omega)]
      · rw [if_neg h3, List.getElem?_replicate, if_neg (by omega)]

theorem program_b (S : Examples X K) (nu : K) (hs : List H) (i : Nat) :
    (LPBoost.program S nu hs).b.getD i 0 = if i = S.length then 1 else 0 := by
  rw [(program_dims S nu hs).2.2.2.2.1, List.getD_eq_getElem?_getD, List.getElem?_set]
  by_cases h : i = S.length
  · rw [if_pos h.symm, if_pos h, if_pos (by simp; omega)]; rfl
  · rw [if_neg (Ne.symm h), if_neg h]
    by_cases h2 : i < 2 * S.length + hs.length + 1
    · simp [h2]
    · simp [h2]

end LP

end Miniboosts
