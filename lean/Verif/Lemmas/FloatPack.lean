import Verif.Lemmas.FloatSum
import Verif.Lemmas.Pack

/-! # Label maps and packs of the `f64` trees -/

namespace Miniboosts.FTree

open F64 Spec

/-- A map with real values as a map of `f64`s. -/
def toM (m : List (Int × ℝ)) : LabelMap F64 := m.map fun p => (p.1, fin p.2)

/-- Sum of the values. -/
noncomputable def vsum (m : List (Int × ℝ)) : ℝ := (m.map Prod.snd).sum

/-- All values are positive `f64`s. -/
def PM (m : List (Int × ℝ)) : Prop := ∀ p ∈ m, 2 * eta ≤ p.2 ∧ F64.Rep p.2

theorem vsum_nil : vsum [] = 0 := rfl

theorem vsum_cons (p : Int × ℝ) (m : List (Int × ℝ)) : vsum (p :: m) = p.2 + vsum m := rfl

theorem vsum_append (a b : List (Int × ℝ)) : vsum (a ++ b) = vsum a + vsum b := by simp [vsum]

theorem vsum_flatten (l : List (List (Int × ℝ))) : vsum l.flatten = (l.map vsum).sum := by
  induction l with
  | nil => rfl
  | cons a l ih => rw [List.flatten_cons, vsum_append, ih]; rfl

theorem vsum_perm {a b : List (Int × ℝ)} (h : a.Perm b) : vsum a = vsum b := (h.map Prod.snd).sum_eq

theorem PM.nil : PM [] := by simp [PM]

theorem PM.cons {p : Int × ℝ} {m : List (Int × ℝ)} (h : PM (p :: m)) : (2 * eta ≤ p.2 ∧ F64.Rep p.2) ∧ PM m :=
  ⟨h p (by simp), fun q hq => h q (List.mem_cons_of_mem _ hq)⟩

theorem PM.nonneg {m : List (Int × ℝ)} (h : PM m) : ∀ p ∈ m, 0 ≤ p.2 := fun p hp => by
  have := (h p hp).1; have := eta_pos; linarith

theorem PM.vsum_nonneg {m : List (Int × ℝ)} (h : PM m) : 0 ≤ vsum m :=
  List.sum_nonneg (by simp only [List.mem_map]; rintro _ ⟨p, hp, rfl⟩; exact h.nonneg p hp)

theorem PM.le_vsum {m : List (Int × ℝ)} (h : PM m) {p : Int × ℝ} (hp : p ∈ m) : p.2 ≤ vsum m := by
  have : ∀ x ∈ m.map Prod.snd, 0 ≤ x := by simp only [List.mem_map]; rintro _ ⟨q, hq, rfl⟩; exact h.nonneg q hq
  exact List.single_le_sum this _ (List.mem_map.mpr ⟨p, hp, rfl⟩)

theorem PM.pos {m : List (Int × ℝ)} (h : PM m) (hne : m ≠ []) : 0 < vsum m := by
  obtain ⟨p, m, rfl⟩ := List.exists_cons_of_ne_nil hne
  have h1 := h.le_vsum (p := p) (by simp)
  have h2 := (h p (by simp)).1
  have := eta_pos
  linarith

theorem PM.perm {a b : List (Int × ℝ)} (h : PM b) (hp : a.Perm b) : PM a := fun p hm => h p (hp.mem_iff.mp hm)

theorem toM_nil : toM [] = [] := rfl

theorem toM_append (a b : List (Int × ℝ)) : toM (a ++ b) = toM a ++ toM b := by simp [toM]

theorem toM_flatten (l : List (List (Int × ℝ))) : (l.map toM).flatten = toM l.flatten := by
  induction l with
  | nil => rfl
  | cons a l ih => simp [toM_append, ih]

theorem toM_isEmpty (m : List (Int × ℝ)) : (toM m).isEmpty = m.isEmpty := by cases m <;> rfl

theorem perm_map_inv {A B : Type*} {f : A → B} {l : List B} {m : List A} (h : l.Perm (m.map f)) : ∃ m' : List A, m'.Perm m ∧ l = m'.map f := by
  have := congrFun (congrFun (List.eq_map_comp_perm f) l) m
  have h' : Relation.Comp (fun a b => a = List.map f b) (fun a b : List A => a.Perm b) l m := by rw [this]; exact h
  obtain ⟨m', e, hp⟩ := h'
  exact ⟨m', hp, e⟩

theorem perm_toM {l : LabelMap F64} {m : List (Int × ℝ)} (h : l.Perm (toM m)) : ∃ m' : List (Int × ℝ), m'.Perm m ∧ l = toM m' := perm_map_inv h

theorem toM_snd (m : List (Int × ℝ)) : (toM m).map Prod.snd = (m.map Prod.snd).map fin := by simp [toM]

theorem toM_fst (m : List (Int × ℝ)) : (toM m).map Prod.fst = m.map Prod.fst := by simp [toM]

theorem exists_total (m : LabelMap F64) : ∃ r, Total m r := ⟨_, m, List.Perm.refl m, rfl⟩

theorem exists_sumOf (xs : List F64) : ∃ r, SumOf xs r := ⟨_, .seq xs, rfl, rfl⟩

theorem exists_totals (ms : List (LabelMap F64)) : ∃ ts, List.Forall₂ Total ms ts := by
  induction ms with
  | nil => exact ⟨[], .nil⟩
  | cons m ms ih =>
    obtain ⟨ts, h⟩ := ih
    obtain ⟨t, h'⟩ := exists_total m
    exact ⟨t :: ts, .cons h' h⟩

/-- The sum of the values of a map. -/
theorem total_ok {m : List (Int × ℝ)} (h : PM m) (hl : m.length ≤ 10 ^ 6) (hB : vsum m ≤ 10 ^ 19) {r : F64} (hr : Total (toM m) r) :
    ∃ s, r = fin s ∧ F64.Rep s ∧ Near m.length s (vsum m) := by
  obtain ⟨l, hp, rfl⟩ := hr
  obtain ⟨m', hp', rfl⟩ := perm_toM hp
  rw [toM_snd]
  have h' := h.perm hp'
  obtain ⟨s, e1, e2, e3⟩ := foldl_near0 (m'.map Prod.snd)
    (by simp only [List.mem_map]; rintro _ ⟨p, hm, rfl⟩; exact ⟨h'.nonneg p hm, (h' p hm).2⟩)
    (by have := vsum_perm hp'; unfold vsum at *; linarith) (by rw [List.length_map, hp'.length_eq]; exact hl)
  refine ⟨s, e1, e2, ?_⟩
  rw [List.length_map, hp'.length_eq] at e3
  have := vsum_perm hp'
  unfold vsum at this ⊢
  rwa [this] at e3

/-- `*map.entry(y).or_insert(0.0) += w`. -/
theorem addTo_ok {m : List (Int × ℝ)} (h : PM m) (y : Int) {w : ℝ} (hw : 2 * eta ≤ w) (hr : F64.Rep w) (hB : vsum m + w ≤ 10 ^ 19) :
    ∃ m', addTo (toM m) y (fin w) = toM m' ∧ PM m' ∧ m' ≠ [] ∧ m'.length ≤ m.length + 1 ∧ (∀ z, z ∈ m'.map Prod.fst ↔ z = y ∨ z ∈ m.map Prod.fst) ∧
      (1 - u) * (vsum m + w) ≤ vsum m' ∧ vsum m' ≤ (1 + u) * (vsum m + w) := by
  have hη := eta_pos
  have hu := u_pos
  have hw0 : 0 ≤ w := by linarith
  induction m with
  | nil =>
    simp only [vsum_nil, zero_add] at hB
    refine ⟨[(y, w)], ?_, ?_, by simp, by simp, by simp, ?_⟩
    · show [(y, F64.add (fin 0) (fin w))] = _
      rw [F64.add, zero_add, rnd_small (by rw [abs_of_nonneg hw0]; linarith), round_of_rep hr]
      rfl
    · intro p hp; rw [List.mem_singleton] at hp; subst hp; exact ⟨hw, hr⟩
    · simp only [vsum_nil, vsum_cons, zero_add, add_zero]
      constructor <;> nlinarith
  | cons p m ih =>
    obtain ⟨⟨hp1, hp2⟩, hm⟩ := h.cons
    rw [vsum_cons] at hB
    have hv := hm.vsum_nonneg
    have e : addTo (toM (p :: m)) y (fin w) =
        if p.1 = y then (p.1, F64.add (fin p.2) (fin w)) :: toM m else (p.1, fin p.2) :: addTo (toM m) y (fin w) := rfl
    rw [e]
    by_cases hy : p.1 = y
    · rw [if_pos hy]
      obtain ⟨n1, n2⟩ := add_near hp2 hr (by linarith)
      refine ⟨(p.1, F64.round (p.2 + w)) :: m, ?_, ?_, by simp, by simp, ?_, ?_⟩
      · rw [F64.add, rnd_small]
        · rfl
        · rw [abs_of_nonneg (by linarith)]; linarith
      · intro q hq
        rcases List.mem_cons.mp hq with rfl | hq
        · exact ⟨round_pos (by linarith), rep_round _⟩
        · exact hm q hq
      · intro z; simp only [List.map_cons, List.mem_cons]; rw [hy]; tauto
      · simp only [vsum_cons]
        constructor <;> nlinarith
    · rw [if_neg hy]
      obtain ⟨m', h1, h2, h3, h4, h5, h6, h7⟩ := ih hm (by linarith)
      refine ⟨p :: m', ?_, ?_, by simp, by simpa using h4, ?_, ?_⟩
      · rw [h1]; rfl
      · intro q hq
        rcases List.mem_cons.mp hq with rfl | hq
        · exact ⟨hp1, hp2⟩
        · exact h2 q hq
      · intro z; simp only [List.map_cons, List.mem_cons]; rw [h5]; tauto
      · simp only [vsum_cons]
        constructor <;> nlinarith

/-- Collecting weights. -/
theorem collect_ok : ∀ (l m : List (Int × ℝ)) (X : ℝ) (k : ℕ), PM l → PM m → 0 ≤ X → Near k (vsum m) X → X + vsum l ≤ 10 ^ 18 → k + l.length ≤ 10 ^ 6 →
    ∃ m', collectWeights (toM l) (toM m) = toM m' ∧ PM m' ∧ m'.length ≤ m.length + l.length ∧
      (∀ z, z ∈ m'.map Prod.fst ↔ z ∈ l.map Prod.fst ∨ z ∈ m.map Prod.fst) ∧ Near (k + l.length) (vsum m') (X + vsum l) := by
  intro l
  induction l with
  | nil => intro m X k _ hm _ hn _ _; exact ⟨m, rfl, hm, by simp, by simp, by simpa [vsum_nil] using hn⟩
  | cons p l ih =>
    intro m X k hl hm hX hn hB hk
    obtain ⟨⟨hp1, hp2⟩, hl'⟩ := hl.cons
    rw [vsum_cons] at hB
    have hη := eta_pos
    have hv := hl'.vsum_nonneg
    simp only [List.length_cons] at hk
    have hb := (hn.bound (by omega) hX).2
    obtain ⟨m1, e1, e2, -, e3, e4, e5, e6⟩ := addTo_ok hm p.1 hp1 hp2 (by linarith)
    have hn1 : Near (k + 1) (vsum m1) (X + p.2) := (hn.add (Near.mono (Nat.zero_le k) (by linarith) (Near.refl p.2))).step e5 e6
    obtain ⟨m', f1, f2, f3, f4, f5⟩ := ih m1 (X + p.2) (k + 1) hl' e2 (by linarith) hn1 (by linarith) (by omega)
    refine ⟨m', ?_, f2, ?_, ?_, ?_⟩
    · rw [← f1, ← e1]; rfl
    · simp only [List.length_cons]; omega
    · intro z; rw [f4, e4]; simp only [List.map_cons, List.mem_cons]; tauto
    · rw [vsum_cons, ← add_assoc, List.length_cons, show k + (l.length + 1) = k + 1 + l.length by ring]; exact f5

/-! ## The rows of a node -/

/-- The rows of a node: their weights are positive `f64`s with a sum of at most `3/2`. -/
structure Node (s : Sample ℝ) (dist : List F64) (w : ℕ → ℝ) (idx : List ℕ) : Prop where
  row : ∀ i ∈ idx, i < s.nSample
  weight : ∀ i ∈ idx, dist[i]? = some (fin (w i)) ∧ 2 * eta ≤ w i ∧ F64.Rep (w i)
  few : idx.length ≤ 10 ^ 5
  sum : (idx.map w).sum ≤ 3 / 2

theorem Node.tail {s : Sample ℝ} {dist : List F64} {w : ℕ → ℝ} {i : ℕ} {idx : List ℕ} (h : Node s dist w (i :: idx)) : Node s dist w idx where
  row j hj := h.row j (List.mem_cons_of_mem _ hj)
  weight j hj := h.weight j (List.mem_cons_of_mem _ hj)
  few := by have := h.few; simp only [List.length_cons] at this; omega
  sum := by
    have h2 := (h.weight i (by simp)).2.1
    have := eta_pos
    linarith [h.sum, show ((i :: idx).map w).sum = w i + (idx.map w).sum from rfl]

theorem Node.filter {s : Sample ℝ} {dist : List F64} {w : ℕ → ℝ} {idx : List ℕ} (h : Node s dist w idx) (p : ℕ → Bool) : Node s dist w (idx.filter p) where
  row j hj := h.row j (List.mem_filter.mp hj).1
  weight j hj := h.weight j (List.mem_filter.mp hj).1
  few := (List.length_filter_le _ _).trans h.few
  sum := by
    refine le_trans ?_ h.sum
    have h0 : ∀ i ∈ idx, 0 ≤ w i := fun i hi => by have := (h.weight i hi).2.1; have := eta_pos; linarith
    clear h
    induction idx with
    | nil => simp
    | cons i idx ih =>
      have hi := h0 i (by simp)
      have := ih (fun j hj => h0 j (List.mem_cons_of_mem _ hj))
      rw [List.filter_cons]
      split <;> simp only [List.map_cons, List.sum_cons] <;> linarith

theorem Node.sum_pos {s : Sample ℝ} {dist : List F64} {w : ℕ → ℝ} {idx : List ℕ} (h : Node s dist w idx) (hne : idx ≠ []) : 2 * eta ≤ (idx.map w).sum := by
  obtain ⟨i, l, rfl⟩ := List.exists_cons_of_ne_nil hne
  have h0 : 0 ≤ (l.map w).sum := List.sum_nonneg (by
    simp only [List.mem_map]
    rintro _ ⟨j, hj, rfl⟩
    have := (h.weight j (List.mem_cons_of_mem _ hj)).2.1
    have := eta_pos
    linarith)
  have := (h.weight i (by simp)).2.1
  simp only [List.map_cons, List.sum_cons]
  linarith

/-! ## Packing -/

theorem partialCmp_fin (a b : ℝ) : partialCmp (fin a) (fin b) = some (compare a b) := by
  unfold partialCmp
  rcases lt_trichotomy a b with h | h | h
  · rw [compare_lt_iff_lt.mpr h]; exact if_pos h
  · subst h
    rw [compare_eq_iff_eq.mpr rfl]
    exact (if_neg (lt_irrefl a)).trans ((if_neg (lt_irrefl a)).trans (if_pos le_rfl))
  · rw [compare_gt_iff_gt.mpr h]
    exact (if_neg (not_lt.mpr h.le)).trans (if_pos h)

theorem position_eq {z : ℝ} {a : ℝ} {rb : List (Bin ℝ)} (_h : Tiles a rb z) (x : ℝ) : position (rb.map toF) x = Bins.position rb x := by
  unfold position Bins.position
  have key : ∀ b : Bin ℝ, (open Classical in if Le (toF b).start (fin x) ∧ Lt (fin x) (toF b).stop then Ordering.eq
      else (partialCmp (toF b).start (fin x)).getD .gt) = if b.contains x then .eq else compare b.start x := by
    intro b
    have h1 : (Le (toF b).start (fin x) ∧ Lt (fin x) (toF b).stop) ↔ b.contains x = true := by simp [toF, Le, Lt, Bin.contains]
    by_cases hc : b.contains x = true
    · rw [if_pos (h1.mpr hc), if_pos hc]
    · rw [if_neg (fun h => hc (h1.mp h)), if_neg hc]
      show (partialCmp (fin b.start) (fin x)).getD .gt = _
      rw [partialCmp_fin]
      rfl
  have hcmp : ∀ i, cmpAt (fun b : Bin F64 => open Classical in if Le b.start (fin x) ∧ Lt (fin x) b.stop then Ordering.eq
      else (partialCmp b.start (fin x)).getD .gt) (rb.map toF) i = cmpAt (fun b : Bin ℝ => if b.contains x then .eq else compare b.start x) rb i := by
    intro i
    unfold cmpAt
    rw [List.getElem?_map]
    cases rb[i]? with
    | none => rfl
    | some b => exact key b
  cases rb with
  | nil => rfl
  | cons b l =>
    unfold binarySearchBy
    simp only [List.map_cons] at hcmp ⊢
    rw [show cmpAt _ (toF b :: List.map toF l) = _ from funext hcmp]
    simp only [List.length_cons, List.length_map]

theorem packLoop_f64 {rb : List (Bin ℝ)} (ht : Tiles (-maxVal) rb maxVal) {s : Sample ℝ} (hs : SampleOk s) {f : Feature ℝ} (hf : f ∈ s.features)
    (hv : ∀ i < s.nSample, |f.val i| < maxVal) {dist : List F64} {w : ℕ → ℝ} :
    ∀ (idx : List ℕ), Node s dist w idx → ∀ (ms : List (List (Int × ℝ))) (X : ℝ) (k : ℕ), ms.length = rb.length → PM ms.flatten → 0 ≤ X →
      Near k (vsum ms.flatten) X → X + (idx.map w).sum ≤ 10 → k + idx.length ≤ 10 ^ 6 → ms.flatten.length ≤ k →
      (∀ p ∈ ms.flatten, |p.1| ≤ 2 ^ 31) →
      ∃ ms' : List (List (Int × ℝ)), packLoop (rb.map toF) f s.target dist idx (ms.map toM) = some (ms'.map toM) ∧ ms'.length = rb.length ∧ PM ms'.flatten ∧
        Near (k + idx.length) (vsum ms'.flatten) (X + (idx.map w).sum) ∧ ms'.flatten.length ≤ k + idx.length ∧
        ∀ p ∈ ms'.flatten, |p.1| ≤ 2 ^ 31 := by
  intro idx
  induction idx with
  | nil => intro _ ms X k h1 h2 _ h4 _ _ h7 h8; exact ⟨ms, rfl, h1, h2, by simpa using h4, by simpa using h7, h8⟩
  | cons i idx ih =>
    intro hN ms X k h1 h2 h3 h4 h5 h6 h7 h8
    have hi := hN.row i (by simp)
    obtain ⟨hd, hw1, hw2⟩ := hN.weight i (by simp)
    have hη := eta_pos
    simp only [List.map_cons, List.sum_cons, List.length_cons] at h5 h6
    have hnn : 0 ≤ (idx.map w).sum := List.sum_nonneg (by
      simp only [List.mem_map]
      rintro _ ⟨j, hj, rfl⟩
      have := (hN.weight j (List.mem_cons_of_mem _ hj)).2.1
      linarith)
    have hx := abs_lt.mp (hv i hi)
    obtain ⟨pos, b, e1, e2, e3⟩ := position_ok ht hx.1.le hx.2
    have hpos : pos < ms.length := by rw [h1]; exact (List.getElem?_eq_some_iff.mp e2).1
    have hget : ms[pos]? = some ms[pos] := List.getElem?_eq_getElem hpos
    have hPM : PM ms[pos] := fun p hp => h2 p (List.mem_flatten.mpr ⟨_, List.getElem_mem hpos, hp⟩)
    have hb := (h4.bound (by omega) h3).2
    have hle : vsum ms[pos] ≤ vsum ms.flatten := by
      rw [vsum_flatten]
      refine List.single_le_sum ?_ _ (List.mem_map.mpr ⟨_, List.getElem_mem hpos, rfl⟩)
      simp only [List.mem_map]
      rintro _ ⟨m, hm, rfl⟩
      exact PM.vsum_nonneg fun p hp => h2 p (List.mem_flatten.mpr ⟨m, hm, hp⟩)
    obtain ⟨m', a1, a2, -, a4, a7, a5, a6⟩ := addTo_ok hPM (asI32 (s.target.getD i 0)) hw1 hw2 (by linarith)
    have hset : vsum (ms.set pos m').flatten = vsum ms.flatten + (vsum m' - vsum ms[pos]) := by
      rw [vsum_flatten, vsum_flatten, sum_map_set vsum hget]
    have hlen : ((ms.set pos m').flatten.length : ℤ) = ms.flatten.length + (m'.length - ms[pos].length) := by
      have hz : ∀ l : List (List (Int × ℝ)), (l.flatten.length : ℚ) = (l.map fun m => (m.length : ℚ)).sum := by
        intro l
        induction l with
        | nil => simp
        | cons a l ih => rw [List.flatten_cons, List.length_append]; push_cast; rw [ih]; rfl
      have h := sum_map_set (K := ℚ) (fun m : List (Int × ℝ) => (m.length : ℚ)) hget (a' := m')
      rw [← hz, ← hz] at h
      exact_mod_cast h
    have hnear : Near (k + 1) (vsum (ms.set pos m').flatten) (X + w i) := by
      refine (h4.add (Near.mono (Nat.zero_le k) (by linarith) (Near.refl (w i)))).step ?_ ?_
      · rw [hset]
        have : 0 ≤ u * (vsum ms.flatten - vsum ms[pos]) := mul_nonneg u_pos.le (by linarith)
        nlinarith
      · rw [hset]
        have : 0 ≤ u * (vsum ms.flatten - vsum ms[pos]) := mul_nonneg u_pos.le (by linarith)
        nlinarith
    have hPM' : PM (ms.set pos m').flatten := by
      intro p hp
      obtain ⟨m, hm, hpm⟩ := List.mem_flatten.mp hp
      rcases List.mem_or_eq_of_mem_set hm with hm | rfl
      · exact h2 p (List.mem_flatten.mpr ⟨m, hm, hpm⟩)
      · exact a2 p hpm
    have hlab : ∀ p ∈ (ms.set pos m').flatten, |p.1| ≤ 2 ^ 31 := by
      intro p hp
      obtain ⟨m, hm, hpm⟩ := List.mem_flatten.mp hp
      rcases List.mem_or_eq_of_mem_set hm with hm | rfl
      · exact h8 p (List.mem_flatten.mpr ⟨m, hm, hpm⟩)
      · rcases (a7 p.1).mp (List.mem_map.mpr ⟨p, hpm, rfl⟩) with h | h
        · rw [h]
          unfold asI32
          rw [abs_le]
          constructor <;> omega
        · obtain ⟨q, hq, hqe⟩ := List.mem_map.mp h
          rw [← hqe]
          exact h8 q (List.mem_flatten.mpr ⟨_, List.getElem_mem hpos, hq⟩)
    obtain ⟨ms', g1, g2, g3, g4, g5, g6⟩ := ih hN.tail (ms.set pos m') (X + w i) (k + 1) (by simpa using h1) hPM' (by linarith) hnear (by linarith)
      (by omega) (by omega) hlab
    refine ⟨ms', ?_, g2, g3, ?_, ?_, g6⟩
    · unfold packLoop
      rw [Feature.index_val (hs.columns f hf) hi, hd, show s.target[i]? = some (s.target.getD i 0) by
        rw [List.getElem?_eq_getElem (by rw [hs.labels]; exact hi), List.getD_eq_getElem?_getD,
          List.getElem?_eq_getElem (by rw [hs.labels]; exact hi)]; rfl]
      simp only [position_eq ht, e1, List.getElem?_map, hget, Option.map_some]
      rw [a1, ← List.map_set]
      exact g1
    · simp only [List.map_cons, List.sum_cons, List.length_cons]
      rw [show k + (idx.length + 1) = k + 1 + idx.length by ring, ← add_assoc]; exact g4
    · simp only [List.length_cons]; omega

/-! ## Removing the empty bins -/

/-- A map divided by the total. -/
noncomputable def normR (T : ℝ) (m : List (Int × ℝ)) : List (Int × ℝ) := m.map fun p => (p.1, F64.round (p.2 / T))

theorem divide_iff {T : ℝ} (hT : T ≠ 0) {m : List (Int × ℝ)} (hB : ∀ p ∈ m, |p.2 / T| ≤ 10 ^ 20) (m' : LabelMap F64) :
    Divide (fin T) (toM m) m' ↔ m' = toM (normR T m) := by
  unfold Divide
  rw [parMap_iff]
  have : (toM m).map (fun p => (p.1, F64.div p.2 (fin T))) = toM (normR T m) := by
    unfold toM normR
    rw [List.map_map, List.map_map]
    refine List.map_congr_left fun p hp => ?_
    simp only [Function.comp, F64.div, if_neg hT, rnd_small (hB p hp)]
  rw [this]

theorem merge_ok {T : ℝ} (hT : T ≠ 0) : ∀ (rest : List (Bin F64 × LabelMap F64)) (ms : List (List (Int × ℝ))), rest.map Prod.snd = ms.map toM →
    (∀ m ∈ ms, ∀ p ∈ m, |p.2 / T| ≤ 10 ^ 20) → ∀ (prev : Bin F64) (pw : LabelMap F64),
      (∃ res, Merge (fin T) prev pw rest res) ∧
      ∀ res, Merge (fin T) prev pw rest res → res.map Prod.snd = pw :: ms.map (fun m => toM (normR T m)) := by
  intro rest
  induction rest with
  | nil =>
    intro ms hm _ prev pw
    have : ms = [] := by simpa using hm.symm
    subst this
    refine ⟨⟨_, rfl⟩, fun res h => ?_⟩
    rw [show res = [(prev, pw)] from h]
    rfl
  | cons q rest ih =>
    intro ms hm hB prev pw
    obtain ⟨nb, nw⟩ := q
    cases ms with
    | nil => simp at hm
    | cons m ms =>
      simp only [List.map_cons, List.cons.injEq] at hm
      obtain ⟨rfl, hm⟩ := hm
      have hd := divide_iff hT (hB m (by simp))
      obtain ⟨⟨res, hres⟩, hall⟩ := ih ms hm (fun m' h' => hB m' (List.mem_cons_of_mem _ h'))
        ⟨F64.div (F64.add prev.stop nb.start) (fin 2), nb.stop⟩ (toM (normR T m))
      refine ⟨⟨_, _, _, (hd _).mpr rfl, hres, rfl⟩, ?_⟩
      rintro res' ⟨nw', r', h1, h2, rfl⟩
      rw [(hd _).mp h1] at h2
      simp only [List.map_cons, hall r' h2]

/-- What the searches are given: positive weights with a sum close to one. -/
structure SoundPack (pack : List (Bin F64 × LabelMap F64)) (ms : List (List (Int × ℝ))) : Prop where
  maps : pack.map Prod.snd = ms.map toM
  pos : PM ms.flatten
  few : ms.flatten.length ≤ 10 ^ 5
  sum : |vsum ms.flatten - 1| ≤ 1 / 10 ^ 6
  labels : ∀ p ∈ ms.flatten, |p.1| ≤ 2 ^ 31
  bins : ms.length ≤ 10 ^ 5

theorem flatten_filter {A : Type*} (l : List (List A)) : (l.filter fun m => !m.isEmpty).flatten = l.flatten := by
  induction l with
  | nil => rfl
  | cons a l ih =>
    rw [List.filter_cons]
    cases a with
    | nil => simp only [List.isEmpty_nil, Bool.not_true, Bool.false_eq_true, if_false, ih, List.flatten_cons, List.nil_append]
    | cons x a => simp only [List.isEmpty_cons, Bool.not_false, if_true, List.flatten_cons, ih]

theorem filter_snd {A B : Type*} (p : B → Bool) (l : List (A × B)) : (l.filter fun q => p q.2).map Prod.snd = (l.map Prod.snd).filter p := by
  rw [List.filter_map]
  rfl

theorem normR_flatten (T : ℝ) (ms : List (List (Int × ℝ))) : (ms.map (normR T)).flatten = normR T ms.flatten := by
  unfold normR
  rw [List.map_flatten]

theorem totals_ok : ∀ (ms : List (List (Int × ℝ))), PM ms.flatten → ms.flatten.length ≤ 10 ^ 5 → vsum ms.flatten ≤ 10 → ∀ ts, List.Forall₂ Total (ms.map toM) ts →
    ∃ xs : List ℝ, ts = xs.map fin ∧ xs.length = ms.length ∧ (∀ x ∈ xs, 0 ≤ x ∧ F64.Rep x) ∧ Near (10 ^ 5) xs.sum (vsum ms.flatten) := by
  intro ms
  induction ms with
  | nil =>
    intro _ _ _ ts h
    cases h
    exact ⟨[], rfl, rfl, by simp, by simp [Near, vsum_nil]⟩
  | cons m ms ih =>
    intro h1 h2 h3 ts h
    obtain ⟨t, ts, rfl⟩ : ∃ t l, ts = t :: l := by cases h; exact ⟨_, _, rfl⟩
    rw [List.map_cons, List.forall₂_cons] at h
    simp only [List.flatten_cons, List.length_append, vsum_append] at h2 h3 ⊢
    have p1 : PM m := fun p hp => h1 p (by simp [hp])
    have p2 : PM ms.flatten := fun p hp => h1 p (by rw [List.flatten_cons]; exact List.mem_append_right _ hp)
    have n1 := p1.vsum_nonneg
    have n2 := p2.vsum_nonneg
    obtain ⟨s, rfl, hr, hn⟩ := total_ok p1 (by omega) (by linarith) h.1
    obtain ⟨xs, rfl, e2, e3, e4⟩ := ih p2 (by omega) (by linarith) ts h.2
    refine ⟨s :: xs, rfl, by simp [e2], ?_, ?_⟩
    · intro x hx
      rcases List.mem_cons.mp hx with rfl | hx
      · exact ⟨hn.nonneg n1, hr⟩
      · exact e3 x hx
    · rw [List.sum_cons]
      exact (hn.mono (by omega) n1).add e4

/-- Division of all weights by a total close to their sum. -/
theorem normR_ok {T : ℝ} {m : List (Int × ℝ)} (hm : PM m) (hl : m.length ≤ 10 ^ 5) (hT0 : 0 < T) (hT : T < 19 / 10) {k : ℕ} (hk : k ≤ 10 ^ 6) (hN : Near k T (vsum m)) :
    PM (normR T m) ∧ |vsum (normR T m) - 1| ≤ 1 / 10 ^ 6 ∧ ∀ p ∈ m, |p.2 / T| ≤ 2 := by
  have hη := eta_pos
  have hη' := eta_tiny
  have hu := u_small
  have hu0 := u_pos
  obtain ⟨b1, b2⟩ := hN.bound hk hm.vsum_nonneg
  have hV : vsum m ≤ (1 + 2 / 10 ^ 9) * T := by nlinarith
  have hlow : (1 - 1 / 10 ^ 9) * T ≤ vsum m := by nlinarith
  have hpt : ∀ p ∈ m, eta < p.2 / T ∧ p.2 / T ≤ 2 := by
    intro p hp
    constructor
    · rw [lt_div_iff₀ hT0]
      have := (hm p hp).1
      nlinarith
    · rw [div_le_iff₀ hT0]
      have := hm.le_vsum hp
      nlinarith
  refine ⟨?_, ?_, fun p hp => by rw [abs_of_nonneg (by linarith [(hpt p hp).1])]; exact (hpt p hp).2⟩
  · intro q hq
    obtain ⟨p, hp, rfl⟩ := List.mem_map.mp hq
    exact ⟨round_pos (hpt p hp).1, rep_round _⟩
  · have hsum : ∀ l : List (Int × ℝ), (∀ p ∈ l, eta < p.2 / T) → |vsum (normR T l) - vsum l / T| ≤ u * (vsum l / T) + l.length * eta := by
      intro l
      induction l with
      | nil => intro _; simp [normR, vsum_nil]
      | cons p l ih =>
        intro h
        have h1 := ih fun q hq => h q (List.mem_cons_of_mem _ hq)
        have h2 := round_err (p.2 / T)
        have h3 := h p (by simp)
        rw [abs_of_pos (by linarith : 0 < p.2 / T)] at h2
        have e1 : vsum (normR T (p :: l)) = F64.round (p.2 / T) + vsum (normR T l) := rfl
        rw [e1, vsum_cons, add_div, List.length_cons]
        have h4 := abs_le.mp h1
        have h5 := abs_le.mp h2
        push_cast
        rw [abs_le]
        constructor <;> nlinarith [h4.1, h4.2, h5.1, h5.2]
    have h := hsum m fun p hp => (hpt p hp).1
    have hr1 : vsum m / T ≤ 1 + 2 / 10 ^ 9 := by rw [div_le_iff₀ hT0]; exact hV
    have hr2 : 1 - 1 / 10 ^ 9 ≤ vsum m / T := by rw [le_div_iff₀ hT0]; exact hlow
    have hl' : (m.length : ℝ) ≤ 100000 := by exact_mod_cast (hl.trans (by norm_num) : m.length ≤ 100000)
    have hle : (m.length : ℝ) * eta ≤ 100000 * (1 / 10 ^ 60) := by gcongr
    have hue : u * (vsum m / T) ≤ 1 / 9000000000000000 * (1 + 2 / 10 ^ 9) := by
      have : 0 ≤ vsum m / T := by linarith
      gcongr
    have h6 := abs_le.mp h
    rw [abs_le]
    norm_num at *
    constructor <;> linarith [h6.1, h6.2]

theorem removeZero_ok {rb : List (Bin ℝ)} (hrb : rb ≠ []) (hrl : rb.length ≤ 10 ^ 5) {ms : List (List (Int × ℝ))} (hl : ms.length = rb.length) (hm : PM ms.flatten)
    (hfew : ms.flatten.length ≤ 10 ^ 5) (hlab : ∀ p ∈ ms.flatten, |p.1| ≤ 2 ^ 31) (hne : ms.flatten ≠ []) {X : ℝ} (hX0 : 0 ≤ X) (hX : X ≤ 3 / 2) (hN : Near (10 ^ 5) (vsum ms.flatten) X) :
    (∃ o, RemoveZero (rb.map toF) (ms.map toM) o) ∧
    ∀ o, RemoveZero (rb.map toF) (ms.map toM) o → ∃ pack ms', o = some pack ∧ SoundPack pack ms' := by
  have hvs := (hN.bound (by norm_num) hX0).2
  have hpos : 0 < vsum ms.flatten := hm.pos hne
  -- the total
  have htot : ∀ totals total, List.Forall₂ Total (ms.map toM) totals → SumOf totals total →
      ∃ T k, total = fin T ∧ 0 < T ∧ T < 19 / 10 ∧ k ≤ 10 ^ 6 ∧ Near k T (vsum ms.flatten) := by
    intro totals total h1 h2
    obtain ⟨xs, rfl, x2, x3, x4⟩ := totals_ok ms hm hfew (by linarith) totals h1
    obtain ⟨t, ht, rfl⟩ := h2
    have hxs := x4.nonneg hpos.le
    have hxb := (x4.bound (by norm_num) hpos.le).2
    obtain ⟨T, e1, e2, e3⟩ := split_near t xs ht x3 (by linarith) (by rw [x2, hl]; omega)
    have hn := e3.trans x4
    have hb := (hn.bound (by rw [x2, hl]; omega) hpos.le).2
    exact ⟨T, _, e1, hn.pos hpos, by linarith, by rw [x2, hl]; omega, hn⟩
  have hzip : ((rb.map toF).zip (ms.map toM)).map Prod.snd = ms.map toM := List.map_snd_zip (by simp [hl])
  have hnef : (ms.filter fun m => !m.isEmpty) ≠ [] := by
    intro h
    have := flatten_filter ms
    rw [h] at this
    exact hne this.symm
  have hconv : ∀ m' : List (List (Int × ℝ)), (m'.map toM).filter (fun m => !m.isEmpty) = (m'.filter fun m => !m.isEmpty).map toM := by
    intro m'
    rw [List.filter_map]
    congr 1
    refine List.filter_congr fun m _ => ?_
    simp only [Function.comp, toM_isEmpty]
  obtain ⟨b, rb', rfl⟩ := List.exists_cons_of_ne_nil hrb
  obtain ⟨m0, ms', rfl⟩ : ∃ m l, ms = m :: l := List.exists_cons_of_ne_nil (by intro h; rw [h] at hl; simp at hl)
  have core : ∀ (T : ℝ) (k : ℕ), 0 < T → T < 19 / 10 → k ≤ 10 ^ 6 → Near k T (vsum (m0 :: ms').flatten) →
      ((∃ o, (match ((b :: rb').map toF).zip ((m0 :: ms').map toM) with
        | [] => o = none
        | (b, w) :: rest =>
          if w.isEmpty then
            match rest.filter fun p => !p.2.isEmpty with
            | [] => o = none
            | (nb, nw) :: rest => ∃ nw' res, Divide (fin T) nw nw' ∧ Merge (fin T) ⟨b.start, nb.stop⟩ nw' rest res ∧ o = some res
          else ∃ w' res, Divide (fin T) w w' ∧ Merge (fin T) b w' (rest.filter fun p => !p.2.isEmpty) res ∧ o = some res)) ∧
      ∀ o, (match ((b :: rb').map toF).zip ((m0 :: ms').map toM) with
        | [] => o = none
        | (b, w) :: rest =>
          if w.isEmpty then
            match rest.filter fun p => !p.2.isEmpty with
            | [] => o = none
            | (nb, nw) :: rest => ∃ nw' res, Divide (fin T) nw nw' ∧ Merge (fin T) ⟨b.start, nb.stop⟩ nw' rest res ∧ o = some res
          else ∃ w' res, Divide (fin T) w w' ∧ Merge (fin T) b w' (rest.filter fun p => !p.2.isEmpty) res ∧ o = some res) →
        ∃ pack ms', o = some pack ∧ SoundPack pack ms') := by
    intro T k hT0 hT hk hNT
    obtain ⟨q1, q2, q3⟩ := normR_ok hm hfew hT0 hT hk hNT
    have hB : ∀ m ∈ m0 :: ms', ∀ p ∈ m, |p.2 / T| ≤ 10 ^ 20 := fun m hm' p hp =>
      (q3 p (List.mem_flatten.mpr ⟨m, hm', hp⟩)).trans (by norm_num)
    have sound : ∀ res : List (Bin F64 × LabelMap F64), res.map Prod.snd = (((m0 :: ms').filter fun m => !m.isEmpty).map (normR T)).map toM →
        SoundPack res (((m0 :: ms').filter fun m => !m.isEmpty).map (normR T)) := by
      intro res hres
      have hf : (((m0 :: ms').filter fun m => !m.isEmpty).map (normR T)).flatten = normR T (m0 :: ms').flatten := by
        rw [normR_flatten, flatten_filter]
      refine ⟨hres, ?_, ?_, ?_, ?_, ?_⟩
      · rw [hf]; exact q1
      · rw [hf]; unfold normR; rw [List.length_map]; exact hfew
      · rw [hf]; exact q2
      · rw [hf]
        intro p hp
        obtain ⟨q, hq, rfl⟩ := List.mem_map.mp hp
        exact hlab q hq
      · rw [List.length_map]
        refine (List.length_filter_le _ _).trans ?_
        rw [hl]
        exact hrl
    have hrest : (((rb'.map toF).zip (ms'.map toM)).filter fun p => !p.2.isEmpty).map Prod.snd = (ms'.filter fun m => !m.isEmpty).map toM := by
      rw [filter_snd (fun m : LabelMap F64 => !m.isEmpty), List.map_snd_zip (by simp at hl ⊢; omega), hconv]
    simp only [List.map_cons, List.zip_cons_cons]
    cases m0 with
    | nil =>
      simp only [toM_nil, List.isEmpty_nil, if_true]
      have hnil : ((([] : List (Int × ℝ)) :: ms').filter fun m => !m.isEmpty) = ms'.filter fun m => !m.isEmpty := by
        rw [List.filter_cons]; simp
      rw [hnil] at hnef sound
      obtain ⟨m1, l1, hm1⟩ := List.exists_cons_of_ne_nil hnef
      rw [hm1] at hrest sound
      have hmem : ∀ m ∈ m1 :: l1, m ∈ ([] : List (Int × ℝ)) :: ms' := by
        intro m hm'
        rw [← hm1] at hm'
        exact List.mem_cons_of_mem _ (List.mem_filter.mp hm').1
      cases hfl : ((rb'.map toF).zip (ms'.map toM)).filter fun p => !p.2.isEmpty with
      | nil => rw [hfl] at hrest; simp at hrest
      | cons q rest =>
        obtain ⟨nb, nw⟩ := q
        rw [hfl] at hrest
        simp only [List.map_cons, List.cons.injEq] at hrest
        obtain ⟨rfl, hrest⟩ := hrest
        have hd := divide_iff hT0.ne' (hB m1 (hmem m1 (by simp)))
        obtain ⟨⟨res, hres⟩, hall⟩ := merge_ok hT0.ne' rest l1 hrest (fun m hm' => hB m (hmem m (List.mem_cons_of_mem _ hm')))
          ⟨(toF b).start, nb.stop⟩ (toM (normR T m1))
        refine ⟨⟨_, _, res, (hd _).mpr rfl, hres, rfl⟩, ?_⟩
        rintro o ⟨nw', r, h1, h2, rfl⟩
        rw [(hd _).mp h1] at h2
        refine ⟨r, _, rfl, sound r ?_⟩
        rw [hall r h2]
        simp
    | cons p0 m0 =>
      have hnil : (((p0 :: m0) :: ms').filter fun m => !m.isEmpty) = (p0 :: m0) :: ms'.filter fun m => !m.isEmpty := by
        rw [List.filter_cons]; simp
      rw [hnil] at sound
      have hfalse : (toM (p0 :: m0)).isEmpty = false := by rw [toM_isEmpty]; rfl
      simp only [hfalse, Bool.false_eq_true, if_false]
      have hd := divide_iff hT0.ne' (hB (p0 :: m0) (by simp))
      obtain ⟨⟨res, hres⟩, hall⟩ := merge_ok hT0.ne' _ _ hrest (fun m hm' => hB m (List.mem_cons_of_mem _ (List.mem_filter.mp hm').1))
          (toF b) (toM (normR T (p0 :: m0)))
      refine ⟨⟨_, _, res, (hd _).mpr rfl, hres, rfl⟩, ?_⟩
      rintro o ⟨nw', r, h1, h2, rfl⟩
      rw [(hd _).mp h1] at h2
      refine ⟨r, _, rfl, sound r ?_⟩
      rw [hall r h2]
      simp
  constructor
  · obtain ⟨ts, h1⟩ := exists_totals ((m0 :: ms').map toM)
    obtain ⟨tot, h2⟩ := exists_sumOf ts
    obtain ⟨T, k, rfl, t1, t2, t3, t4⟩ := htot ts tot h1 h2
    obtain ⟨⟨o, ho⟩, -⟩ := core T k t1 t2 t3 t4
    exact ⟨o, ts, fin T, h1, h2, Or.inr ⟨t1, ho⟩⟩
  · rintro o ⟨ts, tot, h1, h2, h3⟩
    obtain ⟨T, k, rfl, t1, t2, t3, t4⟩ := htot ts tot h1 h2
    rcases h3 with ⟨h3, -⟩ | ⟨-, h3⟩
    · exact absurd t1 h3
    · exact (core T k t1 t2 t3 t4).2 o h3

/-- `Bins::pack`. -/
theorem pack_f64 {rb : List (Bin ℝ)} (ht : Tiles (-maxVal) rb maxVal) (hrl : rb.length ≤ 10 ^ 5) {s : Sample ℝ} (hs : SampleOk s) {f : Feature ℝ} (hf : f ∈ s.features)
    (hv : ∀ i < s.nSample, |f.val i| < maxVal) {dist : List F64} {w : ℕ → ℝ} {idx : List ℕ} (hN : Node s dist w idx) (hne : idx ≠ []) :
    (∃ o, Pack (rb.map toF) idx f s.target dist o) ∧
    ∀ o, Pack (rb.map toF) idx f s.target dist o → ∃ pack ms, o = some pack ∧ SoundPack pack ms := by
  have hsum := hN.sum
  have hfew := hN.few
  have hrb : rb ≠ [] := by
    rintro rfl
    have : -maxVal = maxVal := ht
    linarith [maxVal_big]
  have hX := hN.sum_pos hne
  have hη := eta_pos
  obtain ⟨ms, h1, h2, h3, h4, h5, h6⟩ := packLoop_f64 ht hs hf hv idx hN (List.replicate rb.length []) 0 0 (by simp) (by simp [PM]) le_rfl
    (by simp [vsum_nil, Near]) (by linarith) (by omega) (by simp) (by simp)
  simp only [zero_add] at h4 h5
  have hne' : ms.flatten ≠ [] := by
    intro h
    rw [h, vsum_nil] at h4
    have := h4.pos (by linarith)
    exact lt_irrefl _ this
  have hrep : (List.replicate rb.length ([] : List (Int × ℝ))).map toM = List.replicate (rb.map toF).length [] := by
    simp [List.map_replicate, toM_nil]
  rw [hrep] at h1
  unfold Pack
  rw [h1]
  exact removeZero_ok hrb hrl h2 h3 (by omega) h6 hne' (by linarith) hsum (h4.mono hfew (by linarith))

end Miniboosts.FTree
