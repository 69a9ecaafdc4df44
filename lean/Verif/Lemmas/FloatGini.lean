import Verif.Lemmas.FloatStump

/-! # The Gini criterion in `f64` -/

namespace Miniboosts.FTree

open Miniboosts F64 Spec

/-! ## The weight of one label -/

/-- The weight of the label `y`. -/
noncomputable def lab (m : List (Int × ℝ)) (y : Int) : ℝ := (m.map fun p => if p.1 = y then p.2 else 0).sum

/-- Maps with distinct labels `±1` and non-negative `f64` weights. -/
structure GM (m : List (Int × ℝ)) : Prop where
  vals : ∀ p ∈ m, 0 ≤ p.2 ∧ F64.Rep p.2
  signs : Signs m
  keys : (m.map Prod.fst).Nodup

theorem lab_nil (y : Int) : lab [] y = 0 := rfl

theorem lab_cons (p : Int × ℝ) (m : List (Int × ℝ)) (y : Int) : lab (p :: m) y = (if p.1 = y then p.2 else 0) + lab m y := rfl

theorem lab_perm {a b : List (Int × ℝ)} (h : a.Perm b) (y : Int) : lab a y = lab b y := (h.map _).sum_eq

theorem GM.nil : GM [] := ⟨by simp, by simp [Signs], by simp⟩

theorem GM.perm {a b : List (Int × ℝ)} (h : GM b) (hp : a.Perm b) : GM a :=
  ⟨fun p hm => h.vals p (hp.mem_iff.mp hm), fun p hm => h.signs p (hp.mem_iff.mp hm), (hp.map Prod.fst).nodup_iff.mpr h.keys⟩

theorem GM.tail {p : Int × ℝ} {m : List (Int × ℝ)} (h : GM (p :: m)) : GM m :=
  ⟨fun q hq => h.vals q (List.mem_cons_of_mem _ hq), fun q hq => h.signs q (List.mem_cons_of_mem _ hq), (List.nodup_cons.mp h.keys).2⟩

theorem lab_of_not_mem {m : List (Int × ℝ)} {y : Int} (h : y ∉ m.map Prod.fst) : lab m y = 0 := by
  induction m with
  | nil => rfl
  | cons p m ih =>
    simp only [List.map_cons, List.mem_cons, not_or] at h
    rw [lab_cons, if_neg (Ne.symm h.1), ih h.2, add_zero]

theorem GM.head {p : Int × ℝ} {m : List (Int × ℝ)} (h : GM (p :: m)) : lab m p.1 = 0 := lab_of_not_mem (List.nodup_cons.mp h.keys).1

theorem lab_nonneg {m : List (Int × ℝ)} (h : ∀ p ∈ m, 0 ≤ p.2) (y : Int) : 0 ≤ lab m y := by
  refine List.sum_nonneg ?_
  simp only [List.mem_map]
  rintro _ ⟨p, hp, rfl⟩
  split
  · exact h p hp
  · exact le_rfl

theorem GM.lab_nonneg {m : List (Int × ℝ)} (h : GM m) (y : Int) : 0 ≤ lab m y := FTree.lab_nonneg (fun p hp => (h.vals p hp).1) y

theorem lab_sums {m : List (Int × ℝ)} (h : Signs m) : vsum m = lab m 1 + lab m (-1) ∧ ssum m = lab m 1 - lab m (-1) := by
  induction m with
  | nil => simp [vsum_nil, ssum_nil, lab_nil]
  | cons p m ih =>
    obtain ⟨i1, i2⟩ := ih fun q hq => h q (List.mem_cons_of_mem _ hq)
    rw [vsum_cons, ssum_cons, lab_cons, lab_cons, i1, i2]
    rcases h p (by simp) with e | e <;> rw [e] <;> norm_num <;> constructor <;> ring

theorem GM.lab_le {m : List (Int × ℝ)} (h : GM m) {p : Int × ℝ} (hp : p ∈ m) : p.2 = lab m p.1 := by
  induction m with
  | nil => simp at hp
  | cons q m ih =>
    rw [lab_cons]
    rcases List.mem_cons.mp hp with rfl | hp
    · rw [if_pos rfl, h.head, add_zero]
    · rw [if_neg, zero_add]
      · exact ih h.tail hp
      · intro e
        have := (List.nodup_cons.mp h.keys).1
        rw [e] at this
        exact this (List.mem_map.mpr ⟨p, hp, rfl⟩)

theorem get?_lab {m : List (Int × ℝ)} (h : GM m) {y : Int} {v : F64} (hv : HMap.get? (toM m) y = some v) : v = fin (lab m y) ∧ F64.Rep (lab m y) := by
  induction m with
  | nil => cases hv
  | cons p m ih =>
    rw [show HMap.get? (toM (p :: m)) y = if p.1 = y then some (fin p.2) else HMap.get? (toM m) y from rfl] at hv
    rw [lab_cons]
    by_cases hy : p.1 = y
    · rw [if_pos hy] at hv ⊢
      subst hy
      rw [h.head, add_zero]
      exact ⟨(Option.some.inj hv).symm, (h.vals p (by simp)).2⟩
    · rw [if_neg hy] at hv ⊢
      rw [zero_add]
      exact ih h.tail hv

/-- Overwriting an entry. -/
theorem insert_lab {y : Int} {x : ℝ} (hx : 0 ≤ x) (hr : F64.Rep x) : ∀ {m : List (Int × ℝ)}, GM m → y = 1 ∨ y = -1 →
    ∃ m', HMap.insert (toM m) y (fin x) = toM m' ∧ GM m' ∧ (∀ z, lab m' z = if z = y then x else lab m z) ∧ ∀ z, z ∈ m'.map Prod.fst → z = y ∨ z ∈ m.map Prod.fst := by
  intro m
  induction m with
  | nil =>
    intro _ hy
    refine ⟨[(y, x)], rfl, ⟨by simp [hx, hr], ?_, by simp⟩, fun z => ?_, by simp⟩
    · intro p hp; rw [List.mem_singleton] at hp; subst hp; exact hy
    · rw [lab_cons, lab_nil, add_zero]
      by_cases h : z = y
      · rw [if_pos h, if_pos h.symm]
      · rw [if_neg h, if_neg (Ne.symm h)]
  | cons p m ih =>
    intro h hy
    rw [show HMap.insert (toM (p :: m)) y (fin x) = if p.1 = y then (y, fin x) :: toM m else (p.1, fin p.2) :: HMap.insert (toM m) y (fin x) from rfl]
    by_cases hp : p.1 = y
    · rw [if_pos hp]
      subst hp
      refine ⟨(p.1, x) :: m, rfl, ⟨?_, ?_, h.keys⟩, fun z => ?_, fun z hz => ?_⟩
      · intro q hq
        rcases List.mem_cons.mp hq with rfl | hq
        · exact ⟨hx, hr⟩
        · exact h.tail.vals q hq
      · intro q hq
        rcases List.mem_cons.mp hq with rfl | hq
        · exact hy
        · exact h.tail.signs q hq
      · rw [lab_cons, lab_cons]
        by_cases hz : z = p.1
        · rw [if_pos hz, if_pos hz.symm, hz, h.head, add_zero]
        · rw [if_neg hz, if_neg (Ne.symm hz), if_neg (Ne.symm hz)]
      · exact Or.inr hz
    · rw [if_neg hp]
      obtain ⟨m', e1, e2, e3, e4⟩ := ih h.tail hy
      refine ⟨p :: m', by rw [e1]; rfl, ⟨?_, ?_, ?_⟩, fun z => ?_, fun z hz => ?_⟩
      · intro q hq
        rcases List.mem_cons.mp hq with rfl | hq
        · exact h.vals q (by simp)
        · exact e2.vals q hq
      · intro q hq
        rcases List.mem_cons.mp hq with rfl | hq
        · exact h.signs q (by simp)
        · exact e2.signs q hq
      · rw [List.map_cons, List.nodup_cons]
        refine ⟨fun hm => ?_, e2.keys⟩
        rcases e4 _ hm with h1 | h1
        · exact hp h1
        · exact (List.nodup_cons.mp h.keys).1 h1
      · rw [lab_cons, lab_cons, e3]
        by_cases hz : z = y
        · rw [if_pos hz, if_pos hz, if_neg (by rw [hz]; exact hp), zero_add]
        · rw [if_neg hz, if_neg hz]
      · rcases List.mem_cons.mp hz with h1 | h1
        · exact Or.inr (by rw [h1]; simp)
        · rcases e4 z h1 with h2 | h2
          · exact Or.inl h2
          · exact Or.inr (List.mem_cons_of_mem _ h2)

/-- Removing an entry. -/
theorem remove_lab (y : Int) {m : List (Int × ℝ)} (h : GM m) :
    ∃ m', HMap.remove (toM m) y = toM m' ∧ GM m' ∧ ∀ z, lab m' z = if z = y then 0 else lab m z := by
  refine ⟨m.filter fun p => decide (p.1 ≠ y), ?_, ⟨fun p hp => h.vals p (List.mem_filter.mp hp).1, fun p hp => h.signs p (List.mem_filter.mp hp).1, ?_⟩, fun z => ?_⟩
  · unfold HMap.remove toM
    rw [List.filter_map]
    rfl
  · exact h.keys.sublist (List.Sublist.map _ List.filter_sublist)
  · clear h
    induction m with
    | nil => simp [lab_nil]
    | cons p m ih =>
      by_cases hp : p.1 = y
      · rw [List.filter_cons_of_neg (by simp [hp]), ih, lab_cons]
        by_cases hz : z = y
        · rw [if_pos hz, if_pos hz]
        · rw [if_neg hz, if_neg hz, if_neg (by rw [hp]; exact Ne.symm hz), zero_add]
      · rw [List.filter_cons_of_pos (by simp [hp]), lab_cons, lab_cons, ih]
        by_cases hz : z = y
        · rw [if_pos hz, if_pos hz, if_neg (by rw [hz]; exact hp), zero_add]
        · rw [if_neg hz, if_neg hz]

/-- Adding to an entry. -/
theorem addTo_lab {y : Int} {v : ℝ} (hv : 0 ≤ v) : ∀ {m : List (Int × ℝ)}, GM m → y = 1 ∨ y = -1 → lab m y + v ≤ 100 →
    ∃ m', addTo (toM m) y (fin v) = toM m' ∧ GM m' ∧ (∀ z, lab m' z = if z = y then F64.round (lab m y + v) else lab m z) ∧
      ∀ z, z ∈ m'.map Prod.fst → z = y ∨ z ∈ m.map Prod.fst := by
  intro m
  induction m with
  | nil =>
    intro _ hy hb
    rw [lab_nil, zero_add] at hb
    refine ⟨[(y, F64.round v)], ?_, ⟨?_, ?_, by simp⟩, fun z => ?_, by simp⟩
    · show [(y, F64.add (fin 0) (fin v))] = _
      rw [F64.add, zero_add, (rnd_approx (by rw [abs_of_nonneg hv]; exact hb)).1]
      rfl
    · intro p hp; rw [List.mem_singleton] at hp; subst hp; exact ⟨round_nonneg hv, rep_round _⟩
    · intro p hp; rw [List.mem_singleton] at hp; subst hp; exact hy
    · rw [lab_cons, lab_nil, lab_nil, add_zero, zero_add]
      by_cases h : z = y
      · rw [if_pos h, if_pos h.symm]
      · rw [if_neg h, if_neg (Ne.symm h)]
  | cons p m ih =>
    intro h hy hb
    have e : addTo (toM (p :: m)) y (fin v) =
        if p.1 = y then (p.1, F64.add (fin p.2) (fin v)) :: toM m else (p.1, fin p.2) :: addTo (toM m) y (fin v) := rfl
    rw [e]
    rw [lab_cons] at hb
    have hp0 := (h.vals p (by simp)).1
    by_cases hp : p.1 = y
    · rw [if_pos hp] at hb ⊢
      subst hp
      rw [h.head, add_zero] at hb
      refine ⟨(p.1, F64.round (p.2 + v)) :: m, ?_, ⟨?_, ?_, h.keys⟩, fun z => ?_, fun z hz => Or.inr hz⟩
      · rw [F64.add, (rnd_approx (by rw [abs_of_nonneg (by linarith)]; exact hb)).1]; rfl
      · intro q hq
        rcases List.mem_cons.mp hq with rfl | hq
        · exact ⟨round_nonneg (by linarith), rep_round _⟩
        · exact h.tail.vals q hq
      · intro q hq
        rcases List.mem_cons.mp hq with rfl | hq
        · exact hy
        · exact h.tail.signs q hq
      · rw [lab_cons, lab_cons, lab_cons, if_pos rfl, h.head, add_zero]
        by_cases hz : z = p.1
        · rw [if_pos hz, if_pos hz.symm, hz, h.head, add_zero]
        · rw [if_neg hz, if_neg (Ne.symm hz), if_neg (Ne.symm hz)]
    · rw [if_neg hp] at hb ⊢
      rw [zero_add] at hb
      obtain ⟨m', e1, e2, e3, e4⟩ := ih h.tail hy hb
      refine ⟨p :: m', by rw [e1]; rfl, ⟨?_, ?_, ?_⟩, fun z => ?_, fun z hz => ?_⟩
      · intro q hq
        rcases List.mem_cons.mp hq with rfl | hq
        · exact h.vals q (by simp)
        · exact e2.vals q hq
      · intro q hq
        rcases List.mem_cons.mp hq with rfl | hq
        · exact h.signs q (by simp)
        · exact e2.signs q hq
      · rw [List.map_cons, List.nodup_cons]
        refine ⟨fun hm => ?_, e2.keys⟩
        rcases e4 _ hm with h1 | h1
        · exact hp h1
        · exact (List.nodup_cons.mp h.keys).1 h1
      · rw [lab_cons, lab_cons, lab_cons, e3, if_neg hp, zero_add]
        by_cases hz : z = y
        · rw [if_pos hz, if_pos hz, if_neg (by rw [hz]; exact hp), zero_add]
        · rw [if_neg hz, if_neg hz]
      · rcases List.mem_cons.mp hz with h1 | h1
        · exact Or.inr (by rw [h1]; simp)
        · rcases e4 z h1 with h2 | h2
          · exact Or.inl h2
          · exact Or.inr (List.mem_cons_of_mem _ h2)

/-! ## Moving a bin -/

open Classical in
theorem moveGini_cons (y : Int) (w : F64) (l : LabelMap F64) (st : Scan) : moveGini ((y, w) :: l) st =
    match HMap.get? st.right y with
    | none => none
    | some v => moveGini l { st with
        left := addTo st.left y w
        leftSum := F64.add st.leftSum w
        right := if F64.Le (F64.sub v w) (fin 0) then HMap.remove (HMap.insert st.right y (F64.sub v w)) y else HMap.insert st.right y (F64.sub v w) } := rfl

open Classical in
theorem moveGini_near : ∀ (l lm rm : List (Int × ℝ)) (st st' : Scan) (ls : ℝ), GM l → GM lm → GM rm → st.left = toM lm → st.right = toM rm → st.leftSum = fin ls →
    (∀ p ∈ l, p.2 ≤ 3 ∧ lab lm p.1 ≤ 10 ∧ lab rm p.1 ≤ 10) → |ls| + 4 * l.length ≤ 90 → moveGini (toM l) st = some st' →
    ∃ lm' rm' ls', st' = { st with left := toM lm', leftSum := fin ls', right := toM rm' } ∧ GM lm' ∧ GM rm' ∧
      (∀ y, |lab lm' y - (lab lm y + lab l y)| ≤ 1 / 10 ^ 13) ∧ (∀ y, |lab rm' y - max 0 (lab rm y - lab l y)| ≤ 1 / 10 ^ 13) ∧
      |ls' - (ls + vsum l)| ≤ l.length * (1 / 10 ^ 13) ∧ ∀ y, y ∉ l.map Prod.fst → lab lm' y = lab lm y ∧ lab rm' y = lab rm y := by
  intro l
  induction l with
  | nil =>
    intro lm rm st st' ls _ hlm hrm h1 h2 h3 _ _ h
    cases h
    refine ⟨lm, rm, ls, by rw [← h1, ← h2, ← h3], hlm, hrm, fun y => ?_, fun y => ?_, ?_, ?_⟩
    · rw [lab_nil]; norm_num
    · rw [lab_nil, sub_zero, max_eq_right (hrm.lab_nonneg y)]; norm_num
    · rw [vsum_nil]; norm_num
    · exact fun y _ => ⟨rfl, rfl⟩
  | cons p l ih =>
    intro lm rm st st' ls hl hlm hrm h1 h2 h3 hb hls h
    obtain ⟨y, v⟩ := p
    have hv0 : 0 ≤ v := (hl.vals (y, v) (by simp)).1
    obtain ⟨b1, b2, b3⟩ := hb (y, v) (by simp)
    simp only at b1 b2 b3
    have hy : y = 1 ∨ y = -1 := hl.signs (y, v) (by simp)
    have hl0 := hlm.lab_nonneg y
    have hr0 := hrm.lab_nonneg y
    rw [show toM ((y, v) :: l) = (y, fin v) :: toM l from rfl, moveGini_cons, h1, h2, h3] at h
    cases hg : HMap.get? (toM rm) y with
    | none => rw [hg] at h; cases h
    | some r =>
      rw [hg] at h
      obtain ⟨rfl, -⟩ := get?_lab hrm hg
      simp only at h
      obtain ⟨lm1, a1, a2, a3, -⟩ := addTo_lab hv0 hlm hy (by linarith)
      obtain ⟨s1, s2⟩ := rnd_approx (z := lab rm y + -v) (by rw [abs_le]; constructor <;> linarith)
      have s2' := abs_le.mp s2
      have hsub : F64.sub (fin (lab rm y)) (fin v) = fin (F64.round (lab rm y + -v)) := by rw [F64.sub, F64.neg, F64.add, s1]
      rw [hsub] at h
      push_cast [List.length_cons] at hls
      have hlen0 : (0 : ℝ) ≤ l.length := Nat.cast_nonneg _
      obtain ⟨t1, t2⟩ := rnd_approx (z := ls + v) (by
        refine (abs_add_le _ _).trans ?_
        rw [abs_of_nonneg hv0]; linarith)
      have t2' := abs_le.mp t2
      -- the right map
      have hright : ∃ rm1, (if F64.Le (fin (F64.round (lab rm y + -v))) (fin 0) then HMap.remove (HMap.insert (toM rm) y (fin (F64.round (lab rm y + -v)))) y
          else HMap.insert (toM rm) y (fin (F64.round (lab rm y + -v)))) = toM rm1 ∧ GM rm1 ∧ (∀ z, z ≠ y → lab rm1 z = lab rm z) ∧ |lab rm1 y - max 0 (lab rm y - v)| ≤ 1 / 10 ^ 13 := by
        by_cases hle : F64.round (lab rm y + -v) ≤ 0
        · rw [if_pos (show F64.Le (fin (F64.round (lab rm y + -v))) (fin 0) from hle)]
          have hrem : HMap.remove (HMap.insert (toM rm) y (fin (F64.round (lab rm y + -v)))) y = HMap.remove (toM rm) y := by
            unfold HMap.remove
            generalize fin (F64.round (lab rm y + -v)) = x
            clear hg hsub h h2
            induction rm with
            | nil => simp [HMap.insert, toM]
            | cons q rm _ =>
              have key : ∀ k : LabelMap F64, (HMap.insert k y x).filter (fun p => decide (p.1 ≠ y)) = k.filter (fun p => decide (p.1 ≠ y)) := by
                intro k
                induction k with
                | nil => simp [HMap.insert]
                | cons q k ihk =>
                  obtain ⟨a, b⟩ := q
                  unfold HMap.insert
                  by_cases ha : a = y
                  · rw [if_pos ha, List.filter_cons_of_neg (by simp), List.filter_cons_of_neg (by simp [ha])]
                  · rw [if_neg ha, List.filter_cons_of_pos (by simp [ha]), List.filter_cons_of_pos (by simp [ha]), ihk]
              exact key _
          obtain ⟨rm1, c1, c2, c3⟩ := remove_lab y hrm
          refine ⟨rm1, by rw [hrem, c1], c2, fun z hz => by rw [c3, if_neg hz], ?_⟩
          rw [c3, if_pos rfl, zero_sub, abs_neg, abs_of_nonneg (le_max_left _ _)]
          refine max_le (by norm_num) ?_
          linarith [s2'.1]
        · rw [if_neg (show ¬ F64.Le (fin (F64.round (lab rm y + -v))) (fin 0) from hle)]
          obtain ⟨rm1, c1, c2, c3, -⟩ := insert_lab (le_of_lt (not_le.mp hle)) (rep_round _) hrm hy
          refine ⟨rm1, c1, c2, fun z hz => by rw [c3, if_neg hz], ?_⟩
          rw [c3, if_pos rfl]
          have h5 := not_le.mp hle
          have : F64.round (lab rm y + -v) = max 0 (F64.round (lab rm y + -v)) := (max_eq_right h5.le).symm
          rw [this, max_comm 0, max_comm 0]
          refine le_trans (abs_max_sub_max_le_abs _ _ _) ?_
          rw [show lab rm y - v = lab rm y + -v by ring]
          exact s2
      obtain ⟨rm1, c1, c2, c3, c4⟩ := hright
      have hne : ∀ q ∈ l, q.1 ≠ y := by
        intro q hq e
        exact (List.nodup_cons.mp hl.keys).1 (List.mem_map.mpr ⟨q, hq, e⟩)
      rw [a1, c1, F64.add, t1] at h
      obtain ⟨lm', rm', ls', d1, d2, d3, d4, d5, d6, d7⟩ := ih lm1 rm1 _ st' (F64.round (ls + v)) hl.tail a2 c2 rfl rfl rfl (fun q hq => by
        obtain ⟨g1, g2, g3⟩ := hb q (List.mem_cons_of_mem _ hq)
        rw [a3, if_neg (hne q hq), c3 _ (hne q hq)]
        exact ⟨g1, g2, g3⟩) (by
        have := abs_add_le (F64.round (ls + v) - (ls + v)) (ls + v)
        rw [sub_add_cancel] at this
        have h6 := abs_add_le ls v
        rw [abs_of_nonneg hv0] at h6
        norm_num at t2 ⊢
        linarith) h
      have hhead : lab l y = 0 := hl.head
      have hnot : y ∉ l.map Prod.fst := (List.nodup_cons.mp hl.keys).1
      obtain ⟨f1, f2⟩ := d7 y hnot
      refine ⟨lm', rm', ls', d1, d2, d3, fun z => ?_, fun z => ?_, ?_, fun z hz => ?_⟩
      · rw [lab_cons]
        by_cases hz : z = y
        · subst hz
          simp only [if_true]
          rw [hhead, add_zero, f1, a3, if_pos rfl]
          exact (rnd_approx (by rw [abs_of_nonneg (by linarith)]; linarith)).2
        · have := d4 z
          rw [a3, if_neg hz] at this
          simp only
          rw [if_neg (Ne.symm hz), zero_add]
          exact this
      · rw [lab_cons]
        by_cases hz : z = y
        · subst hz
          simp only [if_true]
          rw [hhead, add_zero, f2]
          exact c4
        · have := d5 z
          rw [c3 z hz] at this
          simp only
          rw [if_neg (Ne.symm hz), zero_add]
          exact this
      · push_cast [List.length_cons]
        rw [vsum_cons]
        simp only
        have := abs_le.mp d6
        rw [abs_le]
        constructor <;> linarith [this.1, this.2, t2'.1, t2'.2]
      · simp only [List.map_cons, List.mem_cons, not_or] at hz
        obtain ⟨g1, g2⟩ := d7 z hz.2
        rw [g1, g2, a3, if_neg hz.1, c3 z hz.1]
        exact ⟨rfl, rfl⟩

open Classical in
/-- Moving a bin does not panic as long as something is left of each of its labels. -/
theorem moveGini_alive : ∀ (l : LabelMap F64) (st : Scan), (l.map Prod.fst).Nodup → (∀ p ∈ l, ∃ v, HMap.get? st.right p.1 = some v) → ∃ st', moveGini l st = some st' := by
  intro l
  induction l with
  | nil => intro st _ _; exact ⟨st, rfl⟩
  | cons p l ih =>
    intro st hk h
    obtain ⟨y, x⟩ := p
    obtain ⟨v, hv⟩ := h (y, x) (by simp)
    rw [moveGini_cons, hv]
    obtain ⟨hk1, hk2⟩ := List.nodup_cons.mp hk
    refine ih _ hk2 fun q hq => ?_
    obtain ⟨u', hu'⟩ := h q (List.mem_cons_of_mem _ hq)
    have hne : q.1 ≠ y := fun e => hk1 (List.mem_map.mpr ⟨q, hq, e⟩)
    refine ⟨u', ?_⟩
    simp only
    split
    · rw [HMap.get?_remove, if_neg hne.symm, HMap.get?_insert, if_neg hne.symm]; exact hu'
    · rw [HMap.get?_insert, if_neg hne.symm]; exact hu'

theorem get?_of_lab {m : List (Int × ℝ)} {y : Int} (h : lab m y ≠ 0) : ∃ v, HMap.get? (toM m) y = some v := by
  induction m with
  | nil => exact absurd (lab_nil y) h
  | cons p m ih =>
    rw [show HMap.get? (toM (p :: m)) y = if p.1 = y then some (fin p.2) else HMap.get? (toM m) y from rfl]
    by_cases hp : p.1 = y
    · exact ⟨_, if_pos hp⟩
    · rw [if_neg hp]
      refine ih ?_
      rwa [lab_cons, if_neg hp, zero_add] at h

/-! ## The impurity -/

/-- Weight times Gini impurity, for weight `V` and signed weight `S`. -/
noncomputable def gw (V S : ℝ) : ℝ := (V - S ^ 2 / V) / 2

theorem gw_lip {V S V' S' : ℝ} (hS : |S| ≤ V) (hS' : |S'| ≤ V') : |gw V S - gw V' S'| ≤ |V - V'| + |S - S'| := by
  have key : ∀ V S V' S' : ℝ, |S| ≤ V → |S'| ≤ V' → V' ≤ V → |S ^ 2 / V - S' ^ 2 / V'| ≤ |V - V'| + 2 * |S - S'| := by
    intro V S V' S' hS hS' hV
    have hV0 : 0 ≤ V := (abs_nonneg _).trans hS
    have hV'0 : 0 ≤ V' := (abs_nonneg _).trans hS'
    rcases hV0.eq_or_lt with h | h
    · subst h
      have e : V' = 0 := le_antisymm hV hV'0
      subst e
      simp
    · have h1 : S ^ 2 / V - S' ^ 2 / V' = (S - S') * ((S + S') / V) + S' ^ 2 / V * ((V' - V) / V') := by
        rcases hV'0.eq_or_lt with h' | h'
        · subst h'
          have : S' = 0 := abs_nonpos_iff.mp hS'
          subst this
          field_simp; ring
        · field_simp; ring
      rw [h1]
      refine (abs_add_le _ _).trans ?_
      rw [abs_mul, abs_mul, abs_div, abs_of_pos h, add_comm]
      have h2 : |S + S'| / V ≤ 2 := by
        rw [div_le_iff₀ h]
        have := abs_add_le S S'
        linarith
      have h3 : |S' ^ 2 / V| * |(V' - V) / V'| ≤ |V - V'| := by
        rcases hV'0.eq_or_lt with h' | h'
        · subst h'; simp
        · rw [abs_div, abs_div, abs_of_pos h, abs_of_pos h', abs_sub_comm V' V, abs_pow]
          have h5 : |S'| ^ 2 ≤ V * V' := by
            have := mul_le_mul hS' hS' (abs_nonneg _) hV'0
            nlinarith
          rw [div_mul_div_comm, div_le_iff₀ (by positivity)]
          calc |S'| ^ 2 * |V - V'| ≤ V * V' * |V - V'| := by gcongr
            _ = _ := by ring
      have h4 : |S - S'| * (|S + S'| / V) ≤ |S - S'| * 2 := by gcongr
      linarith
  have h := show |S ^ 2 / V - S' ^ 2 / V'| ≤ |V - V'| + 2 * |S - S'| by
    rcases le_total V' V with h | h
    · exact key V S V' S' hS hS' h
    · have := key V' S' V S hS' hS h
      rwa [abs_sub_comm, abs_sub_comm V' V, abs_sub_comm S' S] at this
  unfold gw
  rw [show (V - S ^ 2 / V) / 2 - (V' - S' ^ 2 / V') / 2 = ((V - V') + -(S ^ 2 / V - S' ^ 2 / V')) / 2 by ring, abs_div, abs_of_pos (by norm_num : (0 : ℝ) < 2)]
  have := abs_add_le (V - V') (-(S ^ 2 / V - S' ^ 2 / V'))
  rw [abs_neg] at this
  linarith

theorem GM.few {m : List (Int × ℝ)} (h : GM m) : m.length ≤ 2 := signs_few h.signs h.keys

theorem GM.squares {m : List (Int × ℝ)} (h : GM m) : (m.map fun p => p.2 ^ 2).sum = (vsum m ^ 2 + ssum m ^ 2) / 2 := by
  have hf := h.few
  match m, hf, h with
  | [], _, _ => simp [vsum_nil, ssum_nil]
  | [p], _, h =>
    have : (p.1 : ℝ) ^ 2 = 1 := by rw [← sq_abs, sign_abs (h.signs p (by simp)), one_pow]
    simp only [List.map_cons, List.map_nil, List.sum_cons, List.sum_nil, vsum_cons, vsum_nil, ssum_cons, ssum_nil, add_zero, mul_pow, this]
    ring
  | [p, q], _, h =>
    have hne : p.1 ≠ q.1 := by
      have := (List.nodup_cons.mp h.keys).1
      simpa using this
    have hs1 := h.signs p (by simp)
    have hs2 := h.signs q (by simp)
    simp only [List.map_cons, List.map_nil, List.sum_cons, List.sum_nil, vsum_cons, vsum_nil, ssum_cons, ssum_nil, add_zero]
    rcases hs1 with e1 | e1 <;> rcases hs2 with e2 | e2 <;> rw [e1, e2]
    · exact absurd (e1.trans e2.symm) hne
    · push_cast; ring
    · push_cast; ring
    · exact absurd (e1.trans e2.symm) hne

theorem GM.abs_ssum {m : List (Int × ℝ)} (h : GM m) : |ssum m| ≤ vsum m := by
  obtain ⟨h1, h2⟩ := lab_sums h.signs
  rw [h1, h2, abs_le]
  constructor <;> linarith [h.lab_nonneg 1, h.lab_nonneg (-1)]

open Classical in
/-- The impurity that is computed. -/
theorem gini_near {m : List (Int × ℝ)} (h : GM m) (hv : vsum m ≤ 4) {r : F64} (hr : Gini (toM m) r) :
    ∃ ρ, r = fin ρ ∧ 0 ≤ ρ ∧ ρ ≤ 1 ∧ |vsum m * ρ - gw (vsum m) (ssum m)| ≤ 4 / 10 ^ 8 := by
  have hfew := h.few
  have hV0 : 0 ≤ vsum m := (abs_nonneg _).trans h.abs_ssum
  obtain ⟨total, ⟨k, hk, rfl⟩, hr⟩ := hr
  obtain ⟨m1, hm1, rfl⟩ := perm_toM hk
  rw [toM_snd] at hr
  have hg1 := h.perm hm1
  have hl1 := hg1.few
  obtain ⟨t, t1, -, t3⟩ := foldl_near0 (m1.map Prod.snd)
    (by simp only [List.mem_map]; rintro _ ⟨p, hm, rfl⟩; exact hg1.vals p hm)
    (by have := vsum_perm hm1; unfold vsum at *; norm_num; linarith) (by rw [List.length_map]; omega)
  rw [t1] at hr
  have hvs : (m1.map Prod.snd).sum = vsum m := vsum_perm hm1
  rw [hvs, List.length_map] at t3
  have tb := t3.bound (by omega) hV0
  have tn := t3.nonneg hV0
  by_cases hc : F64.Le (fin t) (fin 0) ∨ (toM m).isEmpty = true
  · rw [if_pos hc] at hr
    have hz : vsum m = 0 := by
      rcases hc with hc | hc
      · have h1 : t ≤ 0 := hc
        by_contra hne
        have := t3.pos (lt_of_le_of_ne hV0 (Ne.symm hne))
        linarith
      · rw [toM_isEmpty, List.isEmpty_iff] at hc
        rw [hc]; rfl
    refine ⟨0, hr, le_rfl, zero_le_one, ?_⟩
    rw [hz]
    unfold gw
    norm_num
  · rw [if_neg hc] at hr
    have ht : 0 < t := lt_of_not_ge fun h => hc (Or.inl h)
    have hV : 0 < vsum m := by
      by_contra hne
      have : vsum m = 0 := le_antisymm (not_lt.mp hne) hV0
      rw [this] at tb
      linarith [tb.2]
    obtain ⟨l, correct, hl, hsum, rfl⟩ := hr
    obtain ⟨m2, hm2, rfl⟩ := perm_toM hl
    have hg2 := h.perm hm2
    have hl2 := hg2.few
    set V := vsum m with hVd
    set S := ssum m with hSd
    have htV : V / t ≤ 1 + 2 / 10 ^ 9 := by rw [div_le_iff₀ ht]; linarith [tb.1]
    have htV' : 1 - 2 / 10 ^ 9 ≤ V / t := by rw [le_div_iff₀ ht]; linarith [tb.2]
    have hq : ∀ p ∈ m2, 0 ≤ p.2 / t ∧ p.2 / t ≤ 1 + 2 / 10 ^ 9 := by
      intro p hp
      have h1 := (hg2.vals p hp).1
      refine ⟨div_nonneg h1 ht.le, le_trans ?_ htV⟩
      gcongr
      rw [hVd, ← vsum_perm hm2]
      have hnn : ∀ x ∈ m2.map Prod.snd, 0 ≤ x := by
        simp only [List.mem_map]; rintro _ ⟨q, hq, rfl⟩; exact (hg2.vals q hq).1
      exact List.single_le_sum hnn _ (List.mem_map.mpr ⟨p, hp, rfl⟩)
    -- the squares
    have hsq : ∀ p ∈ m2, F64.sq (F64.div (fin p.2) (fin t)) = fin (F64.round (F64.round (p.2 / t) * F64.round (p.2 / t))) ∧
        |F64.round (F64.round (p.2 / t) * F64.round (p.2 / t)) - (p.2 / t) ^ 2| ≤ 1 / 10 ^ 12 := by
      intro p hp
      obtain ⟨q0, q1⟩ := hq p hp
      obtain ⟨r1, r2⟩ := rnd_approx (z := p.2 / t) (by rw [abs_of_nonneg q0]; linarith)
      have r2' := abs_le.mp r2
      have r0 : 0 ≤ F64.round (p.2 / t) := round_nonneg q0
      have hx2 : F64.round (p.2 / t) ≤ 2 := by norm_num at r2' q1 ⊢; linarith [r2'.2]
      obtain ⟨r3, r4⟩ := rnd_approx (z := F64.round (p.2 / t) * F64.round (p.2 / t)) (by rw [abs_of_nonneg (mul_nonneg r0 r0)]; nlinarith)
      refine ⟨?_, ?_⟩
      · unfold F64.sq
        rw [F64.div, if_neg ht.ne', r1, F64.mul, r3]
      · have h5 : |F64.round (p.2 / t) * F64.round (p.2 / t) - (p.2 / t) ^ 2| ≤ 4 / 10 ^ 13 := by
          rw [show F64.round (p.2 / t) * F64.round (p.2 / t) - (p.2 / t) ^ 2 = (F64.round (p.2 / t) - p.2 / t) * (F64.round (p.2 / t) + p.2 / t) by ring, abs_mul,
            abs_of_nonneg (show 0 ≤ F64.round (p.2 / t) + p.2 / t by linarith)]
          calc |F64.round (p.2 / t) - p.2 / t| * (F64.round (p.2 / t) + p.2 / t) ≤ 1 / 10 ^ 13 * 4 := by
                gcongr
                norm_num at q1 ⊢
                linarith
            _ = _ := by ring
        have a := abs_le.mp r4
        have b := abs_le.mp h5
        rw [abs_le]
        norm_num at a b ⊢
        constructor <;> linarith [a.1, a.2, b.1, b.2]
    have hitems : ((toM m2).map fun p => F64.sq (F64.div p.2 (fin t))) = (m2.map fun p => F64.round (F64.round (p.2 / t) * F64.round (p.2 / t))).map fin := by
      unfold toM
      rw [List.map_map, List.map_map]
      exact List.map_congr_left fun p hp => (hsq p hp).1
    rw [hitems] at hsum
    have hgen : ∀ l : List (Int × ℝ), (∀ p ∈ l, |F64.round (F64.round (p.2 / t) * F64.round (p.2 / t)) - (p.2 / t) ^ 2| ≤ 1 / 10 ^ 12) →
        |(l.map fun p => F64.round (F64.round (p.2 / t) * F64.round (p.2 / t))).sum - (l.map fun p => p.2 ^ 2).sum / t ^ 2| ≤ (l.length : ℝ) * (1 / 10 ^ 12) := by
      intro l
      induction l with
      | nil => intro _; simp
      | cons p l ih =>
        intro hh
        have i1 := ih fun q hq => hh q (List.mem_cons_of_mem _ hq)
        have i2 := hh p (by simp)
        simp only [List.map_cons, List.sum_cons, List.length_cons]
        push_cast
        rw [show ∀ a b c d : ℝ, a + b - (c + d) / t ^ 2 = (a - c / t ^ 2) + (b - d / t ^ 2) from fun a b c d => by ring]
        rw [div_pow] at i2
        refine (abs_add_le _ _).trans ?_
        linarith
    have hs1 := hgen m2 fun p hp => (hsq p hp).2
    have hsqs : (m2.map fun p => p.2 ^ 2).sum = (V ^ 2 + S ^ 2) / 2 := by rw [hg2.squares, vsum_perm hm2, ssum_perm hm2]
    rw [hsqs] at hs1
    have hlen2 : (m2.length : ℝ) ≤ 2 := by exact_mod_cast hl2
    have hs2 := abs_le.mp (hs1.trans (show (m2.length : ℝ) * (1 / 10 ^ 12) ≤ 2 * (1 / 10 ^ 12) by gcongr))
    -- compare with the true ratio
    have hSV : |S| ≤ V := h.abs_ssum
    have hS2 : S ^ 2 ≤ V ^ 2 := sq_le_sq' (by linarith [(abs_le.mp hSV).1]) (abs_le.mp hSV).2
    set c := (V ^ 2 + S ^ 2) / 2 / t ^ 2 with hcd
    set c0 := (1 + S ^ 2 / V ^ 2) / 2 with hc0
    have hSV2 : 0 ≤ S ^ 2 / V ^ 2 ∧ S ^ 2 / V ^ 2 ≤ 1 := ⟨by positivity, by rw [div_le_one (by positivity)]; exact hS2⟩
    have hcc : c = (V / t) ^ 2 * c0 := by rw [hcd, hc0]; field_simp
    have hratio : |(V / t) ^ 2 - 1| ≤ 5 / 10 ^ 9 := by
      rw [abs_le]
      constructor <;> nlinarith
    have hc1 : |c - c0| ≤ 5 / 10 ^ 9 := by
      rw [hcc, show (V / t) ^ 2 * c0 - c0 = ((V / t) ^ 2 - 1) * c0 by ring, abs_mul, abs_of_nonneg (show 0 ≤ c0 by rw [hc0]; linarith [hSV2.1])]
      calc |(V / t) ^ 2 - 1| * c0 ≤ 5 / 10 ^ 9 * 1 := by gcongr; rw [hc0]; linarith [hSV2.2]
        _ = _ := by ring
    have hc1' := abs_le.mp hc1
    set Q2 := (m2.map fun p => F64.round (F64.round (p.2 / t) * F64.round (p.2 / t))).sum with hQ
    have hQ0 : 0 ≤ Q2 := List.sum_nonneg (by
      simp only [List.mem_map]; rintro _ ⟨p, -, rfl⟩
      exact round_nonneg (mul_self_nonneg _))
    have hc01 : c0 ≤ 1 := by rw [hc0]; linarith [hSV2.2]
    have hQ2 : Q2 ≤ 2 := by norm_num at hs2 hc1' ⊢; linarith [hs2.2, hc1'.2]
    obtain ⟨tt, htt, rfl⟩ := hsum
    obtain ⟨C, e1, e2, e3⟩ := split_near tt _ htt (by
      simp only [List.mem_map]; rintro _ ⟨p, -, rfl⟩
      exact ⟨round_nonneg (mul_self_nonneg _), rep_round _⟩) (by rw [← hQ]; norm_num; linarith) (by rw [List.length_map]; omega)
    rw [← hQ] at e3
    have eb := e3.bound (by rw [List.length_map]; omega) hQ0
    have hC0 := e3.nonneg hQ0
    rw [e1, F64.sub, F64.neg, F64.add]
    have hC2 : C ≤ 3 := by norm_num at eb ⊢; linarith [eb.2]
    obtain ⟨g1, g2⟩ := rnd_approx (z := 1 + -C) (by rw [abs_le]; constructor <;> linarith)
    rw [g1]
    refine ⟨max (F64.round (1 + -C)) 0, rfl, le_max_right _ _, max_le ((le_abs_self _).trans (round_le_one (abs_le.mpr ⟨by linarith, by linarith⟩))) zero_le_one, ?_⟩
    have hm : |max (F64.round (1 + -C)) 0 - (1 - c0)| ≤ 1 / 10 ^ 8 := by
      have h0 : 1 - c0 = max (1 - c0) 0 := (max_eq_left (by linarith)).symm
      rw [h0]
      refine (abs_max_sub_max_le_abs _ _ _).trans ?_
      have g2' := abs_le.mp g2
      rw [abs_le]
      norm_num at g2' eb hs2 hc1' ⊢
      constructor <;> linarith [g2'.1, g2'.2, eb.1, eb.2, hs2.1, hs2.2, hc1'.1, hc1'.2]
    have hgw : gw V S = V * (1 - c0) := by
      unfold gw
      rw [hc0]
      field_simp
      ring
    rw [hgw, ← mul_sub, abs_mul, abs_of_pos hV]
    calc V * |max (F64.round (1 + -C)) 0 - (1 - c0)| ≤ 4 * (1 / 10 ^ 8) := by gcongr
      _ ≤ _ := by norm_num

end Miniboosts.FTree
