import Verif.Lemmas.FloatMeans
import Verif.Lemmas.FloatMono

/-! # The search for the split with the largest edge, in `f64` -/

namespace Miniboosts.FTree

open Miniboosts F64 Spec

/-! ## Packing, bin by bin -/

/-- The label and the weight of the rows in a bin. -/
noncomputable def binItems (s : Sample ℝ) (w : ℕ → ℝ) (f : Feature ℝ) (idx : List ℕ) (b : Bin ℝ) : List (Int × ℝ) :=
  (idx.filter fun i => b.contains (f.val i)).map fun i => (asI32 (s.target.getD i 0), w i)

theorem packLoop_bins {rb : List (Bin ℝ)} (ht : Tiles (-maxVal) rb maxVal) {s : Sample ℝ} (hs : SampleOk s) {f : Feature ℝ} (hf : f ∈ s.features)
    (hv : ∀ i < s.nSample, |f.val i| < maxVal) {dist : List F64} {w : ℕ → ℝ} :
    ∀ (idx : List ℕ), Node s dist w idx → ∀ packed : List (LabelMap F64), packed.length = rb.length →
      packLoop (rb.map toF) f s.target dist idx packed = some (List.zipWith (fun b m => collectWeights (toM (binItems s w f idx b)) m) rb packed) := by
  intro idx
  induction idx with
  | nil =>
    intro _ packed h
    unfold packLoop
    congr 1
    refine List.ext_getElem (by simp [h]) fun k h1 h2 => ?_
    simp [binItems, toM, collectWeights]
  | cons i idx ih =>
    intro hN packed h
    have hi := hN.row i (by simp)
    obtain ⟨hd, -, -⟩ := hN.weight i (by simp)
    have hx := abs_lt.mp (hv i hi)
    obtain ⟨pos, b, e1, e2, e3⟩ := position_ok ht hx.1.le hx.2
    have hpos : pos < packed.length := by rw [h]; exact (List.getElem?_eq_some_iff.mp e2).1
    have hget : packed[pos]? = some packed[pos] := List.getElem?_eq_getElem hpos
    unfold packLoop
    rw [Feature.index_val (hs.columns f hf) hi, hd, target_getD hs hi]
    simp only [position_eq ht, e1, hget]
    rw [ih hN.tail _ (by simpa using h)]
    congr 1
    refine List.ext_getElem (by simp) fun k h1 h2 => ?_
    simp only [List.length_zipWith, List.length_set] at h1
    have hk : k < rb.length := by omega
    simp only [List.getElem_zipWith]
    by_cases hkp : pos = k
    · subst hkp
      have hb : rb[pos] = b := by
        have := List.getElem?_eq_getElem hk
        rw [e2] at this
        exact (Option.some.inj this).symm
      rw [List.getElem_set_self, hb]
      unfold binItems
      rw [List.filter_cons, if_pos e3]
      rfl
    · rw [List.getElem_set_ne hkp]
      unfold binItems
      rw [List.filter_cons, if_neg]
      intro hc
      exact hkp (tiles_unique ht e2 (List.getElem?_eq_getElem hk) e3 hc)

/-! ## Rows below a threshold -/

/-- The weight of the labels of the rows below `t`. -/
noncomputable def below (s : Sample ℝ) (w : ℕ → ℝ) (f : Feature ℝ) (idx : List ℕ) (t : ℝ) : ℝ :=
  signedWeight s w (idx.filter fun i => decide (f.val i < t))

/-- The weight of the labels of the rows in a bin. -/
noncomputable def binSigned (s : Sample ℝ) (w : ℕ → ℝ) (f : Feature ℝ) (idx : List ℕ) (b : Bin ℝ) : ℝ :=
  signedWeight s w (idx.filter fun i => b.contains (f.val i))

/-- The weight of the rows in a bin. -/
noncomputable def binWeight (w : ℕ → ℝ) (f : Feature ℝ) (idx : List ℕ) (b : Bin ℝ) : ℝ := ((idx.filter fun i => b.contains (f.val i)).map w).sum

theorem below_congr {s : Sample ℝ} {w : ℕ → ℝ} {f : Feature ℝ} {idx : List ℕ} {t t' : ℝ} (h : ∀ i ∈ idx, f.val i < t ↔ f.val i < t') :
    below s w f idx t = below s w f idx t' := by
  unfold below
  congr 1
  exact List.filter_congr fun i hi => by simp only [h i hi]

theorem below_step {s : Sample ℝ} {w : ℕ → ℝ} {f : Feature ℝ} {idx : List ℕ} {b : Bin ℝ} (h : b.start ≤ b.stop) :
    below s w f idx b.stop = below s w f idx b.start + binSigned s w f idx b := by
  unfold below binSigned signedWeight
  induction idx with
  | nil => simp
  | cons i idx ih =>
    have hc : b.contains (f.val i) = true ↔ b.start ≤ f.val i ∧ f.val i < b.stop := contains_iff
    by_cases h1 : f.val i < b.start
    · have h2 : f.val i < b.stop := h1.trans_le h
      have h3 : b.contains (f.val i) = false := by
        rw [Bool.eq_false_iff]; intro hh; exact absurd (hc.mp hh).1 (not_le.mpr h1)
      simp only [List.filter_cons, h1, h2, h3, decide_true, if_true, Bool.false_eq_true, if_false, List.map_cons, List.sum_cons]
      rw [ih]; ring
    · by_cases h2 : f.val i < b.stop
      · have h3 : b.contains (f.val i) = true := hc.mpr ⟨not_lt.mp h1, h2⟩
        simp only [List.filter_cons, h1, h2, h3, decide_true, decide_false, if_true, Bool.false_eq_true, if_false, List.map_cons, List.sum_cons]
        rw [ih]; ring
      · have h3 : b.contains (f.val i) = false := by
          rw [Bool.eq_false_iff]; intro hh; exact h2 (hc.mp hh).2
        simp only [List.filter_cons, h1, h2, h3, decide_false, Bool.false_eq_true, if_false]
        exact ih

/-- The bins with rows, in order: there are no rows between them. -/
def Chained (f : Feature ℝ) (idx : List ℕ) : ℝ → List (Bin ℝ) → Prop
  | _, [] => True
  | a, d :: cs => a ≤ d.start ∧ d.start < d.stop ∧ (∀ i ∈ idx, ¬ (a ≤ f.val i ∧ f.val i < d.start)) ∧ Chained f idx d.stop cs

/-- The bins that contain rows. -/
noncomputable def usedBins (f : Feature ℝ) (idx : List ℕ) (rb : List (Bin ℝ)) : List (Bin ℝ) :=
  rb.filter fun b => !(idx.filter fun i => b.contains (f.val i)).isEmpty

theorem usedBins_cons {f : Feature ℝ} {idx : List ℕ} {b : Bin ℝ} {rb : List (Bin ℝ)} :
    ((∃ i ∈ idx, b.contains (f.val i) = true) ∧ usedBins f idx (b :: rb) = b :: usedBins f idx rb) ∨
      ((∀ i ∈ idx, ¬ b.contains (f.val i) = true) ∧ usedBins f idx (b :: rb) = usedBins f idx rb) := by
  unfold usedBins
  rw [List.filter_cons]
  cases h : idx.filter fun i => b.contains (f.val i) with
  | nil =>
    right
    refine ⟨fun i hi hc => ?_, by simp⟩
    have : i ∈ idx.filter fun i => b.contains (f.val i) := List.mem_filter.mpr ⟨hi, hc⟩
    rw [h] at this
    cases this
  | cons i l =>
    left
    have : i ∈ idx.filter fun i => b.contains (f.val i) := by rw [h]; simp
    exact ⟨⟨i, (List.mem_filter.mp this).1, (List.mem_filter.mp this).2⟩, by simp⟩

theorem usedBins_chained {f : Feature ℝ} {idx : List ℕ} {z : ℝ} : ∀ (rb : List (Bin ℝ)) (a : ℝ), Tiles a rb z → Chained f idx a (usedBins f idx rb) := by
  intro rb
  induction rb with
  | nil => intro a _; exact trivial
  | cons b rb ih =>
    rintro a ⟨h1, h2, h3⟩
    subst h1
    have h := ih b.stop h3
    rcases usedBins_cons (f := f) (idx := idx) (b := b) (rb := rb) with ⟨-, e⟩ | ⟨he, e⟩ <;> rw [e]
    · exact ⟨le_rfl, h2, fun i _ hh => absurd hh.1 (not_le.mpr hh.2), h⟩
    · cases hc : usedBins f idx rb with
      | nil => exact trivial
      | cons d cs =>
        rw [hc] at h
        obtain ⟨g1, g2, g3, g4⟩ := h
        refine ⟨h2.le.trans g1, g2, fun i hi hh => ?_, g4⟩
        rcases lt_or_ge (f.val i) b.stop with hlt | hge
        · exact he i hi (contains_iff.mpr ⟨hh.1, hlt⟩)
        · exact g3 i hi ⟨hge, hh.2⟩

theorem binSigned_empty {s : Sample ℝ} {w : ℕ → ℝ} {f : Feature ℝ} {idx : List ℕ} {b : Bin ℝ} (h : ∀ i ∈ idx, ¬ b.contains (f.val i) = true) :
    binSigned s w f idx b = 0 := by
  unfold binSigned
  rw [List.filter_eq_nil_iff.mpr h]
  rfl

/-- Every boundary splits the rows as the end of a used bin does, or not at all. -/
theorem usedBins_cover {s : Sample ℝ} {w : ℕ → ℝ} {f : Feature ℝ} {idx : List ℕ} {z : ℝ} : ∀ (rb : List (Bin ℝ)) (a : ℝ), Tiles a rb z → ∀ β ∈ rb,
    below s w f idx β.stop = below s w f idx a ∨ ∃ c ∈ usedBins f idx rb, below s w f idx β.stop = below s w f idx c.stop := by
  intro rb
  induction rb with
  | nil => intro a _ β hβ; cases hβ
  | cons b rb ih =>
    rintro a ⟨h1, h2, h3⟩ β hβ
    subst h1
    have hstep := below_step (s := s) (w := w) (f := f) (idx := idx) h2.le
    rcases usedBins_cons (f := f) (idx := idx) (b := b) (rb := rb) with ⟨-, e⟩ | ⟨he, e⟩ <;> rw [e]
    · rcases List.mem_cons.mp hβ with rfl | hβ
      · exact Or.inr ⟨β, by simp, rfl⟩
      · rcases ih b.stop h3 β hβ with h | ⟨c, hc, h⟩
        · exact Or.inr ⟨b, by simp, h⟩
        · exact Or.inr ⟨c, List.mem_cons_of_mem _ hc, h⟩
    · rw [binSigned_empty he, add_zero] at hstep
      rcases List.mem_cons.mp hβ with rfl | hβ
      · exact Or.inl hstep
      · rcases ih b.stop h3 β hβ with h | h
        · exact Or.inl (h.trans hstep)
        · exact Or.inr h

theorem usedBins_total {s : Sample ℝ} {w : ℕ → ℝ} {f : Feature ℝ} {idx : List ℕ} {z : ℝ} : ∀ (rb : List (Bin ℝ)) (a : ℝ), Tiles a rb z →
    below s w f idx z = below s w f idx a + ((usedBins f idx rb).map (binSigned s w f idx)).sum := by
  intro rb
  induction rb with
  | nil =>
    intro a h
    rw [show a = z from h]
    simp [usedBins]
  | cons b rb ih =>
    rintro a ⟨h1, h2, h3⟩
    subst h1
    have hstep := below_step (s := s) (w := w) (f := f) (idx := idx) h2.le
    have := ih b.stop h3
    rcases usedBins_cons (f := f) (idx := idx) (b := b) (rb := rb) with ⟨-, e⟩ | ⟨he, e⟩ <;> rw [e]
    · rw [List.map_cons, List.sum_cons, this, hstep]; ring
    · rw [this, hstep, binSigned_empty he]; ring

/-- The weights of disjoint bins. -/
theorem usedBins_weight {w : ℕ → ℝ} {f : Feature ℝ} {idx : List ℕ} : ∀ (cs : List (Bin ℝ)) (a : ℝ), Chained f idx a cs → (∀ i ∈ idx, 0 ≤ w i) →
    (cs.map (binWeight w f idx)).sum ≤ ((idx.filter fun i => decide (a ≤ f.val i)).map w).sum := by
  intro cs
  induction cs with
  | nil =>
    intro a _ hw
    refine List.sum_nonneg ?_
    simp only [List.mem_map]
    rintro _ ⟨i, hi, rfl⟩
    exact hw i (List.mem_filter.mp hi).1
  | cons d cs ih =>
    rintro a ⟨h1, h2, -, h3⟩ hw
    have := ih d.stop h3 hw
    rw [List.map_cons, List.sum_cons]
    refine (add_le_add_right this _).trans ?_
    unfold binWeight
    clear ih this h3
    induction idx with
    | nil => simp
    | cons i idx ih =>
      have hi := hw i (by simp)
      have := ih fun j hj => hw j (List.mem_cons_of_mem _ hj)
      have hc : d.contains (f.val i) = true ↔ d.start ≤ f.val i ∧ f.val i < d.stop := contains_iff
      by_cases c1 : a ≤ f.val i
      · by_cases c2 : d.stop ≤ f.val i
        · have c3 : d.contains (f.val i) = false := by
            rw [Bool.eq_false_iff]; intro hh; exact absurd (hc.mp hh).2 (not_lt.mpr c2)
          simp only [List.filter_cons, c1, c2, c3, decide_true, if_true, Bool.false_eq_true, if_false, List.map_cons, List.sum_cons]
          linarith
        · cases c3 : d.contains (f.val i) <;>
          simp only [List.filter_cons, c1, c2, c3, decide_true, decide_false, if_true, Bool.false_eq_true, if_false, List.map_cons, List.sum_cons] <;> linarith
      · have c2 : ¬ d.stop ≤ f.val i := fun h => c1 (by linarith)
        have c3 : d.contains (f.val i) = false := by
          rw [Bool.eq_false_iff]; intro hh; exact c1 (h1.trans (hc.mp hh).1)
        simp only [List.filter_cons, c1, c2, c3, decide_false, Bool.false_eq_true, if_false]
        exact this

/-! ## The maps of the bins -/

/-- What the map of a bin contains. -/
structure BinMap (s : Sample ℝ) (w : ℕ → ℝ) (f : Feature ℝ) (idx : List ℕ) (b : Bin ℝ) (m : List (Int × ℝ)) : Prop where
  eq : collectWeights (toM (binItems s w f idx b)) [] = toM m
  pos : PM m
  signs : Signs m
  keys : (m.map Prod.fst).Nodup
  signed : |ssum m - binSigned s w f idx b| ≤ 1 / 10 ^ 10 * binWeight w f idx b
  weight : vsum m ≤ 2 * binWeight w f idx b
  empty : m = [] ↔ ∀ i ∈ idx, ¬ b.contains (f.val i) = true

theorem signs_few {m : List (Int × ℝ)} (hs : Signs m) (hk : (m.map Prod.fst).Nodup) : m.length ≤ 2 := by
  have h : (m.map Prod.fst).toFinset ⊆ ({1, -1} : Finset Int) := by
    intro z hz
    rw [List.mem_toFinset] at hz
    obtain ⟨p, hp, rfl⟩ := List.mem_map.mp hz
    rcases hs p hp with h | h <;> rw [h] <;> simp
  have h2 := Finset.card_le_card h
  rw [List.toFinset_card_of_nodup hk, List.length_map] at h2
  exact h2.trans (by decide)

theorem exists_binMap {s : Sample ℝ} {dist : List F64} {w : ℕ → ℝ} {idx : List ℕ} (hN : Node s dist w idx) (hb : Binary s idx) (f : Feature ℝ) (b : Bin ℝ) :
    ∃ m, BinMap s w f idx b m := by
  have hη := eta_pos
  have hu := u_small
  have hu0 := u_pos
  have hN' := hN.filter fun i => b.contains (f.val i)
  have hb' := hb.filter fun i => b.contains (f.val i)
  have hfew := hN'.few
  have hsum := hN'.sum
  have hW0 : 0 ≤ ((idx.filter fun i => b.contains (f.val i)).map w).sum := List.sum_nonneg (by
    simp only [List.mem_map]
    rintro _ ⟨j, hj, rfl⟩
    exact hN'.nonneg j hj)
  obtain ⟨m, m1, m2, m3, m4, m5⟩ := collect_ok (binItems s w f idx b) [] 0 0 (hN'.list _) PM.nil le_rfl (by rw [vsum_nil]; exact Near.refl 0)
    (by unfold binItems; rw [hN'.vsum]; norm_num; linarith) (by unfold binItems; rw [List.length_map]; omega)
  have hsig : Signs (binItems s w f idx b) := by
    intro p hp
    obtain ⟨i, hi, rfl⟩ := List.mem_map.mp hp
    have := asI_sign (hb' i hi)
    simp only
    rw [this.2.2]
    exact this.2.1
  have mss := collect_ssum (binItems s w f idx b) [] m (binWeight w f idx b) 0 0 (hN'.list _) hsig PM.nil le_rfl (by rw [vsum_nil]; exact Near.refl 0)
    (by unfold binItems binWeight; rw [hN'.vsum]; simp) (by unfold binWeight; linarith) (by unfold binItems; rw [List.length_map]; omega) m1
  have hss : ssum (binItems s w f idx b) = binSigned s w f idx b := ssum_rows w hb' asI32 fun y hy => by
    have := asI_sign hy
    rw [this.2.2]; exact this.1
  rw [ssum_nil, zero_add, hss] at mss
  have hlen : (binItems s w f idx b).length ≤ 10 ^ 5 := by unfold binItems; rw [List.length_map]; exact hfew
  have hvs : vsum (binItems s w f idx b) = binWeight w f idx b := by unfold binItems binWeight; rw [hN'.vsum]
  rw [hvs, zero_add, zero_add] at m5
  have hbd := m5.bound (by omega) hW0
  refine ⟨m, m1, m2, ?_, ?_, ?_, ?_, ?_⟩
  · intro p hp
    rcases (m4 p.1).mp (List.mem_map.mpr ⟨p, hp, rfl⟩) with h | h
    · obtain ⟨q, hq, hqe⟩ := List.mem_map.mp h
      rw [← hqe]; exact hsig q hq
    · simp at h
  · have := collect_keys (toM (binItems s w f idx b)) (toM []) (by simp [toM])
    rw [m1, toM_fst] at this
    exact this
  · refine mss.trans ?_
    have hk : ((binItems s w f idx b).length : ℝ) ≤ 100000 := by exact_mod_cast (hlen.trans (by norm_num) : (binItems s w f idx b).length ≤ 100000)
    have hk0 : (0 : ℝ) ≤ (binItems s w f idx b).length := Nat.cast_nonneg _
    have hB : 0 ≤ binWeight w f idx b := hW0
    calc ((binItems s w f idx b).length : ℝ) * (2 * u * binWeight w f idx b) = (binItems s w f idx b).length * (2 * u) * binWeight w f idx b := by ring
      _ ≤ 100000 * (2 * (1 / 9000000000000000)) * binWeight w f idx b := by gcongr
      _ ≤ _ := by gcongr; norm_num
  · have hB : 0 ≤ binWeight w f idx b := hW0
    have hb2 : vsum m ≤ (1 + 1 / 10 ^ 9) * binWeight w f idx b := hbd.2
    linarith [hb2]
  · constructor
    · rintro rfl i hi hc
      have : asI32 (s.target.getD i 0) ∈ ([] : List (Int × ℝ)).map Prod.fst := (m4 _).mpr (Or.inl (by
        unfold binItems
        rw [List.map_map]
        exact List.mem_map.mpr ⟨i, List.mem_filter.mpr ⟨hi, hc⟩, rfl⟩))
      simp at this
    · intro h
      have hnil : binItems s w f idx b = [] := by
        unfold binItems
        rw [List.filter_eq_nil_iff.mpr h]; rfl
      rw [hnil] at m1
      exact (toM_inj (b := []) m1.symm)

/-! ## The ends of the merged bins -/

/-- A moderate `f64`. -/
def Fine (x : ℝ) : Prop := F64.Rep x ∧ |x| ≤ 10 ^ 9

theorem rep_two {x : ℝ} (h : F64.Rep x) : F64.Rep (2 * x) := by
  obtain ⟨k, j, h1, h2, rfl⟩ := h
  refine ⟨k, j + 1, h1, by omega, ?_⟩
  rw [zpow_add₀ (by norm_num), zpow_one]
  ring

/-- The middle of two moderate numbers lies between them. -/
theorem middle {a b : ℝ} (ha : Fine a) (hb : Fine b) (h : a ≤ b) : ∃ t, F64.div (F64.add (fin a) (fin b)) (fin 2) = fin t ∧ a ≤ t ∧ t ≤ b := by
  have ha' := abs_le.mp ha.2
  have hb' := abs_le.mp hb.2
  have h1 : 2 * a ≤ F64.round (a + b) := rep_le_round (rep_two ha.1) (by linarith)
  have h2 : F64.round (a + b) ≤ 2 * b := round_le_rep (rep_two hb.1) (by linarith)
  refine ⟨F64.round (F64.round (a + b) / 2), ?_, rep_le_round ha.1 (by linarith), round_le_rep hb.1 (by linarith)⟩
  rw [F64.add, rnd_small (by rw [abs_le]; constructor <;> norm_num at ha' hb' ⊢ <;> linarith), F64.div, if_neg (by norm_num),
    rnd_small (by rw [abs_le]; constructor <;> norm_num at ha' hb' ⊢ <;> linarith)]

/-- The inner boundaries of the bins are moderate. -/
def FineBins (rb : List (Bin ℝ)) : Prop := ∀ b ∈ rb, (b.start = -maxVal ∨ Fine b.start) ∧ (b.stop = maxVal ∨ Fine b.stop)

/-- An entry of the pack: the weights of a used bin, and a threshold that splits the rows as the end of this bin does. -/
def Entry (f : Feature ℝ) (idx : List ℕ) (T : ℝ) (m : Bin ℝ → List (Int × ℝ)) (c : Bin ℝ) (q : Bin F64 × LabelMap F64) : Prop :=
  q.2 = toM (normR T (m c)) ∧ ∃ t, q.1.stop = fin t ∧ ∀ i ∈ idx, f.val i < t ↔ f.val i < c.stop

theorem merge_stops {f : Feature ℝ} {idx : List ℕ} {T : ℝ} (hT : T ≠ 0) {m : Bin ℝ → List (Int × ℝ)} : ∀ (cs : List (Bin ℝ)) (c : Bin ℝ) (prev : Bin F64)
    (res : List (Bin F64 × LabelMap F64)), Merge (fin T) prev (toM (normR T (m c))) (cs.map fun b => (toF b, toM (m b))) res → prev.stop = fin c.stop →
    Chained f idx c.stop cs → FineBins (c :: cs) → -maxVal < c.stop → (∀ b ∈ cs, b.stop ≤ maxVal) → (∀ b ∈ cs, ∀ p ∈ m b, |p.2 / T| ≤ 10 ^ 20) →
    List.Forall₂ (Entry f idx T m) (c :: cs) res := by
  intro cs
  induction cs with
  | nil =>
    intro c prev res h hp _ _ _ _ _
    rw [show res = [(prev, toM (normR T (m c)))] from h]
    exact .cons ⟨rfl, c.stop, hp, fun i _ => Iff.rfl⟩ .nil
  | cons d cs ih =>
    intro c prev res h hp hch hfine hlo hhi hB
    obtain ⟨nw', res', h1, h2, rfl⟩ := h
    rw [(divide_iff hT (hB d (by simp)) _).mp h1] at h2
    obtain ⟨g1, g2, g3, g4⟩ := hch
    have hdm := hhi d (by simp)
    have hcs : Fine c.stop := (hfine c (by simp)).2.resolve_left (by intro h; linarith)
    have hds : Fine d.start := (hfine d (by simp)).1.resolve_left (by intro h; linarith)
    obtain ⟨t, e1, e2, e3⟩ := middle hcs hds g1
    refine .cons ⟨rfl, t, ?_, fun i hi => ?_⟩ (ih d _ res' h2 rfl g4 (fun b hb => hfine b (List.mem_cons_of_mem _ hb)) (by linarith)
      (fun b hb => hhi b (List.mem_cons_of_mem _ hb)) (fun b hb => hB b (List.mem_cons_of_mem _ hb)))
    · show F64.div (F64.add prev.stop (toF d).start) (fin 2) = fin t
      rw [hp]; exact e1
    · constructor
      · intro hlt
        by_contra hge
        exact g3 i hi ⟨not_lt.mp hge, hlt.trans_le e3⟩
      · intro hlt; exact hlt.trans_le e2

/-- `Bins::pack`, entry by entry. -/
theorem pack_entries {rb : List (Bin ℝ)} (ht : Tiles (-maxVal) rb maxVal) (hrl : rb.length ≤ 10 ^ 5) (hfine : FineBins rb) {s : Sample ℝ} (hs : SampleOk s)
    {f : Feature ℝ} (hf : f ∈ s.features) (hv : ∀ i < s.nSample, |f.val i| < maxVal) {dist : List F64} {w : ℕ → ℝ} {idx : List ℕ} (hN : Node s dist w idx)
    (hne : idx ≠ []) (hb : Binary s idx) {pack : List (Bin F64 × LabelMap F64)} (h : Pack (rb.map toF) idx f s.target dist (some pack)) :
    ∃ (T : ℝ) (m : Bin ℝ → List (Int × ℝ)), 0 < T ∧ |T - (idx.map w).sum| ≤ 3 / 10 ^ 9 * (idx.map w).sum ∧ (∀ b, BinMap s w f idx b (m b)) ∧
      (∀ b ∈ rb, PM (normR T (m b))) ∧ List.Forall₂ (Entry f idx T m) (usedBins f idx rb) pack := by
  have hsum := hN.sum
  have hfew := hN.few
  have hrb : rb ≠ [] := by
    rintro rfl
    have : -maxVal = maxVal := ht
    linarith [maxVal_big]
  have hX := hN.wpos hne
  choose m hm using fun b => exists_binMap hN hb f b
  obtain ⟨ms, h1, h2, h3, h4, h5, h6⟩ := packLoop_f64 ht hs hf hv idx hN (List.replicate rb.length []) 0 0 (by simp) (by simp [PM]) le_rfl
    (by simp [vsum_nil, Near]) (by linarith) (by omega) (by simp) (by simp)
  simp only [zero_add] at h4 h5
  have hrep : (List.replicate rb.length ([] : List (Int × ℝ))).map toM = List.replicate (rb.map toF).length [] := by
    simp [List.map_replicate, toM_nil]
  rw [hrep] at h1
  have hpl := packLoop_bins ht hs hf hv idx hN (List.replicate (rb.map toF).length []) (by simp)
  have hmaps : List.zipWith (fun b m => collectWeights (toM (binItems s w f idx b)) m) rb (List.replicate (rb.map toF).length []) = rb.map fun b => toM (m b) := by
    refine List.ext_getElem (by simp) fun k k1 k2 => ?_
    simp only [List.getElem_zipWith, List.getElem_replicate, List.getElem_map]
    exact (hm _).eq
  rw [hmaps] at hpl
  have hms : ms = rb.map m := by
    have e : ms.map toM = (rb.map m).map toM := by
      rw [hpl] at h1
      rw [← Option.some.inj h1, List.map_map]; rfl
    have hinj : Function.Injective (toM) := fun a b h => toM_inj h
    exact (List.map_injective_iff.mpr hinj) e
  subst hms
  have hpos : 0 < vsum (rb.map m).flatten := h4.pos hX
  have hvb := h4.bound (by omega) hX.le
  unfold Pack at h
  rw [hpl] at h
  obtain ⟨totals, total, t1, t2, t3⟩ := h
  rcases t3 with ⟨-, t3⟩ | ⟨-, t3⟩
  · cases t3
  rw [show (rb.map fun b => toM (m b)) = (rb.map m).map toM by rw [List.map_map]; rfl] at t1
  obtain ⟨xs, rfl, x2, x3, x4⟩ := totals_ok (rb.map m) h3 (by omega) (by norm_num at hvb ⊢; linarith [hvb.2]) totals t1
  obtain ⟨tt, htt, rfl⟩ := t2
  have hxb := x4.bound (by norm_num) hpos.le
  obtain ⟨T, e1, e2, e3⟩ := split_near tt xs htt x3 (by norm_num at hxb hvb ⊢; linarith [hxb.2, hvb.2]) (by rw [x2, List.length_map]; omega)
  have hxs0 : 0 ≤ xs.sum := x4.nonneg hpos.le
  have hTb := e3.bound (by rw [x2, List.length_map]; omega) hxs0
  have hn := e3.trans x4
  have hT0 : 0 < T := hn.pos hpos
  have hnb := hn.bound (by rw [x2, List.length_map]; omega) hpos.le
  have hT2 : T < 19 / 10 := by norm_num at hnb hvb ⊢; linarith [hnb.2, hvb.2]
  rw [e1] at t3
  obtain ⟨q1, q2, q3⟩ := normR_ok h3 (by omega) hT0 hT2 (k := 10 ^ 5 + xs.length) (by rw [x2, List.length_map]; omega) hn
  have hB : ∀ b ∈ rb, ∀ p ∈ m b, |p.2 / T| ≤ 10 ^ 20 := fun b hbm p hp =>
    (q3 p (List.mem_flatten.mpr ⟨m b, List.mem_map.mpr ⟨b, hbm, rfl⟩, hp⟩)).trans (by norm_num)
  refine ⟨T, m, hT0, ?_, hm, ?_, ?_⟩
  · rw [abs_le]
    norm_num at hnb hvb ⊢
    constructor <;> linarith [hnb.1, hnb.2, hvb.1, hvb.2]
  · intro b hbm p hp
    refine q1 p ?_
    rw [← normR_flatten]
    exact List.mem_flatten.mpr ⟨normR T (m b), List.mem_map.mpr ⟨m b, List.mem_map.mpr ⟨b, hbm, rfl⟩, rfl⟩, hp⟩
  · have hemp : ∀ b, (toM (m b)).isEmpty = (idx.filter fun i => b.contains (f.val i)).isEmpty := by
      intro b
      rw [toM_isEmpty, Bool.eq_iff_iff, List.isEmpty_iff, List.isEmpty_iff, (hm b).empty, List.filter_eq_nil_iff]
    have hfilter : ∀ l : List (Bin ℝ), (((l.map toF).zip (l.map fun b => toM (m b))).filter fun p => !p.2.isEmpty) = (usedBins f idx l).map fun b => (toF b, toM (m b)) := by
      intro l
      unfold usedBins
      rw [List.zip_map', List.filter_map]
      congr 1
      refine List.filter_congr fun b _ => ?_
      simp only [Function.comp, hemp]
    have hused : ∀ l : List (Bin ℝ), ∀ b ∈ usedBins f idx l, b ∈ l := fun l b h => (List.mem_filter.mp h).1
    have hstop : ∀ b ∈ rb, -maxVal < b.stop ∧ b.stop ≤ maxVal := by
      intro b hbm
      obtain ⟨i1, i2, i3⟩ := tiles_mem ht b hbm
      exact ⟨by linarith, i3⟩
    have hch := usedBins_chained (f := f) (idx := idx) rb (-maxVal) ht
    obtain ⟨b0, rb', rfl⟩ := List.exists_cons_of_ne_nil hrb
    simp only [List.map_cons, List.zip_cons_cons, hfilter] at t3
    rcases usedBins_cons (f := f) (idx := idx) (b := b0) (rb := rb') with ⟨⟨i, hi, hc⟩, e⟩ | ⟨he, e⟩
    · have hfalse : (toM (m b0)).isEmpty = false := by
        rw [hemp, Bool.eq_false_iff]
        intro hh
        rw [List.isEmpty_iff, List.filter_eq_nil_iff] at hh
        exact hh i hi hc
      simp only [hfalse, Bool.false_eq_true, if_false] at t3
      obtain ⟨w', res, d1, d2, d3⟩ := t3
      cases d3
      rw [(divide_iff hT0.ne' (hB b0 (by simp)) _).mp d1] at d2
      rw [e] at hch ⊢
      exact merge_stops hT0.ne' _ b0 (toF b0) pack d2 rfl hch.2.2.2
        (fun b hbm => hfine b (by rcases List.mem_cons.mp hbm with rfl | hbm; · simp
                                  · exact List.mem_cons_of_mem _ (hused _ b hbm)))
        (hstop b0 (by simp)).1 (fun b hbm => (hstop b (List.mem_cons_of_mem _ (hused _ b hbm))).2) (fun b hbm => hB b (List.mem_cons_of_mem _ (hused _ b hbm)))
    · have htrue : (toM (m b0)).isEmpty = true := by
        rw [hemp, List.isEmpty_iff, List.filter_eq_nil_iff]; exact he
      simp only [htrue, if_true] at t3
      rw [e] at hch ⊢
      cases hcs : usedBins f idx rb' with
      | nil => rw [hcs] at t3; cases t3
      | cons c cs =>
        rw [hcs] at t3 hch
        simp only [List.map_cons] at t3
        obtain ⟨w', res, d1, d2, d3⟩ := t3
        cases d3
        have hmem : ∀ b ∈ c :: cs, b ∈ b0 :: rb' := fun b hbm => List.mem_cons_of_mem _ (hused rb' b (by rw [hcs]; exact hbm))
        rw [(divide_iff hT0.ne' (hB c (hmem c (by simp))) _).mp d1] at d2
        exact merge_stops hT0.ne' _ c _ pack d2 rfl hch.2.2.2 (fun b hbm => hfine b (hmem b hbm)) (hstop c (hmem c (by simp))).1
          (fun b hbm => (hstop b (hmem b (List.mem_cons_of_mem _ hbm))).2) (fun b hbm => hB b (hmem b (List.mem_cons_of_mem _ hbm)))

end Miniboosts.FTree
