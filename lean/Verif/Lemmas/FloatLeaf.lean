import Verif.Lemmas.FloatGrow

/-! # The leaves of a tree trained in `f64` are the weighted means of the labels of their rows -/

namespace Miniboosts.FTree

open F64 Spec

/-- Sum of the values, each multiplied by its label. -/
noncomputable def ssum (m : List (Int × ℝ)) : ℝ := (m.map fun p => (p.1 : ℝ) * p.2).sum

theorem ssum_nil : ssum [] = 0 := rfl

theorem ssum_cons (p : Int × ℝ) (m : List (Int × ℝ)) : ssum (p :: m) = p.1 * p.2 + ssum m := rfl

theorem ssum_append (a b : List (Int × ℝ)) : ssum (a ++ b) = ssum a + ssum b := by simp [ssum]

theorem ssum_perm {a b : List (Int × ℝ)} (h : a.Perm b) : ssum a = ssum b := (h.map _).sum_eq

/-- All labels are `1` or `-1`. -/
def Signs (m : List (Int × ℝ)) : Prop := ∀ p ∈ m, p.1 = 1 ∨ p.1 = -1

theorem toM_inj {a b : List (Int × ℝ)} (h : toM a = toM b) : a = b := by
  induction a generalizing b with
  | nil => cases b with
    | nil => rfl
    | cons q b => simp [toM] at h
  | cons p a ih => cases b with
    | nil => simp [toM] at h
    | cons q b =>
      simp only [toM, List.map_cons, List.cons.injEq, Prod.mk.injEq, F64.fin.injEq] at h
      rw [ih h.2, Prod.ext h.1.1 h.1.2]

theorem sign_abs {z : Int} (h : z = 1 ∨ z = -1) : |(z : ℝ)| = 1 := by
  rcases h with rfl | rfl <;> simp

/-- One addition to a map changes the signed sum as it should, up to rounding. -/
theorem addTo_ssum {m m' : List (Int × ℝ)} (h : PM m) {y : Int} (hy : y = 1 ∨ y = -1) {w : ℝ} (hw : 2 * eta ≤ w) (hr : F64.Rep w) (hB : vsum m + w ≤ 10 ^ 19)
    (he : addTo (toM m) y (fin w) = toM m') : |ssum m' - (ssum m + y * w)| ≤ u * (vsum m + w) := by
  have hη := eta_pos
  have hu := u_pos
  have hw0 : 0 ≤ w := by linarith
  have hya := sign_abs hy
  induction m generalizing m' with
  | nil =>
    simp only [vsum_nil, zero_add] at hB ⊢
    have e2 : addTo (toM []) y (fin w) = toM [(y, w)] := by
      show [(y, F64.add (fin 0) (fin w))] = _
      rw [F64.add, zero_add, rnd_small (by rw [abs_of_nonneg hw0]; linarith), round_of_rep hr]
      rfl
    rw [e2] at he
    rw [← toM_inj he]
    simp only [ssum_cons, ssum_nil]
    rw [show (y : ℝ) * w + 0 - (0 + y * w) = 0 by ring, abs_zero]
    positivity
  | cons p m ih =>
    obtain ⟨⟨hp1, hp2⟩, hm⟩ := h.cons
    rw [vsum_cons] at hB ⊢
    have hv := hm.vsum_nonneg
    have e : addTo (toM (p :: m)) y (fin w) =
        if p.1 = y then (p.1, F64.add (fin p.2) (fin w)) :: toM m else (p.1, fin p.2) :: addTo (toM m) y (fin w) := rfl
    rw [e] at he
    by_cases hpy : p.1 = y
    · rw [if_pos hpy, F64.add, rnd_small (by rw [abs_of_nonneg (by linarith)]; linarith)] at he
      have e3 : m' = (p.1, F64.round (p.2 + w)) :: m := (toM_inj (b := (p.1, F64.round (p.2 + w)) :: m) he.symm)
      have hrel := add_rel hp2 hr
      rw [abs_of_nonneg (show 0 ≤ p.2 + w by linarith)] at hrel
      rw [e3, ssum_cons, ssum_cons]
      have : (p.1 : ℝ) * F64.round (p.2 + w) + ssum m - (p.1 * p.2 + ssum m + y * w) = y * (F64.round (p.2 + w) - (p.2 + w)) := by rw [hpy]; ring
      simp only at this ⊢
      rw [this, abs_mul, hya, one_mul]
      nlinarith
    · rw [if_neg hpy] at he
      obtain ⟨q, m'', rfl⟩ : ∃ q l, m' = q :: l := by
        cases m' with
        | nil => simp [toM] at he
        | cons q l => exact ⟨q, l, rfl⟩
      simp only [toM, List.map_cons, List.cons.injEq, Prod.mk.injEq, F64.fin.injEq] at he
      have e4 : q = p := Prod.ext he.1.1.symm he.1.2.symm
      have := ih hm (by linarith) he.2
      rw [e4, ssum_cons, ssum_cons]
      rw [show (p.1 : ℝ) * p.2 + ssum m'' - (p.1 * p.2 + ssum m + y * w) = ssum m'' - (ssum m + y * w) by ring]
      nlinarith

theorem addTo_keys (m : LabelMap F64) (y : Int) (w : F64) : (m.map Prod.fst).Nodup → ((addTo m y w).map Prod.fst).Nodup := by
  have key : ∀ (m : LabelMap F64) (z : Int), z ∈ (addTo m y w).map Prod.fst → z = y ∨ z ∈ m.map Prod.fst := by
    intro m
    induction m with
    | nil => intro z hz; simpa [addTo] using hz
    | cons p m ih =>
      obtain ⟨k, v⟩ := p
      intro z hz
      unfold addTo at hz
      split at hz
      · simp only [List.map_cons, List.mem_cons] at hz ⊢; tauto
      · simp only [List.map_cons, List.mem_cons] at hz ⊢
        rcases hz with hz | hz
        · tauto
        · rcases ih z hz with h | h <;> tauto
  induction m with
  | nil => intro _; simp [addTo]
  | cons p m ih =>
    obtain ⟨k, v⟩ := p
    intro h
    simp only [List.map_cons, List.nodup_cons] at h
    unfold addTo
    split
    · simpa using h
    · rename_i hk
      simp only [List.map_cons, List.nodup_cons]
      refine ⟨fun hm => ?_, ih h.2⟩
      rcases key m k hm with h1 | h1
      · exact hk h1
      · exact h.1 h1

/-- Collecting weights: the signed sum, relative to the weight `B` of everything collected. -/
theorem collect_ssum : ∀ (l m m' : List (Int × ℝ)) (B X : ℝ) (k : ℕ), PM l → Signs l → PM m → 0 ≤ X → Near k (vsum m) X → X + vsum l ≤ B → B ≤ 10 ^ 18 → k + l.length ≤ 10 ^ 6 →
    collectWeights (toM l) (toM m) = toM m' → |ssum m' - (ssum m + ssum l)| ≤ l.length * (2 * u * B) := by
  intro l
  induction l with
  | nil =>
    intro m m' B X k _ _ _ _ _ _ _ _ he
    rw [← toM_inj (show toM m = toM m' from he)]
    simp [ssum_nil]
  | cons p l ih =>
    intro m m' B X k hl hs hm hX hn hB hB' hk he
    obtain ⟨⟨hp1, hp2⟩, hl'⟩ := hl.cons
    rw [vsum_cons] at hB
    have hη := eta_pos
    have hu := u_pos
    have hv := hl'.vsum_nonneg
    simp only [List.length_cons] at hk
    have hb := (hn.bound (by omega) hX).2
    have h2 : vsum m + p.2 ≤ 2 * (X + p.2) := by linarith
    obtain ⟨m1, e1, e2, -, e3, e4, e5, e6⟩ := addTo_ok hm p.1 hp1 hp2 (by linarith)
    have hn1 : Near (k + 1) (vsum m1) (X + p.2) := (hn.add (Near.mono (Nat.zero_le k) (by linarith) (Near.refl p.2))).step e5 e6
    have s1 := addTo_ssum hm (hs p (by simp)) hp1 hp2 (by linarith) e1
    have s2 := ih m1 m' B (X + p.2) (k + 1) hl' (fun q hq => hs q (List.mem_cons_of_mem _ hq)) e2 (by linarith) hn1 (by linarith) hB' (by omega) (by
      rw [← he, ← e1]; rfl)
    rw [ssum_cons, List.length_cons]
    push_cast
    have s3 : u * (vsum m + p.2) ≤ 2 * u * B := by nlinarith
    rw [show ssum m' - (ssum m + (p.1 * p.2 + ssum l)) = (ssum m' - (ssum m1 + ssum l)) + (ssum m1 - (ssum m + p.1 * p.2)) by ring]
    refine (abs_add_le _ _).trans ?_
    linarith

theorem collect_keys : ∀ (l m : LabelMap F64), (m.map Prod.fst).Nodup → ((collectWeights l m).map Prod.fst).Nodup := by
  intro l
  induction l with
  | nil => exact fun m h => h
  | cons p l ih => exact fun m h => ih _ (addTo_keys m p.1 p.2 h)

/-- With two labels, the heaviest label of a map determines the signed sum. -/
theorem heaviest {m : List (Int × ℝ)} (hs : Signs m) (hk : (m.map Prod.fst).Nodup) (hp : ∀ p ∈ m, 0 ≤ p.2) {q : Int × ℝ} (hq : q ∈ m) (hmax : ∀ p ∈ m, p.2 ≤ q.2) :
    ssum m = q.1 * (2 * q.2 - vsum m) ∧ vsum m ≤ 2 * q.2 := by
  have hlen : m.length ≤ 2 := by
    have hsub : m.map Prod.fst ⊆ [1, -1] := by
      intro z hz
      obtain ⟨p, hp, rfl⟩ := List.mem_map.mp hz
      rcases hs p hp with h | h <;> simp [h]
    have := (List.subperm_of_subset hk hsub).length_le
    simpa using this
  match m, hlen, hs, hk, hp, hq, hmax with
  | [], _, _, _, _, hq, _ => cases hq
  | [a], _, _, _, hp, hq, _ =>
    rw [List.mem_singleton] at hq
    subst hq
    simp only [ssum_cons, ssum_nil, vsum_cons, vsum_nil]
    have := hp q (by simp)
    exact ⟨by ring, by linarith⟩
  | [a, b], _, hs, hk, hp, hq, hmax =>
    have ha := hs a (by simp)
    have hb := hs b (by simp)
    have hab : a.1 ≠ b.1 := by
      simp only [List.map_cons, List.map_nil, List.nodup_cons, List.mem_cons, List.not_mem_nil, or_false] at hk
      exact hk.1
    have h1 := hmax a (by simp)
    have h2 := hmax b (by simp)
    have hneg : (b.1 : ℝ) = -a.1 := by
      rcases ha with ha | ha <;> rcases hb with hb | hb
      · exact absurd (ha.trans hb.symm) hab
      · rw [ha, hb]; norm_num
      · rw [ha, hb]; norm_num
      · exact absurd (ha.trans hb.symm) hab
    simp only [ssum_cons, ssum_nil, vsum_cons, vsum_nil]
    rcases List.mem_pair.mp hq with rfl | rfl
    · exact ⟨by rw [hneg]; ring, by linarith⟩
    · have : (a.1 : ℝ) = -q.1 := by rw [hneg]; ring
      exact ⟨by rw [this]; ring, by linarith⟩

theorem rnd_approx {z : ℝ} (hz : |z| ≤ 100) : rnd z = fin (F64.round z) ∧ |F64.round z - z| ≤ 1 / 10 ^ 13 := by
  refine ⟨rnd_small (hz.trans (by norm_num)), (round_err z).trans ?_⟩
  have hu := u_small
  have hη := eta_tiny
  have : u * |z| ≤ 1 / 9000000000000000 * 100 := by gcongr
  norm_num at this hη ⊢
  linarith

theorem ofInt_sign {z : Int} (h : z = 1 ∨ z = -1) : ofInt z = fin z := by
  unfold ofInt
  rw [rnd_small (by rw [sign_abs h]; norm_num)]
  congr 1
  refine round_of_rep ⟨z, 0, ?_, by norm_num, by simp⟩
  rcases h with rfl | rfl <;> norm_num

theorem clamp1_near {x m δ : ℝ} (hm : |m| ≤ 1) (h : |x - m| ≤ δ) : ∃ y, F64.clamp1 (fin x) = fin y ∧ |y - m| ≤ δ ∧ |y| ≤ 1 := by
  have hm' := abs_le.mp hm
  have h' := abs_le.mp h
  unfold F64.clamp1
  by_cases h1 : x < -1
  · exact ⟨-1, if_pos h1, by rw [abs_le]; constructor <;> linarith, by norm_num⟩
  · by_cases h2 : 1 < x
    · exact ⟨1, (if_neg h1).trans (if_pos h2), by rw [abs_le]; constructor <;> linarith, by norm_num⟩
    · exact ⟨x, (if_neg h1).trans (if_neg h2), h, abs_le.mpr ⟨not_lt.mp h1, not_lt.mp h2⟩⟩

/-- The rows' weights with their labels, summed. -/
noncomputable def signedWeight (s : Sample ℝ) (w : ℕ → ℝ) (idx : List ℕ) : ℝ := (idx.map fun i => w i * s.target.getD i 0).sum

/-- The answer `c` and the loss `l` of a node with the rows `idx`, up to `1e-8`. -/
structure NodeVals (s : Sample ℝ) (w : ℕ → ℝ) (idx : List ℕ) (c l : F64) : Prop where
  conf : ∃ x, c = fin x ∧ |x - signedWeight s w idx / (idx.map w).sum| ≤ 1 / 10 ^ 8 ∧ |x| ≤ 1
  loss : ∃ x, l = fin x ∧ |x - ((idx.map w).sum - |signedWeight s w idx|) / 2| ≤ 1 / 10 ^ 8

theorem leafValues_near {T V q : ℝ} {z : Int} (hz : z = 1 ∨ z = -1) (hT : 0 < T) (hT2 : T ≤ 2) (hV : 0 < V) (hN : |T - V| ≤ 1 / 10 ^ 9 * V) (hq : 0 ≤ q) (hqV : q ≤ V) (hqV' : V ≤ 2 * q) :
    (∃ x, (leafValues (fin T) (z, fin q)).1 = fin x ∧ |x - z * (2 * q - V) / V| ≤ 4 / 10 ^ 9 ∧ |x| ≤ 1) ∧
      ∃ x, (leafValues (fin T) (z, fin q)).2 = fin x ∧ |x - (V - q)| ≤ 8 / 10 ^ 9 := by
  have h0 : F64.Lt (fin 0) (fin T) := hT
  have hN' := abs_le.mp hN
  unfold leafValues
  simp only [h0, if_true]
  -- the quotient
  have hqT0 : 0 ≤ q / T := div_nonneg hq hT.le
  have hVT : V ≤ (1 + 2 / 10 ^ 9) * T := by linarith
  have hqT1 : q / T ≤ 1 + 2 / 10 ^ 9 := by rw [div_le_iff₀ hT]; linarith
  have hdq : |q / T - q / V| ≤ 12 / 10 ^ 10 := by
    have e : q / T - q / V = (q / T) * ((V - T) / V) := by field_simp
    have e2 : |(V - T) / V| ≤ 1 / 10 ^ 9 := by
      rw [abs_div, abs_of_pos hV, div_le_iff₀ hV, abs_sub_comm]; exact hN
    rw [e, abs_mul, abs_of_nonneg hqT0]
    calc q / T * |(V - T) / V| ≤ (1 + 2 / 10 ^ 9) * (1 / 10 ^ 9) := mul_le_mul hqT1 e2 (abs_nonneg _) (by norm_num)
      _ ≤ _ := by norm_num
  obtain ⟨a1, a2⟩ := rnd_approx (z := q / T) (by rw [abs_of_nonneg hqT0]; linarith)
  have ea : F64.div (fin q) (fin T) = fin (F64.round (q / T)) := by rw [← a1]; exact if_neg hT.ne'
  rw [ea]
  set A := F64.round (q / T) with hA
  have hA1 : |A - q / V| ≤ 13 / 10 ^ 10 := by
    have := abs_add_le (A - q / T) (q / T - q / V)
    rw [sub_add_sub_cancel] at this
    norm_num at a2 hdq this ⊢
    linarith
  have hqVle : q / V ≤ 1 := by rw [div_le_one hV]; exact hqV
  have hqVge : 1 / 2 ≤ q / V := by rw [le_div_iff₀ hV]; linarith
  have hA2 := abs_le.mp hA1
  have hAb : |A| ≤ 2 := by rw [abs_le]; constructor <;> norm_num at hA2 ⊢ <;> linarith [hA2.1, hA2.2]
  constructor
  · obtain ⟨b1, b2⟩ := rnd_approx (z := 2 * A) (by rw [abs_mul]; norm_num; linarith)
    have eb : F64.mul (fin 2) (fin A) = fin (F64.round (2 * A)) := b1
    set B := F64.round (2 * A)
    have hB := abs_le.mp b2
    have hAb' := abs_le.mp hAb
    obtain ⟨c1, c2⟩ := rnd_approx (z := B - 1) (by rw [abs_le]; constructor <;> norm_num at hB ⊢ <;> linarith [hB.1, hB.2])
    have ec : F64.sub (fin B) (fin 1) = fin (F64.round (B - 1)) := by
      rw [← c1]; show F64.add (fin B) (F64.neg (fin 1)) = _; rfl
    set C := F64.round (B - 1)
    have hC := abs_le.mp c2
    have hz1 := sign_abs hz
    have hCb : |C| ≤ 10 := by rw [abs_le]; constructor <;> norm_num at hB hC ⊢ <;> linarith [hB.1, hB.2, hC.1, hC.2]
    obtain ⟨d1, d2⟩ := rnd_approx (z := z * C) (by rw [abs_mul, hz1, one_mul]; linarith)
    have ed : F64.mul (ofInt z) (fin C) = fin (F64.round (z * C)) := by rw [ofInt_sign hz]; exact d1
    rw [eb, ec, ed]
    have hm : |(z : ℝ) * (2 * q - V) / V| ≤ 1 := by
      rw [abs_div, abs_mul, hz1, one_mul, abs_of_pos hV, div_le_one hV, abs_of_nonneg (by linarith)]; linarith
    refine (fun h => ?_) (clamp1_near (x := F64.round (z * C)) (δ := 4 / 10 ^ 9) hm ?_)
    · exact h
    · have e1 : (z : ℝ) * (2 * q - V) / V = z * (2 * (q / V) - 1) := by field_simp
      rw [e1]
      have e2 : F64.round (z * C) - z * (2 * (q / V) - 1) = (F64.round (z * C) - z * C) + z * ((C - (B - 1)) + (B - 2 * A) + 2 * (A - q / V)) := by ring
      rw [e2]
      refine (abs_add_le _ _).trans ?_
      rw [abs_mul, hz1, one_mul]
      have e3 : |C - (B - 1) + (B - 2 * A) + 2 * (A - q / V)| ≤ 1 / 10 ^ 13 + 1 / 10 ^ 13 + 2 * (13 / 10 ^ 10) := by
        rw [abs_le]
        constructor <;> linarith [hB.1, hB.2, hC.1, hC.2, hA2.1, hA2.2]
      norm_num at d2 e3 ⊢
      linarith
  · have hAb' := abs_le.mp hAb
    obtain ⟨c1, c2⟩ := rnd_approx (z := 1 - A) (by rw [abs_le]; constructor <;> linarith)
    have ec : F64.sub (fin 1) (fin A) = fin (F64.round (1 - A)) := by
      rw [← c1]; show F64.add (fin 1) (F64.neg (fin A)) = _; rfl
    set C := F64.round (1 - A)
    have hC := abs_le.mp c2
    have hCb : |C| ≤ 4 := by rw [abs_le]; constructor <;> norm_num at hC ⊢ <;> linarith [hC.1, hC.2]
    obtain ⟨d1, d2⟩ := rnd_approx (z := T * C) (by rw [abs_mul, abs_of_pos hT]; nlinarith)
    have ed : F64.mul (fin T) (fin C) = fin (F64.round (T * C)) := d1
    rw [ec, ed]
    refine ⟨_, rfl, ?_⟩
    have hC2 : |C - (1 - q / V)| ≤ 14 / 10 ^ 10 := by
      rw [abs_le]; constructor <;> norm_num at hC hA2 ⊢ <;> linarith [hC.1, hC.2, hA2.1, hA2.2]
    have e1 : F64.round (T * C) - (V - q) = (F64.round (T * C) - T * C) + T * (C - (1 - q / V)) + (T - V) * (1 - q / V) := by field_simp; ring
    rw [e1]
    have t1 : |T * (C - (1 - q / V))| ≤ 2 * (14 / 10 ^ 10) := by
      rw [abs_mul, abs_of_pos hT]; exact mul_le_mul hT2 hC2 (abs_nonneg _) (by norm_num)
    have t2 : |(T - V) * (1 - q / V)| ≤ 3 / 10 ^ 9 * 1 := by
      rw [abs_mul]
      refine mul_le_mul (hN.trans ?_) (by rw [abs_le]; constructor <;> linarith) (abs_nonneg _) (by norm_num)
      norm_num at hVT ⊢; linarith
    refine (abs_add_le _ _).trans ?_
    have := abs_add_le (F64.round (T * C) - T * C) (T * (C - (1 - q / V)))
    norm_num at d2 t1 t2 this ⊢
    linarith

theorem asI_sign {y : ℝ} (h : y = 1 ∨ y = -1) : ((asI64 y : Int) : ℝ) = y ∧ (asI64 y = 1 ∨ asI64 y = -1) ∧ asI32 y = asI64 y := by
  have t1 : trunc (1 : ℝ) = 1 := by unfold trunc; norm_num
  have t2 : trunc (-1 : ℝ) = -1 := by unfold trunc; norm_num
  rcases h with rfl | rfl
  · have h1 : asI64 (1 : ℝ) = 1 := by unfold asI64; rw [t1]; norm_num
    have h2 : asI32 (1 : ℝ) = 1 := by unfold asI32; rw [t1]; norm_num
    exact ⟨by rw [h1]; norm_num, Or.inl h1, h2.trans h1.symm⟩
  · have h1 : asI64 (-1 : ℝ) = -1 := by unfold asI64; rw [t2]; norm_num
    have h2 : asI32 (-1 : ℝ) = -1 := by unfold asI32; rw [t2]; norm_num
    exact ⟨by rw [h1]; norm_num, Or.inr h1, h2.trans h1.symm⟩

/-- The labels of the rows are `1` or `-1`. -/
def Binary (s : Sample ℝ) (idx : List ℕ) : Prop := ∀ i ∈ idx, s.target.getD i 0 = 1 ∨ s.target.getD i 0 = -1

theorem ssum_rows {s : Sample ℝ} (w : ℕ → ℝ) {idx : List ℕ} (hb : Binary s idx) (g : ℝ → Int) (hg : ∀ y : ℝ, y = 1 ∨ y = -1 → ((g y : Int) : ℝ) = y) :
    ssum (idx.map fun i => (g (s.target.getD i 0), w i)) = signedWeight s w idx := by
  unfold ssum signedWeight
  rw [List.map_map]
  congr 1
  refine List.map_congr_left fun i hi => ?_
  simp only [Function.comp]
  rw [hg _ (hb i hi), mul_comm]

theorem abs_signedWeight {s : Sample ℝ} {w : ℕ → ℝ} {idx : List ℕ} (hb : Binary s idx) (hw : ∀ i ∈ idx, 0 ≤ w i) : |signedWeight s w idx| ≤ (idx.map w).sum := by
  unfold signedWeight
  induction idx with
  | nil => simp
  | cons i idx ih =>
    have h1 := ih (fun j hj => hb j (List.mem_cons_of_mem _ hj)) (fun j hj => hw j (List.mem_cons_of_mem _ hj))
    have h2 : |w i * s.target.getD i 0| = w i := by
      rw [abs_mul, abs_of_nonneg (hw i (by simp))]
      rcases hb i (by simp) with h | h <;> rw [h] <;> simp
    simp only [List.map_cons, List.sum_cons]
    refine (abs_add_le _ _).trans ?_
    linarith

theorem Node.nonneg {s : Sample ℝ} {dist : List F64} {w : ℕ → ℝ} {idx : List ℕ} (hN : Node s dist w idx) : ∀ i ∈ idx, 0 ≤ w i := fun i hi => by
  have := (hN.weight i hi).2.1
  have := eta_pos
  linarith

theorem confLoss_near {s : Sample ℝ} (hs : SampleOk s) {dist : List F64} {w : ℕ → ℝ} {idx : List ℕ} (hN : Node s dist w idx) (hne : idx ≠ []) (hb : Binary s idx)
    {c l : F64} (h : ConfLoss s dist idx (some (c, l))) : NodeVals s w idx c l := by
  have hη := eta_pos
  have hu := u_small
  have hu0 := u_pos
  have hfew := hN.few
  have hsum := hN.sum
  have hpos := hN.sum_pos hne
  have hW : 0 < (idx.map w).sum := by linarith
  obtain ⟨m, m1, m2, m3, m4, m5⟩ := collect_ok (idx.map fun i => (asI64 (s.target.getD i 0), w i)) [] 0 0 (hN.list _) PM.nil le_rfl (by rw [vsum_nil]; exact Near.refl 0)
    (by rw [hN.vsum]; norm_num; linarith) (by rw [List.length_map]; omega)
  have hsig : Signs (idx.map fun i => (asI64 (s.target.getD i 0), w i)) := by
    intro p hp
    obtain ⟨i, hi, rfl⟩ := List.mem_map.mp hp
    exact (asI_sign (hb i hi)).2.1
  have mss := collect_ssum (idx.map fun i => (asI64 (s.target.getD i 0), w i)) [] m ((idx.map w).sum) 0 0 (hN.list _) hsig PM.nil le_rfl (by rw [vsum_nil]; exact Near.refl 0)
    (by rw [hN.vsum]; simp) (by linarith) (by rw [List.length_map]; omega) m1
  rw [ssum_nil, zero_add, ssum_rows w hb asI64 (fun y hy => (asI_sign hy).1), List.length_map] at mss
  rw [hN.vsum, zero_add, zero_add, List.length_map] at m5
  rw [List.length_map] at m3
  have hbd := m5.bound (by omega) hW.le
  have hmpos : 0 < FTree.vsum m := m5.pos hW
  have hml : m.length ≤ 10 ^ 5 := by simp only [List.length_nil] at m3; omega
  have hcount : countLabels s.target dist idx [] = some (toM m) := by
    rw [countLabels_eq hs idx hN, ← m1]; rfl
  have hkeys : (m.map Prod.fst).Nodup := by
    have := collect_keys (toM (idx.map fun i => (asI64 (s.target.getD i 0), w i))) (toM []) (by simp [toM])
    rw [m1, toM_fst] at this
    exact this
  have hsm : Signs m := by
    intro p hp
    rcases (m4 p.1).mp (List.mem_map.mpr ⟨p, hp, rfl⟩) with h | h
    · obtain ⟨q, hq, hqe⟩ := List.mem_map.mp h
      rw [← hqe]; exact hsig q hq
    · simp at h
  unfold ConfLoss at h
  simp only [hne, if_false, hcount] at h
  obtain ⟨tot, ht, lm, x, hp, hx, ho⟩ := h
  obtain ⟨T, rfl, -, hT⟩ := total_ok m2 (by omega) (by norm_num at hbd ⊢; linarith [hbd.2]) ht
  have hT' := hT.bound (by omega) hmpos.le
  obtain ⟨m', hp', rfl⟩ := perm_toM hp
  cases x with
  | none => cases ho
  | some q =>
    obtain ⟨hq1, hq2⟩ := extremum_best (smallest := false) (key := fun p : Int × F64 => p.2) (fun a ha => by
      obtain ⟨r, -, rfl⟩ := List.mem_map.mp ha
      simp) hx
    obtain ⟨r, hr, rfl⟩ := List.mem_map.mp hq1
    have hrm : r ∈ m := hp'.mem_iff.mp hr
    have hmax : ∀ p ∈ m, p.2 ≤ r.2 := by
      intro p hpm
      have := hq2 (p.1, fin p.2) (List.mem_map.mpr ⟨p, hp'.mem_iff.mpr hpm, rfl⟩)
      simp only [Bool.false_eq_true, if_false] at this
      exact not_lt.mp this
    obtain ⟨k1, k2⟩ := heaviest hsm hkeys m2.nonneg hrm hmax
    have hTpos := hT.pos hmpos
    obtain ⟨⟨xc, c1, c2, c3⟩, xl, l1, l2⟩ := leafValues_near (hsm r hrm) hTpos (by norm_num at hT' hbd ⊢; linarith [hT'.2, hbd.2]) hmpos
      (by rw [abs_le]; constructor <;> linarith [hT'.1, hT'.2]) (m2.nonneg r hrm) (m2.le_vsum hrm) k2
    simp only [Option.map_some, Option.some.injEq] at ho
    rw [← k1] at c2
    set V := FTree.vsum m
    set W := (idx.map w).sum
    set S := signedWeight s w idx
    have hk : (idx.length : ℝ) ≤ 100000 := by exact_mod_cast (hfew.trans (by norm_num) : idx.length ≤ 100000)
    have hSS : |ssum m - S| ≤ 1 / 10 ^ 10 * W := by
      refine mss.trans ?_
      have : (idx.length : ℝ) * (2 * u) ≤ 100000 * (2 * (1 / 9000000000000000)) := by gcongr
      calc (idx.length : ℝ) * (2 * u * W) = idx.length * (2 * u) * W := by ring
        _ ≤ 100000 * (2 * (1 / 9000000000000000)) * W := by gcongr
        _ ≤ _ := by gcongr; norm_num
    have hSW : |S| ≤ W := abs_signedWeight hb hN.nonneg
    have hsV : |ssum m| = 2 * r.2 - V := by rw [k1, abs_mul, sign_abs (hsm r hrm), one_mul, abs_of_nonneg (by linarith)]
    refine ⟨⟨xc, ?_, ?_, c3⟩, ⟨xl, ?_, ?_⟩⟩
    · rw [← c1]; exact congrArg Prod.fst ho
    · have hVW : |V - W| ≤ 1 / 10 ^ 9 * W := by rw [abs_le]; constructor <;> linarith [hbd.1, hbd.2]
      have e : ssum m / V - S / W = (ssum m - S) / W + (ssum m / V) * ((W - V) / W) := by field_simp; ring
      have e1 : |(ssum m - S) / W| ≤ 1 / 10 ^ 10 := by rw [abs_div, abs_of_pos hW, div_le_iff₀ hW]; exact hSS
      have e2 : |(ssum m / V) * ((W - V) / W)| ≤ 1 * (1 / 10 ^ 9) := by
        rw [abs_mul]
        refine mul_le_mul ?_ ?_ (abs_nonneg _) (by norm_num)
        · rw [abs_div, abs_of_pos hmpos, div_le_one hmpos, hsV]; linarith [m2.le_vsum hrm]
        · rw [abs_div, abs_of_pos hW, div_le_iff₀ hW, abs_sub_comm]; exact hVW
      have e3 := abs_add_le ((ssum m - S) / W) ((ssum m / V) * ((W - V) / W))
      rw [← e] at e3
      have e4 := abs_add_le (xc - ssum m / V) (ssum m / V - S / W)
      rw [sub_add_sub_cancel] at e4
      norm_num at e1 e2 e3 c2 e4 ⊢
      linarith
    · rw [← l1]; exact congrArg Prod.snd ho
    · have e1 : V - r.2 = (V - |ssum m|) / 2 := by rw [hsV]; ring
      rw [e1] at l2
      have h1 := abs_le.mp l2
      have h2 := abs_le.mp ((abs_abs_sub_abs_le (ssum m) S).trans hSS)
      rw [abs_le]
      norm_num at h1 h2 hbd ⊢
      constructor <;> linarith [h1.1, h1.2, h2.1, h2.2, hbd.1, hbd.2]

theorem sumAt_near {s : Sample ℝ} {dist : List F64} {w : ℕ → ℝ} {idx : List ℕ} (hN : Node s dist w idx) {x : F64} (h : SumAt dist idx (some x)) :
    ∃ r, x = fin r ∧ |r - (idx.map w).sum| ≤ 1 / 10 ^ 8 := by
  have hall : Par.allSome (idx.map fun i => dist[i]?) = some ((idx.map w).map fin) := by
    have h1 := hN.weight
    clear h hN
    induction idx with
    | nil => rfl
    | cons i idx ih =>
      simp only [List.map_cons]
      rw [(h1 i (by simp)).1]
      unfold Par.allSome
      rw [ih fun j hj => h1 j (List.mem_cons_of_mem _ hj)]
      rfl
  unfold SumAt at h
  rw [hall] at h
  obtain ⟨r, ⟨t, ht, hr⟩, hx⟩ := h
  have hsum := hN.sum
  have hfew := hN.few
  have hnn : 0 ≤ (idx.map w).sum := List.sum_nonneg (by
    simp only [List.mem_map]
    rintro _ ⟨j, hj, rfl⟩
    exact hN.nonneg j hj)
  obtain ⟨z, z1, -, z3⟩ := split_near t (idx.map w) ht (by
    simp only [List.mem_map]
    rintro _ ⟨j, hj, rfl⟩
    exact ⟨hN.nonneg j hj, (hN.weight j hj).2.2⟩) (by linarith) (by rw [List.length_map]; omega)
  have hb := z3.bound (by rw [List.length_map]; omega) hnn
  refine ⟨z, by rw [Option.some.inj hx, hr, z1], ?_⟩
  rw [abs_le]
  norm_num at hb ⊢
  constructor <;> linarith [hb.1, hb.2]

end Miniboosts.FTree
