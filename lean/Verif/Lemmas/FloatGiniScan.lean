import Verif.Lemmas.FloatGini

/-! # The scan over the bins for the smallest Gini impurity, in `f64` -/

namespace Miniboosts.FTree

open Miniboosts F64 Spec

/-! ## The truth -/

/-- The weight of the rows below `t`. -/
noncomputable def wbelow (w : ℕ → ℝ) (f : Feature ℝ) (idx : List ℕ) (t : ℝ) : ℝ := ((idx.filter fun i => decide (f.val i < t)).map w).sum

theorem wbelow_congr {w : ℕ → ℝ} {f : Feature ℝ} {idx : List ℕ} {t t' : ℝ} (h : ∀ i ∈ idx, f.val i < t ↔ f.val i < t') :
    wbelow w f idx t = wbelow w f idx t' := by
  unfold wbelow
  congr 2
  exact List.filter_congr fun i hi => by simp only [h i hi]

theorem wbelow_step {w : ℕ → ℝ} {f : Feature ℝ} {idx : List ℕ} {b : Bin ℝ} (h : b.start ≤ b.stop) :
    wbelow w f idx b.stop = wbelow w f idx b.start + binWeight w f idx b := by
  unfold wbelow binWeight
  induction idx with
  | nil => simp
  | cons i idx ih =>
    have hc : b.contains (f.val i) = true ↔ b.start ≤ f.val i ∧ f.val i < b.stop := contains_iff
    by_cases h1 : f.val i < b.start
    · have h2 : f.val i < b.stop := h1.trans_le h
      have h3 : b.contains (f.val i) = false := by
        rw [Bool.eq_false_iff]; intro hh; exact absurd (hc.mp hh).1 (not_le.mpr h1)
      simp only [List.filter_cons, h1, h2, h3, decide_true, if_true, Bool.false_eq_true, if_false, List.map_cons, List.sum_cons]
      rw [ih]; ring
    · by_cases h2 : f.val i < b.stop
      · have h3 : b.contains (f.val i) = true := hc.mpr ⟨not_lt.mp h1, h2⟩
        simp only [List.filter_cons, h1, h2, h3, decide_true, decide_false, if_true, Bool.false_eq_true, if_false, List.map_cons, List.sum_cons]
        rw [ih]; ring
      · have h3 : b.contains (f.val i) = false := by
          rw [Bool.eq_false_iff]; intro hh; exact h2 (hc.mp hh).2
        simp only [List.filter_cons, h1, h2, h3, decide_false, Bool.false_eq_true, if_false]
        exact ih

/-- The impurity that is left after splitting at `t`, relative to the weight of the node. -/
noncomputable def impurity (s : Sample ℝ) (w : ℕ → ℝ) (f : Feature ℝ) (idx : List ℕ) (t : ℝ) : ℝ :=
  gw (wbelow w f idx t / (idx.map w).sum) (below s w f idx t / (idx.map w).sum) +
    gw (1 - wbelow w f idx t / (idx.map w).sum) (signedWeight s w idx / (idx.map w).sum - below s w f idx t / (idx.map w).sum)

theorem impurity_congr {s : Sample ℝ} {w : ℕ → ℝ} {f : Feature ℝ} {idx : List ℕ} {t t' : ℝ} (h : ∀ i ∈ idx, f.val i < t ↔ f.val i < t') :
    impurity s w f idx t = impurity s w f idx t' := by
  unfold impurity
  rw [below_congr h, wbelow_congr h]

/-- The two sides of `t`. -/
theorem sides {s : Sample ℝ} {dist : List F64} {w : ℕ → ℝ} {idx : List ℕ} (hN : Node s dist w idx) (hne : idx ≠ []) (hb : Binary s idx) (f : Feature ℝ) (t : ℝ) :
    |below s w f idx t / (idx.map w).sum| ≤ wbelow w f idx t / (idx.map w).sum ∧
      |signedWeight s w idx / (idx.map w).sum - below s w f idx t / (idx.map w).sum| ≤ 1 - wbelow w f idx t / (idx.map w).sum := by
  have hW := hN.wpos hne
  have h1 := signed_filter s w idx fun i => decide (f.val i < t)
  have h2 := weight_filter w idx fun i => decide (f.val i < t)
  have h3 := abs_signedWeight (hb.filter fun i => decide (f.val i < t)) fun i hi => hN.nonneg i (List.mem_filter.mp hi).1
  have h4 := abs_signedWeight (hb.filter fun i => !decide (f.val i < t)) fun i hi => hN.nonneg i (List.mem_filter.mp hi).1
  unfold below wbelow
  constructor
  · rw [abs_div, abs_of_pos hW]
    gcongr
  · rw [← sub_div, abs_div, abs_of_pos hW, div_le_iff₀ hW, sub_mul, one_mul, div_mul_cancel₀ _ hW.ne', ← h1, add_sub_cancel_left]
    linarith

/-! ## The bins -/

theorem binMap_total {s : Sample ℝ} {dist : List F64} {w : ℕ → ℝ} {idx : List ℕ} (hN : Node s dist w idx) {f : Feature ℝ} {b : Bin ℝ} {m : List (Int × ℝ)}
    (hm : BinMap s w f idx b m) : |vsum m - binWeight w f idx b| ≤ 1 / 10 ^ 9 * binWeight w f idx b := by
  have hN' := hN.filter fun i => b.contains (f.val i)
  have hfew := hN'.few
  have hsum := hN'.sum
  have hW0 : 0 ≤ binWeight w f idx b := List.sum_nonneg (by
    simp only [List.mem_map]
    rintro _ ⟨j, hj, rfl⟩
    exact hN'.nonneg j hj)
  obtain ⟨m', m1, -, -, -, m5⟩ := collect_ok (binItems s w f idx b) [] 0 0 (hN'.list _) PM.nil le_rfl (by rw [vsum_nil]; exact Near.refl 0)
    (by unfold binItems; rw [hN'.vsum]; norm_num; linarith) (by unfold binItems; rw [List.length_map]; omega)
  have e : m' = m := toM_inj (by rw [← m1, ← hm.eq]; rfl)
  subst e
  have hvs : vsum (binItems s w f idx b) = binWeight w f idx b := by unfold binItems binWeight; rw [hN'.vsum]
  rw [hvs, zero_add, zero_add] at m5
  have hbd := m5.bound (by unfold binItems; rw [List.length_map]; omega) hW0
  rw [abs_le]
  constructor <;> linarith [hbd.1, hbd.2]

/-- The weights of a bin after the normalisation. -/
theorem bin_sums {s : Sample ℝ} {dist : List F64} {w : ℕ → ℝ} {idx : List ℕ} (hN : Node s dist w idx) (hne : idx ≠ []) (hb : Binary s idx) {f : Feature ℝ}
    {c : Bin ℝ} {m : List (Int × ℝ)} (hm : BinMap s w f idx c m) {T : ℝ} (hT0 : 0 < T) (hT : |T - (idx.map w).sum| ≤ 3 / 10 ^ 9 * (idx.map w).sum)
    (hpm : PM (normR T m)) :
    GM (normR T m) ∧ |vsum (normR T m) - binWeight w f idx c / (idx.map w).sum| ≤ binErr w f idx (idx.map w).sum c ∧
      |ssum (normR T m) - binSigned s w f idx c / (idx.map w).sum| ≤ binErr w f idx (idx.map w).sum c := by
  have hW := hN.wpos hne
  obtain ⟨c0, c1⟩ := binWeight_le hN f c
  have hbs : |binSigned s w f idx c| ≤ binWeight w f idx c := abs_signedWeight (hb.filter _) fun i hi => hN.nonneg i (List.mem_filter.mp hi).1
  have hbt := binMap_total hN hm
  set W := (idx.map w).sum with hWdef
  set C := binWeight w f idx c with hC
  have hT' := abs_le.mp hT
  have hTW : W ≤ 101 / 100 * T := by linarith
  have hlen := signs_few hm.signs hm.keys
  have hu := u_small
  have hu0 := u_pos
  have hη := eta_tiny
  have hη0 := eta_pos
  have hlr : (m.length : ℝ) ≤ 2 := by exact_mod_cast hlen
  have hv0 := hm.pos.vsum_nonneg
  obtain ⟨n1, n2⟩ := normR_near hT0 m hm.signs hm.pos.nonneg
  have hCW : C / W ≤ 1 := (div_le_one hW).mpr c1
  have hCW0 : 0 ≤ C / W := div_nonneg c0 hW.le
  have hCT : C / T ≤ 101 / 100 * (C / W) := by
    rw [div_le_iff₀ hT0]
    have h1 : C / W * W = C := div_mul_cancel₀ C hW.ne'
    nlinarith [mul_le_mul_of_nonneg_left hTW hCW0]
  have hvT : vsum m / T ≤ 202 / 100 * (C / W) := by
    calc vsum m / T ≤ 2 * C / T := by gcongr; exact hm.weight
      _ = 2 * (C / T) := by ring
      _ ≤ _ := by linarith
  have hvT0 : 0 ≤ vsum m / T := div_nonneg hv0 hT0.le
  have hround : u * (vsum m / T) + m.length * eta ≤ 1 / 10 ^ 15 * (C / W) + 1 / 10 ^ 15 := by
    have h1 : u * (vsum m / T) ≤ 1 / 9000000000000000 * (202 / 100 * (C / W)) := by gcongr
    have h2 : (m.length : ℝ) * eta ≤ 2 * (1 / 10 ^ 60) := by gcongr
    have h3 : (1 / 9000000000000000 * (202 / 100 * (C / W)) : ℝ) ≤ 1 / 10 ^ 15 * (C / W) := by nlinarith
    have h4 : (2 * (1 / 10 ^ 60) : ℝ) ≤ 1 / 10 ^ 15 := by norm_num
    linarith
  have key : ∀ x X : ℝ, |x - X| ≤ 1 / 10 ^ 9 * C → |X| ≤ C → ∀ y, |y - x / T| ≤ 1 / 10 ^ 15 * (C / W) + 1 / 10 ^ 15 → |y - X / W| ≤ binErr w f idx W c := by
    intro x X hx hX y hy
    have s1 : |x / T - X / T| ≤ 1 / 10 ^ 9 * (101 / 100 * (C / W)) := by
      rw [← sub_div, abs_div, abs_of_pos hT0]
      calc |x - X| / T ≤ 1 / 10 ^ 9 * C / T := by gcongr
        _ = 1 / 10 ^ 9 * (C / T) := by ring
        _ ≤ _ := by gcongr
    have s2 : |X / T - X / W| ≤ 3 / 10 ^ 9 * (101 / 100 * (C / W)) := by
      rw [show X / T - X / W = X / T * (-(T - W) / W) by field_simp; ring, abs_mul, abs_div, abs_div, abs_neg, abs_of_pos hT0, abs_of_pos hW]
      have h1 : |T - W| / W ≤ 3 / 10 ^ 9 := by rw [div_le_iff₀ hW]; exact hT
      calc |X| / T * (|T - W| / W) ≤ C / T * (3 / 10 ^ 9) := by gcongr
        _ ≤ 101 / 100 * (C / W) * (3 / 10 ^ 9) := by gcongr
        _ = _ := by ring
    have a2 := abs_le.mp hy
    have a3 := abs_le.mp s1
    have a4 := abs_le.mp s2
    have hfin : ((1 / 10 ^ 15 * (C / W) + 1 / 10 ^ 15) + 1 / 10 ^ 9 * (101 / 100 * (C / W)) + 3 / 10 ^ 9 * (101 / 100 * (C / W)) : ℝ) ≤
        1 / 10 ^ 8 * (C / W) + 1 / 10 ^ 13 := by nlinarith
    unfold binErr
    rw [abs_le]
    constructor <;> linarith [a2.1, a2.2, a3.1, a3.2, a4.1, a4.2]
  refine ⟨⟨fun p hp => ⟨hpm.nonneg p hp, (hpm p hp).2⟩, normR_signs hm.signs, ?_⟩, ?_, ?_⟩
  · rw [show (normR T m).map Prod.fst = m.map Prod.fst by unfold normR; rw [List.map_map]; rfl]
    exact hm.keys
  · exact key _ _ hbt (by rw [abs_of_nonneg c0]) _ (n2.trans hround)
  · exact key _ _ (hm.signed.trans (mul_le_mul_of_nonneg_right (by norm_num) c0)) hbs _ (n1.trans hround)

/-! ## The score of a split -/

/-- A map whose labels weigh what they should. -/
def LabNear (m : List (Int × ℝ)) (B S e : ℝ) : Prop := |lab m 1 - (B + S) / 2| ≤ e ∧ |lab m (-1) - (B - S) / 2| ≤ e

theorem LabNear.sums {m : List (Int × ℝ)} (hm : GM m) {B S e : ℝ} (h : LabNear m B S e) : |vsum m - B| ≤ 2 * e ∧ |ssum m - S| ≤ 2 * e := by
  obtain ⟨h1, h2⟩ := lab_sums hm.signs
  have a := abs_le.mp h.1
  have b := abs_le.mp h.2
  rw [h1, h2]
  constructor <;> rw [abs_le] <;> constructor <;> linarith [a.1, a.2, b.1, b.2]

theorem LabNear.of_sums {m : List (Int × ℝ)} (hm : GM m) {B S e : ℝ} (h1 : |vsum m - B| ≤ e) (h2 : |ssum m - S| ≤ e) : LabNear m B S e := by
  obtain ⟨e1, e2⟩ := lab_sums hm.signs
  rw [e1] at h1
  rw [e2] at h2
  have a := abs_le.mp h1
  have b := abs_le.mp h2
  constructor <;> rw [abs_le] <;> constructor <;> linarith [a.1, a.2, b.1, b.2]

theorem score_near {lm rm : List (Int × ℝ)} (hl : GM lm) (hr : GM rm) {B S S0 e ls ω : ℝ} (he0 : 0 ≤ e) (he : e ≤ 1 / 10 ^ 6) (hS : |S| ≤ B) (hS' : |S0 - S| ≤ 1 - B)
    (h1 : LabNear lm B S e) (h2 : LabNear rm (1 - B) (S0 - S) e) (hls : |ls - B| ≤ e) (hω : |ω - 1| ≤ e) {il ir : F64} (hil : Gini (toM lm) il)
    (hir : Gini (toM rm) ir) :
    ∃ σ, F64.add (F64.mul (F64.div (fin ls) (fin ω)) il) (F64.mul (F64.fmax (F64.sub (fin 1) (F64.div (fin ls) (fin ω))) (fin 0)) ir) = fin σ ∧
      |σ - (gw B S + gw (1 - B) (S0 - S))| ≤ 18 * e + 9 / 10 ^ 8 := by
  have hB0 : 0 ≤ B := (abs_nonneg _).trans hS
  have hB1 : B ≤ 1 := by linarith [(abs_nonneg _).trans hS']
  obtain ⟨v1, s1⟩ := h1.sums hl
  obtain ⟨v2, s2⟩ := h2.sums hr
  have v1' := abs_le.mp v1
  have v2' := abs_le.mp v2
  have hls' := abs_le.mp hls
  have hω' := abs_le.mp hω
  have he1 : e ≤ 1 / 1000 := he.trans (by norm_num)
  obtain ⟨ρl, rfl, l0, l1, l2⟩ := gini_near hl (by linarith) hil
  obtain ⟨ρr, rfl, r0, r1, r2⟩ := gini_near hr (by linarith) hir
  have hω0 : 0 < ω := by linarith
  -- the quotient
  have hq : |ls / ω - B| ≤ 201 / 100 * e := by
    have : ls / ω - B = ((ls - B) - B * (ω - 1)) / ω := by field_simp; ring
    rw [this, abs_div, abs_of_pos hω0, div_le_iff₀ hω0]
    have h3 : |ls - B - B * (ω - 1)| ≤ e + 1 * e := by
      refine (abs_sub _ _).trans (add_le_add hls ?_)
      rw [abs_mul, abs_of_nonneg hB0]
      gcongr
    nlinarith
  have hq' := abs_le.mp hq
  obtain ⟨q1, q2⟩ := rnd_approx (z := ls / ω) (by rw [abs_le]; constructor <;> linarith)
  have q2' := abs_le.mp q2
  have hdiv : F64.div (fin ls) (fin ω) = fin (F64.round (ls / ω)) := by rw [F64.div, if_neg hω0.ne', q1]
  rw [hdiv]
  set lp := F64.round (ls / ω) with hlp
  have ht : (1 / 10 ^ 13 : ℝ) ≤ 1 / 1000 := by norm_num
  have hlpB : |lp - B| ≤ 201 / 100 * e + 1 / 10 ^ 13 := by rw [abs_le]; constructor <;> linarith
  have hlpB' := abs_le.mp hlpB
  obtain ⟨w1, w2⟩ := rnd_approx (z := 1 + -lp) (by rw [abs_le]; constructor <;> linarith)
  rw [F64.sub, F64.neg, F64.add, w1]
  rw [show F64.fmax (fin (F64.round (1 + -lp))) (fin 0) = fin (max (F64.round (1 + -lp)) 0) from rfl]
  set rp := max (F64.round (1 + -lp)) 0 with hrp
  have hrpB : |rp - (1 - B)| ≤ 201 / 100 * e + 2 / 10 ^ 13 := by
    have e0 : 1 - B = max (1 - B) 0 := (max_eq_left (by linarith)).symm
    rw [hrp, e0]
    refine (abs_max_sub_max_le_abs _ _ _).trans ?_
    have := abs_le.mp w2
    rw [abs_le]
    constructor <;> linarith [this.1, this.2]
  have hrpB' := abs_le.mp hrpB
  -- one product
  have side : ∀ (p V S V0 S0 ρ : ℝ), |p - V0| ≤ 201 / 100 * e + 2 / 10 ^ 13 → |V - V0| ≤ 2 * e → |S - S0| ≤ 2 * e → |S| ≤ V → |S0| ≤ V0 → V0 ≤ 1 → 0 ≤ ρ → ρ ≤ 1 →
      |V * ρ - gw V S| ≤ 4 / 10 ^ 8 → ∃ y, F64.mul (fin p) (fin ρ) = fin y ∧ |y - gw V0 S0| ≤ 9 * e + 41 / 10 ^ 9 := by
    intro p V S V0 S0 ρ a1 a2 a3 a4 a5 a6 a7 a8 a9
    have a1' := abs_le.mp a1
    have a2' := abs_le.mp a2
    have b0 : 0 ≤ V0 := (abs_nonneg _).trans a5
    have hpρ : |p * ρ| ≤ 2 := by
      rw [abs_mul, abs_of_nonneg a7]
      have : |p| ≤ 2 := by rw [abs_le]; constructor <;> linarith
      calc |p| * ρ ≤ 2 * 1 := by gcongr
        _ = 2 := by norm_num
    obtain ⟨x1, x2⟩ := rnd_approx (z := p * ρ) (hpρ.trans (by norm_num))
    refine ⟨_, by rw [F64.mul, x1], ?_⟩
    have c1 := gw_lip a4 a5
    have c2 : |p * ρ - V * ρ| ≤ 401 / 100 * e + 2 / 10 ^ 13 := by
      rw [← sub_mul, abs_mul, abs_of_nonneg a7]
      have : |p - V| ≤ 401 / 100 * e + 2 / 10 ^ 13 := by rw [abs_le]; constructor <;> linarith
      calc |p - V| * ρ ≤ (401 / 100 * e + 2 / 10 ^ 13) * 1 := by gcongr
        _ = _ := by ring
    have d1 := abs_le.mp (c1.trans (add_le_add a2 a3))
    have d2 := abs_le.mp c2
    have d3 := abs_le.mp x2
    have d4 := abs_le.mp a9
    rw [abs_le]
    norm_num at d1 d2 d3 d4 ⊢
    constructor <;> linarith [d1.1, d1.2, d2.1, d2.2, d3.1, d3.2, d4.1, d4.2]
  obtain ⟨yl, y1, y2⟩ := side lp _ _ B S ρl (hlpB.trans (by norm_num)) v1 s1 hl.abs_ssum hS hB1 l0 l1 l2
  obtain ⟨yr, y3, y4⟩ := side rp _ _ (1 - B) (S0 - S) ρr hrpB v2 s2 hr.abs_ssum hS' (by linarith) r0 r1 r2
  rw [y1, y3]
  have hgw : ∀ V S : ℝ, |S| ≤ V → 0 ≤ gw V S ∧ gw V S ≤ V := by
    intro V S h
    have h0 : 0 ≤ V := (abs_nonneg _).trans h
    have h2 : S ^ 2 ≤ V ^ 2 := sq_le_sq' (by linarith [(abs_le.mp h).1]) (abs_le.mp h).2
    have h3 : S ^ 2 / V ≤ V := by
      rcases h0.eq_or_lt with hz | hz
      · rw [← hz]; simp
      · rw [div_le_iff₀ hz]; nlinarith
    have h4 : 0 ≤ S ^ 2 / V := by positivity
    unfold gw
    constructor <;> linarith
  obtain ⟨g1, g2⟩ := hgw B S hS
  obtain ⟨g3, g4⟩ := hgw (1 - B) (S0 - S) hS'
  have y2' := abs_le.mp y2
  have y4' := abs_le.mp y4
  have hsum : |yl + yr| ≤ 3 := by
    rw [abs_le]
    norm_num at y2' y4' he ⊢
    constructor <;> linarith [y2'.1, y2'.2, y4'.1, y4'.2]
  obtain ⟨z1, z2⟩ := rnd_approx (z := yl + yr) (hsum.trans (by norm_num))
  have z2' := abs_le.mp z2
  refine ⟨F64.round (yl + yr), by rw [F64.add, z1], ?_⟩
  rw [abs_le]
  norm_num at y2' y4' z2' ⊢
  constructor <;> linarith [y2'.1, y2'.2, y4'.1, y4'.2, z2'.1, z2'.2]

/-! ## The scan -/

/-- The share of the label `y` that is not below `a`. -/
noncomputable def restOf (s : Sample ℝ) (w : ℕ → ℝ) (f : Feature ℝ) (idx : List ℕ) (a : ℝ) (y : Int) : ℝ :=
  (1 - wbelow w f idx a / (idx.map w).sum + y * (signedWeight s w idx / (idx.map w).sum - below s w f idx a / (idx.map w).sum)) / 2

open Classical in
theorem gini_scan {s : Sample ℝ} {dist : List F64} {w : ℕ → ℝ} {idx : List ℕ} (hN : Node s dist w idx) (hne : idx ≠ []) (hb : Binary s idx) {f : Feature ℝ} {T : ℝ}
    {m : Bin ℝ → List (Int × ℝ)} {κ : Bin ℝ → ℝ} {e ω : ℝ} (he : e ≤ 1 / 10 ^ 6) (hω : |ω - 1| ≤ e) :
    ∀ (cs : List (Bin ℝ)) (pack : List (Bin F64 × LabelMap F64)) (a : ℝ) (lm rm : List (Int × ℝ)) (ls z t err : ℝ) (o : Option (F64 × F64)),
      (∀ c ∈ cs, GM (normR T (m c)) ∧ |vsum (normR T (m c)) - binWeight w f idx c / (idx.map w).sum| ≤ κ c ∧
        |ssum (normR T (m c)) - binSigned s w f idx c / (idx.map w).sum| ≤ κ c) →
      (∀ c ∈ cs, 1 / 10 ^ 13 ≤ κ c ∧ κ c ≤ 1) → List.Forall₂ (Entry f idx T m) cs pack → Chained f idx a cs → GM lm → GM rm → 0 ≤ err →
      LabNear lm (wbelow w f idx a / (idx.map w).sum) (below s w f idx a / (idx.map w).sum) err →
      LabNear rm (1 - wbelow w f idx a / (idx.map w).sum) (signedWeight s w idx / (idx.map w).sum - below s w f idx a / (idx.map w).sum) err →
      |ls - wbelow w f idx a / (idx.map w).sum| ≤ err → err + 3 * (cs.map κ).sum ≤ e →
      ImpurityLoop moveGini Gini (fin ω) pack ⟨toM lm, fin ls, toM rm, fin z, fin t⟩ o → |z - impurity s w f idx t| ≤ 18 * e + 9 / 10 ^ 8 →
      ((∃ r, o = some r) ∨ ∀ c ∈ cs, ∀ p ∈ normR T (m c), e < restOf s w f idx c.start p.1) →
      ∃ z' t', o = some (fin t', fin z') ∧ |z' - impurity s w f idx t'| ≤ 18 * e + 9 / 10 ^ 8 ∧ z' ≤ z ∧
        ∀ c ∈ cs, z' ≤ impurity s w f idx c.stop + (18 * e + 9 / 10 ^ 8) := by
  intro cs
  induction cs with
  | nil =>
    intro pack a lm rm ls z t err o _ _ hF _ _ _ _ _ _ _ _ hL hz _
    cases hF
    exact ⟨z, t, hL, hz, le_rfl, by simp⟩
  | cons c cs ih =>
    intro pack a lm rm ls z t err o hd hκ hF hC hlm hrm herr0 n1 n2 n3 hErr hL hz hsafe
    obtain ⟨q, pack, rfl⟩ : ∃ q l, pack = q :: l := by cases hF; exact ⟨_, _, rfl⟩
    rw [List.forall₂_cons] at hF
    obtain ⟨⟨hq, tc, ht1, ht2⟩, hF⟩ := hF
    obtain ⟨bin, map⟩ := q
    simp only at hq ht1
    subst hq
    obtain ⟨g1, g2, g3, g4⟩ := hC
    obtain ⟨k1, k2⟩ := hκ c (by simp)
    obtain ⟨d1, d2, d3⟩ := hd c (by simp)
    rw [List.map_cons, List.sum_cons] at hErr
    have hW := hN.wpos hne
    have hsum0 : 0 ≤ (cs.map κ).sum := List.sum_nonneg (by
      simp only [List.mem_map]
      rintro _ ⟨b, hb', rfl⟩
      have := (hκ b (List.mem_cons_of_mem _ hb')).1
      exact le_trans (by norm_num) this)
    have hκ0 : 0 ≤ κ c := le_trans (by norm_num) k1
    have hbefore : ∀ i ∈ idx, f.val i < c.start ↔ f.val i < a := by
      intro i hi
      constructor
      · intro h
        by_contra hcon
        exact g3 i hi ⟨not_lt.mp hcon, h⟩
      · intro h; exact h.trans_le g1
    have hBstep : wbelow w f idx c.stop / (idx.map w).sum = wbelow w f idx a / (idx.map w).sum + binWeight w f idx c / (idx.map w).sum := by
      rw [wbelow_step g2.le, wbelow_congr hbefore, add_div]
    have hSstep : below s w f idx c.stop / (idx.map w).sum = below s w f idx a / (idx.map w).sum + binSigned s w f idx c / (idx.map w).sum := by
      rw [below_step g2.le, below_congr hbefore, add_div]
    obtain ⟨sa1, sa2⟩ := sides hN hne hb f a
    obtain ⟨sc1, sc2⟩ := sides hN hne hb f c.stop
    set B := wbelow w f idx a / (idx.map w).sum
    set S := below s w f idx a / (idx.map w).sum
    set B' := wbelow w f idx c.stop / (idx.map w).sum with hB'
    set S' := below s w f idx c.stop / (idx.map w).sum with hS'
    set S0 := signedWeight s w idx / (idx.map w).sum with hS0
    set b := binWeight w f idx c / (idx.map w).sum
    set d := binSigned s w f idx c / (idx.map w).sum
    have hB0 := (abs_nonneg _).trans sa1
    have hB1 := (abs_nonneg _).trans sa2
    have hB'0 := (abs_nonneg _).trans sc1
    have hB'1 := (abs_nonneg _).trans sc2
    have he1 : e ≤ 1 / 1000 := he.trans (by norm_num)
    have herr1 : err ≤ 1 / 1000 := by linarith
    have hk3 : κ c ≤ 1 / 1000 := by linarith
    obtain ⟨map', hperm, hL⟩ := hL
    obtain ⟨l, hl, rfl⟩ := perm_toM hperm
    have hgl : GM l := d1.perm hl
    rw [← vsum_perm hl] at d2
    rw [← ssum_perm hl] at d3
    have hln : LabNear l b d (κ c) := .of_sums hgl d2 d3
    have hlen := hgl.few
    have hlr : (l.length : ℝ) ≤ 2 := by exact_mod_cast hlen
    have d2' := abs_le.mp d2
    have sa1' := abs_le.mp sa1
    have sa2' := abs_le.mp sa2
    have sc1' := abs_le.mp sc1
    have sc2' := abs_le.mp sc2
    have n11 := abs_le.mp n1.1
    have n12 := abs_le.mp n1.2
    have n21 := abs_le.mp n2.1
    have n22 := abs_le.mp n2.2
    have n3' := abs_le.mp n3
    have hb1 : b ≤ 1 := by linarith
    have hlab : ∀ y : Int, y = 1 ∨ y = -1 → lab lm y ≤ 10 ∧ lab rm y ≤ 10 := by
      rintro y (rfl | rfl)
      · constructor <;> linarith
      · constructor <;> linarith
    have hlt : ∀ p ∈ l, p.2 ≤ 3 ∧ lab lm p.1 ≤ 10 ∧ lab rm p.1 ≤ 10 := by
      intro p hp
      refine ⟨?_, hlab p.1 (hgl.signs p hp)⟩
      have hnn : ∀ x ∈ l.map Prod.snd, 0 ≤ x := by
        simp only [List.mem_map]; rintro _ ⟨q, hq, rfl⟩; exact (hgl.vals q hq).1
      have : p.2 ≤ vsum l := List.single_le_sum hnn _ (List.mem_map.mpr ⟨p, hp, rfl⟩)
      linarith
    cases hmove : moveGini (toM l) ⟨toM lm, fin ls, toM rm, fin z, fin t⟩ with
    | none =>
      exfalso
      rw [hmove] at hL
      rcases hsafe with ⟨r, rfl⟩ | hsafe
      · cases hL
      · have hkeys : (toM l).map Prod.fst = l.map Prod.fst := toM_fst l
        obtain ⟨st', hst'⟩ := moveGini_alive (toM l) ⟨toM lm, fin ls, toM rm, fin z, fin t⟩ (by rw [hkeys]; exact hgl.keys) (by
          intro p hp
          obtain ⟨q, hq, rfl⟩ := List.mem_map.mp hp
          refine get?_of_lab (ne_of_gt ?_)
          have hr := hsafe c (by simp) q (hl.mem_iff.mp hq)
          unfold restOf at hr
          rw [wbelow_congr hbefore, below_congr hbefore] at hr
          rcases hgl.signs q hq with e1 | e1 <;> simp only [e1] at hr ⊢ <;> push_cast at hr <;> linarith)
        rw [hst'] at hmove
        cases hmove
    | some st' =>
      rw [hmove] at hL
      obtain ⟨lm', rm', ls', rfl, m2, m3, m4, m5, m6, -⟩ := moveGini_near l lm rm _ st' ls hgl hlm hrm rfl rfl rfl hlt (by
        have : |ls| ≤ 2 := by rw [abs_le]; constructor <;> linarith
        linarith) hmove
      obtain ⟨il, ir, hil, hir, hL⟩ := hL
      simp only at hil hir hL
      have hl1 := abs_le.mp hln.1
      have hl2 := abs_le.mp hln.2
      have htiny : (l.length : ℝ) * (1 / 10 ^ 13) ≤ 2 * κ c := by
        calc (l.length : ℝ) * (1 / 10 ^ 13) ≤ 2 * (1 / 10 ^ 13) := by gcongr
          _ ≤ _ := by gcongr
      have p1 : LabNear lm' B' S' (err + 3 * κ c) := by
        have a1 := abs_le.mp (m4 1)
        have a2 := abs_le.mp (m4 (-1))
        rw [hBstep, hSstep]
        constructor <;> rw [abs_le] <;> constructor <;> linarith [a1.1, a1.2, a2.1, a2.2, hl1.1, hl1.2, hl2.1, hl2.2]
      have lip : ∀ x y : ℝ, 0 ≤ y → |max 0 x - y| ≤ |x - y| := by
        intro x y hy
        rw [max_comm]
        conv_lhs => rw [show y = max y 0 from (max_eq_left hy).symm]
        exact abs_max_sub_max_le_abs _ _ _
      have p2 : LabNear rm' (1 - B') (S0 - S') (err + 3 * κ c) := by
        have q1 : |lab rm 1 - lab l 1 - (1 - B' + (S0 - S')) / 2| ≤ err + κ c := by
          rw [hBstep, hSstep, abs_le]
          constructor <;> linarith [hl1.1, hl1.2]
        have q2 : |lab rm (-1) - lab l (-1) - (1 - B' - (S0 - S')) / 2| ≤ err + κ c := by
          rw [hBstep, hSstep, abs_le]
          constructor <;> linarith [hl2.1, hl2.2]
        have a1 := abs_le.mp (m5 1)
        have a2 := abs_le.mp (m5 (-1))
        have c1 := abs_le.mp ((lip _ _ (by linarith)).trans q1)
        have c2 := abs_le.mp ((lip _ _ (by linarith)).trans q2)
        constructor <;> rw [abs_le] <;> constructor <;> linarith [a1.1, a1.2, a2.1, a2.2, c1.1, c1.2, c2.1, c2.2]
      have p3 : |ls' - B'| ≤ err + 3 * κ c := by
        have a1 := abs_le.mp m6
        rw [hBstep, abs_le]
        constructor <;> linarith [a1.1, a1.2]
      have hle : err + 3 * κ c ≤ e := by linarith
      obtain ⟨σ, w1, w2⟩ := score_near m2 m3 (by linarith) he sc1 sc2 ⟨p1.1.trans hle, p1.2.trans hle⟩ ⟨p2.1.trans hle, p2.2.trans hle⟩ (p3.trans hle) hω hil hir
      have himp : gw B' S' + gw (1 - B') (S0 - S') = impurity s w f idx c.stop := rfl
      rw [himp] at w2
      have w2' := abs_le.mp w2
      rw [w1] at hL
      have hd' : ∀ c ∈ cs, GM (normR T (m c)) ∧ |vsum (normR T (m c)) - binWeight w f idx c / (idx.map w).sum| ≤ κ c ∧
        |ssum (normR T (m c)) - binSigned s w f idx c / (idx.map w).sum| ≤ κ c := fun b hb' => hd b (List.mem_cons_of_mem _ hb')
      have hκ' : ∀ c ∈ cs, 1 / 10 ^ 13 ≤ κ c ∧ κ c ≤ 1 := fun b hb' => hκ b (List.mem_cons_of_mem _ hb')
      have hsafe' : (∃ r, o = some r) ∨ ∀ c ∈ cs, ∀ p ∈ normR T (m c), e < restOf s w f idx c.start p.1 :=
        hsafe.imp_right fun h b hb' => h b (List.mem_cons_of_mem _ hb')
      by_cases hltz : σ < z
      · rw [if_pos (show F64.Lt (fin σ) (fin z) from hltz), ht1] at hL
        obtain ⟨z', t', e1, e2, e3, e4⟩ := ih pack c.stop lm' rm' ls' σ tc (err + 3 * κ c) o hd' hκ' hF g4 m2 m3 (by linarith) p1 p2 p3 (by linarith) hL
          (by rw [impurity_congr ht2]; exact w2) hsafe'
        refine ⟨z', t', e1, e2, by linarith, fun b hb' => ?_⟩
        rcases List.mem_cons.mp hb' with rfl | hb'
        · linarith [w2'.2]
        · exact e4 b hb'
      · rw [if_neg (show ¬ F64.Lt (fin σ) (fin z) from hltz)] at hL
        obtain ⟨z', t', e1, e2, e3, e4⟩ := ih pack c.stop lm' rm' ls' z t (err + 3 * κ c) o hd' hκ' hF g4 m2 m3 (by linarith) p1 p2 p3 (by linarith) hL hz hsafe'
        refine ⟨z', t', e1, e2, e3, fun b hb' => ?_⟩
        rcases List.mem_cons.mp hb' with rfl | hb'
        · linarith [w2'.2, not_lt.mp hltz]
        · exact e4 b hb'

/-! ## The whole search -/

theorem used_cover {f : Feature ℝ} {idx : List ℕ} {z : ℝ} : ∀ (rb : List (Bin ℝ)) (a : ℝ), Tiles a rb z → ∀ β ∈ rb,
    (∀ i ∈ idx, f.val i < β.stop ↔ f.val i < a) ∨ ∃ c ∈ usedBins f idx rb, ∀ i ∈ idx, f.val i < β.stop ↔ f.val i < c.stop := by
  intro rb
  induction rb with
  | nil => intro a _ β hβ; cases hβ
  | cons b rb ih =>
    rintro a ⟨h1, h2, h3⟩ β hβ
    subst h1
    rcases usedBins_cons (f := f) (idx := idx) (b := b) (rb := rb) with ⟨-, e⟩ | ⟨he, e⟩ <;> rw [e]
    · rcases List.mem_cons.mp hβ with rfl | hβ
      · exact Or.inr ⟨β, by simp, fun _ _ => Iff.rfl⟩
      · rcases ih b.stop h3 β hβ with h | ⟨c, hc, h⟩
        · exact Or.inr ⟨b, by simp, h⟩
        · exact Or.inr ⟨c, List.mem_cons_of_mem _ hc, h⟩
    · have hstep : ∀ i ∈ idx, f.val i < b.stop ↔ f.val i < b.start := fun i hi => by
        constructor
        · intro h
          by_contra hcon
          exact he i hi (contains_iff.mpr ⟨not_lt.mp hcon, h⟩)
        · intro h; exact h.trans h2
      rcases List.mem_cons.mp hβ with rfl | hβ
      · exact Or.inl hstep
      · rcases ih b.stop h3 β hβ with h | h
        · exact Or.inl fun i hi => (h i hi).trans (hstep i hi)
        · exact Or.inr h

theorem usedBins_wtotal {w : ℕ → ℝ} {f : Feature ℝ} {idx : List ℕ} {z : ℝ} : ∀ (rb : List (Bin ℝ)) (a : ℝ), Tiles a rb z →
    wbelow w f idx z = wbelow w f idx a + ((usedBins f idx rb).map (binWeight w f idx)).sum := by
  intro rb
  induction rb with
  | nil =>
    intro a h
    rw [show a = z from h]
    simp [usedBins]
  | cons b rb ih =>
    rintro a ⟨h1, h2, h3⟩
    subst h1
    have hstep := wbelow_step (w := w) (f := f) (idx := idx) h2.le
    have := ih b.stop h3
    rcases usedBins_cons (f := f) (idx := idx) (b := b) (rb := rb) with ⟨-, e⟩ | ⟨he, e⟩ <;> rw [e]
    · rw [List.map_cons, List.sum_cons, this, hstep]; ring
    · have h0 : binWeight w f idx b = 0 := by
        unfold binWeight
        rw [List.filter_eq_nil_iff.mpr he]
        rfl
      rw [this, hstep, h0, add_zero]

theorem entries_maps {f : Feature ℝ} {idx : List ℕ} {T : ℝ} {m : Bin ℝ → List (Int × ℝ)} : ∀ {cs : List (Bin ℝ)} {pack : List (Bin F64 × LabelMap F64)},
    List.Forall₂ (Entry f idx T m) cs pack → pack.map Prod.snd = (cs.map fun c => normR T (m c)).map toM := by
  intro cs
  induction cs with
  | nil => intro pack h; cases h; rfl
  | cons c cs ih =>
    intro pack h
    obtain ⟨q, pack, rfl⟩ : ∃ q l, pack = q :: l := by cases h; exact ⟨_, _, rfl⟩
    rw [List.forall₂_cons] at h
    rw [List.map_cons, List.map_cons, List.map_cons, ih h.2, h.1.1]

theorem flatten_sums {g : Bin ℝ → List (Int × ℝ)} {κ x y : Bin ℝ → ℝ} : ∀ (cs : List (Bin ℝ)), (∀ c ∈ cs, |vsum (g c) - x c| ≤ κ c ∧ |ssum (g c) - y c| ≤ κ c) →
    |vsum (cs.map g).flatten - (cs.map x).sum| ≤ (cs.map κ).sum ∧ |ssum (cs.map g).flatten - (cs.map y).sum| ≤ (cs.map κ).sum := by
  intro cs
  induction cs with
  | nil => intro _; simp [vsum_nil, ssum_nil]
  | cons c cs ih =>
    intro h
    obtain ⟨i1, i2⟩ := ih fun d hd => h d (List.mem_cons_of_mem _ hd)
    obtain ⟨j1, j2⟩ := h c (by simp)
    simp only [List.map_cons, List.flatten_cons, List.sum_cons]
    rw [vsum_append, ssum_append]
    have a1 := abs_le.mp i1
    have a2 := abs_le.mp i2
    have a3 := abs_le.mp j1
    have a4 := abs_le.mp j2
    constructor <;> rw [abs_le] <;> constructor <;> linarith [a1.1, a1.2, a2.1, a2.2, a3.1, a3.2, a4.1, a4.2]

theorem binMap_key {s : Sample ℝ} {dist : List F64} {w : ℕ → ℝ} {idx : List ℕ} (hN : Node s dist w idx) {f : Feature ℝ} {b : Bin ℝ} {m : List (Int × ℝ)}
    (hm : BinMap s w f idx b m) {p : Int × ℝ} (hp : p ∈ m) : ∃ i ∈ idx, b.contains (f.val i) = true ∧ asI32 (s.target.getD i 0) = p.1 := by
  have hN' := hN.filter fun i => b.contains (f.val i)
  have hfew := hN'.few
  have hsum := hN'.sum
  obtain ⟨m', m1, -, -, m4, -⟩ := collect_ok (binItems s w f idx b) [] 0 0 (hN'.list _) PM.nil le_rfl (by rw [vsum_nil]; exact Near.refl 0)
    (by unfold binItems; rw [hN'.vsum]; norm_num; linarith) (by unfold binItems; rw [List.length_map]; omega)
  have e : m' = m := toM_inj (by rw [← m1, ← hm.eq]; rfl)
  subst e
  rcases (m4 p.1).mp (List.mem_map.mpr ⟨p, hp, rfl⟩) with h | h
  · obtain ⟨q, hq, hqe⟩ := List.mem_map.mp h
    obtain ⟨i, hi, rfl⟩ := List.mem_map.mp hq
    obtain ⟨h1, h2⟩ := List.mem_filter.mp hi
    exact ⟨i, h1, h2, hqe⟩
  · simp at h

/-- What is left of a label weighs at least as much as each of its rows. -/
theorem restOf_ge {s : Sample ℝ} {dist : List F64} {w : ℕ → ℝ} {idx : List ℕ} (hN : Node s dist w idx) (hne : idx ≠ []) (hb : Binary s idx) {f : Feature ℝ} {a : ℝ} {y : Int}
    {i : ℕ} (hi : i ∈ idx) (ha : a ≤ f.val i) (hy : (y : ℝ) = s.target.getD i 0) : w i / (idx.map w).sum ≤ restOf s w f idx a y := by
  have hW := hN.wpos hne
  have h1 := weight_filter w idx fun i => decide (f.val i < a)
  have h2 := signed_filter s w idx fun i => decide (f.val i < a)
  unfold restOf
  have e : (1 - wbelow w f idx a / (idx.map w).sum + y * (signedWeight s w idx / (idx.map w).sum - below s w f idx a / (idx.map w).sum)) / 2 =
      (((idx.filter fun i => !decide (f.val i < a)).map w).sum + y * signedWeight s w (idx.filter fun i => !decide (f.val i < a))) / 2 / (idx.map w).sum := by
    unfold wbelow below
    rw [← h1] at hW ⊢
    rw [← h2]
    field_simp
    ring
  rw [e]
  gcongr
  have hmem : i ∈ idx.filter fun i => !decide (f.val i < a) := List.mem_filter.mpr ⟨hi, by simpa using ha⟩
  have hN' := hN.filter fun i => !decide (f.val i < a)
  have hb' := hb.filter fun i => !decide (f.val i < a)
  have hyy : (y : ℝ) * y = 1 := by rcases hb i hi with h | h <;> rw [hy, h] <;> norm_num
  have hyabs : (y : ℝ) = 1 ∨ (y : ℝ) = -1 := by rw [hy]; exact hb i hi
  generalize (idx.filter fun i => !decide (f.val i < a)) = l at hmem hN' hb'
  have e2 : ((l.map w).sum + y * signedWeight s w l) / 2 = (l.map fun j => w j * (1 + y * s.target.getD j 0) / 2).sum := by
    unfold signedWeight
    clear hmem hN' hb'
    induction l with
    | nil => simp
    | cons j l ih => simp only [List.map_cons, List.sum_cons] at ih ⊢; rw [← ih]; ring
  rw [e2]
  have hnn : ∀ x ∈ l.map fun j => w j * (1 + y * s.target.getD j 0) / 2, 0 ≤ x := by
    simp only [List.mem_map]
    rintro _ ⟨j, hj, rfl⟩
    have hj0 := hN'.nonneg j hj
    have : 0 ≤ 1 + (y : ℝ) * s.target.getD j 0 := by
      rcases hyabs with h | h <;> rcases hb' j hj with h' | h' <;> rw [h, h'] <;> norm_num
    positivity
  refine le_trans (le_of_eq ?_) (List.single_le_sum hnn _ (List.mem_map.mpr ⟨i, hmem, rfl⟩))
  rw [← hy, hyy]
  ring

/-- `split_by_gini`, when it does not panic — and it does not when no weight is tiny — finds the boundary that leaves the least impurity, up to rounding. -/
theorem splitByGini_near {rb : List (Bin ℝ)} (ht : Tiles (-maxVal) rb maxVal) (hrl : rb.length ≤ 10 ^ 5) (hfine : FineBins rb) {s : Sample ℝ} (hs : SampleOk s)
    {f : Feature ℝ} (hf : f ∈ s.features) (hv : ∀ i < s.nSample, |f.val i| < maxVal) {dist : List F64} {w : ℕ → ℝ} {idx : List ℕ} (hN : Node s dist w idx)
    (hne : idx ≠ []) (hb : Binary s idx) {pack : List (Bin F64 × LabelMap F64)} (h : Pack (rb.map toF) idx f s.target dist (some pack)) {o : Option (F64 × F64)}
    (hr : SplitByGini pack o) (hsafe : (∃ r, o = some r) ∨ ∀ i ∈ idx, 1 / 10 ^ 6 ≤ w i) :
    ∃ z t, o = some (fin t, fin z) ∧ |z - impurity s w f idx t| ≤ 2 / 10 ^ 6 ∧ z ≤ gw 1 (signedWeight s w idx / (idx.map w).sum) + 2 / 10 ^ 6 ∧
      ∀ β ∈ rb, z ≤ impurity s w f idx β.stop + 2 / 10 ^ 6 := by
  obtain ⟨T, m, hT0, hT, hm, hpm, hF⟩ := pack_entries ht hrl hfine hs hf hv hN hne hb h
  obtain ⟨-, hall⟩ := pack_f64 ht hrl hs hf hv hN hne
  obtain ⟨pack', ms, hpk, hsound⟩ := hall _ h
  obtain rfl := Option.some.inj hpk
  have hW := hN.wpos hne
  have hu := u_small
  have hu0 := u_pos
  set W := (idx.map w).sum with hWd
  set cs := usedBins f idx rb with hcs
  have hmaps := entries_maps hF
  have hms : ms = cs.map fun c => normR T (m c) := by
    have e := hsound.maps.symm.trans hmaps
    exact (List.map_injective_iff.mpr fun a b h => toM_inj h) e
  have hsub : ∀ c ∈ cs, c ∈ rb := fun c hc => (List.mem_filter.mp hc).1
  have hd : ∀ c ∈ cs, GM (normR T (m c)) ∧ |vsum (normR T (m c)) - binWeight w f idx c / W| ≤ binErr w f idx W c ∧
      |ssum (normR T (m c)) - binSigned s w f idx c / W| ≤ binErr w f idx W c := fun c hc => bin_sums hN hne hb (hm c) hT0 hT (hpm c (hsub c hc))
  have hκ1 : ∀ c ∈ cs, 1 / 10 ^ 13 ≤ binErr w f idx W c ∧ binErr w f idx W c ≤ 1 := by
    intro c _
    obtain ⟨c0, c1⟩ := binWeight_le hN f c
    have h0 : 0 ≤ binWeight w f idx c / W := div_nonneg c0 hW.le
    have h1 : binWeight w f idx c / W ≤ 1 := (div_le_one hW).mpr c1
    unfold binErr
    constructor <;> nlinarith
  have hchain : Chained f idx (-maxVal) cs := usedBins_chained rb _ ht
  have hclen : cs.length ≤ 10 ^ 5 := (List.length_filter_le _ _).trans hrl
  have hnone : (idx.filter fun i => decide (f.val i < -maxVal)) = [] := List.filter_eq_nil_iff.mpr fun i hi => by
    have := (abs_lt.mp (hv i (hN.row i hi))).1
    simpa using this.le
  have hevery : (idx.filter fun i => decide (f.val i < maxVal)) = idx := List.filter_eq_self.mpr fun i hi => by
    have := (abs_lt.mp (hv i (hN.row i hi))).2
    simpa using this
  have hb0 : below s w f idx (-maxVal) = 0 := by unfold below; rw [hnone]; rfl
  have hb1 : below s w f idx maxVal = signedWeight s w idx := by unfold below; rw [hevery]
  have hw0 : wbelow w f idx (-maxVal) = 0 := by unfold wbelow; rw [hnone]; rfl
  have hw1 : wbelow w f idx maxVal = W := by unfold wbelow; rw [hevery]
  have hstotal := usedBins_total (s := s) (w := w) (f := f) (idx := idx) rb _ ht
  rw [hb0, hb1, zero_add] at hstotal
  have hwtotal := usedBins_wtotal (w := w) (f := f) (idx := idx) rb _ ht
  rw [hw0, hw1, zero_add] at hwtotal
  have hdivsum : ∀ (g : Bin ℝ → ℝ) (l : List (Bin ℝ)), (l.map fun c => g c / W).sum = (l.map g).sum / W := by
    intro g l
    induction l with
    | nil => simp
    | cons b l ih => simp only [List.map_cons, List.sum_cons, ih]; ring
  have hκsum : (cs.map (binErr w f idx W)).sum ≤ 2 / 10 ^ 8 := by
    have e : ∀ l : List (Bin ℝ), (l.map (binErr w f idx W)).sum = 1 / 10 ^ 8 * ((l.map (binWeight w f idx)).sum / W) + l.length * (1 / 10 ^ 13) := by
      intro l
      induction l with
      | nil => simp
      | cons b l ih =>
        simp only [List.map_cons, List.sum_cons, ih, List.length_cons, binErr]
        push_cast
        ring
    rw [e, ← hwtotal, div_self hW.ne']
    have h2 : (cs.length : ℝ) ≤ 100000 := by exact_mod_cast (hclen.trans (by norm_num) : cs.length ≤ 100000)
    nlinarith
  obtain ⟨f1, f2⟩ := flatten_sums cs fun c hc => (hd c hc).2
  rw [hdivsum, ← hwtotal, div_self hW.ne', ← hms] at f1
  rw [hdivsum, ← hstotal, ← hms] at f2
  have f1' := abs_le.mp (f1.trans hκsum)
  have hV0 : 0 ≤ vsum ms.flatten := hsound.pos.vsum_nonneg
  have hfew := hsound.few
  obtain ⟨ω, rm0, e0, ⟨totals, ht1, rfl⟩, hall, hgini, hL⟩ := hr
  -- the total weight
  rw [hmaps, ← hms] at ht1
  obtain ⟨xs, rfl, x2, x3, x4⟩ := totals_ok ms hsound.pos hfew (by norm_num at f1' ⊢; linarith [f1'.2]) totals ht1
  have xb := x4.bound (by norm_num) hV0
  have hmsl : ms.length ≤ 10 ^ 5 := by rw [hms, List.length_map]; exact hclen
  obtain ⟨Ω, o1, -, o3⟩ := foldl_near0 xs x3 (by norm_num at xb f1' ⊢; linarith [xb.2, f1'.2]) (by omega)
  have ob := o3.bound (by omega) (x4.nonneg hV0)
  have hΩ : |Ω - 1| ≤ 1 / 10 ^ 7 := by
    rw [abs_le]
    norm_num at xb f1' ob ⊢
    constructor <;> linarith [xb.1, xb.2, f1'.1, f1'.2, ob.1, ob.2]
  rw [o1] at hL
  -- the right side
  obtain ⟨ml, hml, rfl⟩ := hall
  rw [hmaps, ← hms] at hml
  have hp : ml.flatten.Perm (toM ms.flatten) := by rw [← toM_flatten]; exact List.Perm.flatten_congr hml
  obtain ⟨fl, hfl, efl⟩ := perm_toM hp
  have hlen := hfl.length_eq
  have hsig : Signs fl := by
    intro p hp
    have := hfl.mem_iff.mp hp
    rw [hms] at this
    obtain ⟨g, hg, hpg⟩ := List.mem_flatten.mp this
    obtain ⟨c, hc, rfl⟩ := List.mem_map.mp hg
    exact (hd c hc).1.signs p hpg
  obtain ⟨rm, r1, r2, -, r4, r5⟩ := collect_ok fl [] 0 0 (hsound.pos.perm hfl) PM.nil le_rfl (by simp [Near, vsum_nil]) (by rw [vsum_perm hfl]; norm_num at f1' ⊢; linarith [f1'.2]) (by omega)
  have mss := collect_ssum fl [] rm 2 0 0 (hsound.pos.perm hfl) hsig PM.nil le_rfl (by simp [Near, vsum_nil]) (by rw [vsum_perm hfl]; norm_num at f1' ⊢; linarith [f1'.2])
    (by norm_num) (by omega) r1
  rw [toM_nil] at r1
  rw [efl, r1] at hgini hL
  have hgrm : GM rm := by
    refine ⟨fun p hp => ⟨r2.nonneg p hp, (r2 p hp).2⟩, fun p hp => ?_, ?_⟩
    · rcases (r4 p.1).mp (List.mem_map.mpr ⟨p, hp, rfl⟩) with h | h
      · obtain ⟨q, hq, hqe⟩ := List.mem_map.mp h
        rw [← hqe]; exact hsig q hq
      · simp at h
    · have := collect_keys (toM fl) (toM []) (by simp [toM])
      rw [toM_nil, r1, toM_fst] at this
      exact this
  rw [zero_add, zero_add, vsum_perm hfl] at r5
  have rb' := r5.bound (by omega) hV0
  rw [ssum_nil, zero_add, ssum_perm hfl] at mss
  have hmss : |ssum rm - ssum ms.flatten| ≤ 1 / 10 ^ 9 := by
    refine mss.trans ?_
    have hk : (fl.length : ℝ) ≤ 100000 := by exact_mod_cast (by omega : fl.length ≤ 100000)
    calc (fl.length : ℝ) * (2 * u * 2) ≤ 100000 * (2 * (1 / 9000000000000000) * 2) := mul_le_mul hk (by linarith) (by positivity) (by norm_num)
      _ ≤ _ := by norm_num
  set S0 := signedWeight s w idx / W with hS0
  have hrv : |vsum rm - 1| ≤ 3 / 10 ^ 8 := by
    rw [abs_le]
    norm_num at f1' rb' ⊢
    constructor <;> linarith [f1'.1, f1'.2, rb'.1, rb'.2]
  have hrs : |ssum rm - S0| ≤ 3 / 10 ^ 8 := by
    have a1 := abs_le.mp hmss
    have a2 := abs_le.mp (f2.trans hκsum)
    rw [abs_le]
    norm_num at a1 a2 ⊢
    constructor <;> linarith [a1.1, a1.2, a2.1, a2.2]
  have hlabr : LabNear rm 1 S0 (3 / 10 ^ 8) := .of_sums hgrm hrv hrs
  obtain ⟨-, hsd⟩ := sides hN hne hb f (-maxVal)
  rw [hw0, hb0, zero_div, sub_zero, sub_zero] at hsd
  have hrv' := abs_le.mp hrv
  obtain ⟨ρ, rfl, p0, p1, p2⟩ := gini_near hgrm (by norm_num at hrv' ⊢; linarith [hrv'.2]) hgini
  have himp0 : impurity s w f idx (-maxVal) = gw 1 S0 := by
    unfold impurity
    rw [hw0, hb0, zero_div, sub_zero, sub_zero]
    unfold gw
    rw [hS0]
    simp
    rfl
  have hz0 : |ρ - gw 1 S0| ≤ 2 / 10 ^ 7 := by
    have c1 := gw_lip hgrm.abs_ssum hsd
    have c2 : |ρ - vsum rm * ρ| ≤ 3 / 10 ^ 8 := by
      rw [show ρ - vsum rm * ρ = -(vsum rm - 1) * ρ by ring, abs_mul, abs_neg, abs_of_nonneg p0]
      calc |vsum rm - 1| * ρ ≤ 3 / 10 ^ 8 * 1 := mul_le_mul hrv p1 p0 (by norm_num)
        _ = _ := by ring
    have a1 := abs_le.mp (c1.trans (add_le_add hrv hrs))
    have a2 := abs_le.mp c2
    have a3 := abs_le.mp p2
    rw [abs_le]
    norm_num at a1 a2 a3 ⊢
    constructor <;> linarith [a1.1, a1.2, a2.1, a2.2, a3.1, a3.2]
  have hz0' := abs_le.mp hz0
  have hsafe' : (∃ r, o = some r) ∨ ∀ c ∈ cs, ∀ p ∈ normR T (m c), 1 / 10 ^ 7 < restOf s w f idx c.start p.1 := by
    refine hsafe.imp_right fun hw c _ p hp => ?_
    obtain ⟨q, hq, hqe⟩ : ∃ q ∈ m c, q.1 = p.1 := by
      obtain ⟨q, hq, rfl⟩ := List.mem_map.mp hp
      exact ⟨q, hq, rfl⟩
    obtain ⟨i, hi, hci, hiy⟩ := binMap_key hN (hm c) hq
    have hstart : c.start ≤ f.val i := by
      unfold Bin.contains at hci
      simp only [Bool.and_eq_true, decide_eq_true_eq] at hci
      exact hci.1
    have hlab : (p.1 : ℝ) = s.target.getD i 0 := by
      rw [← hqe, ← hiy]
      have := asI_sign (hb i hi)
      rw [this.2.2]
      exact this.1
    refine lt_of_lt_of_le ?_ (restOf_ge hN hne hb hi hstart hlab)
    have h1 := hw i hi
    have h2 := hN.sum
    rw [lt_div_iff₀ hW]
    norm_num at h1 h2 ⊢
    linarith
  obtain ⟨z, t, e1, e2, e3, e4⟩ := gini_scan hN hne hb (e := 1 / 10 ^ 7) (by norm_num) hΩ cs pack (-maxVal) [] rm 0 ρ (-maxVal) (3 / 10 ^ 8) o hd hκ1 hF hchain GM.nil hgrm (by norm_num)
    (by rw [hw0, hb0]; constructor <;> rw [lab_nil] <;> norm_num) (by rw [hw0, hb0, zero_div, sub_zero, sub_zero]; exact hlabr) (by rw [hw0]; norm_num)
    (by norm_num at hκsum ⊢; linarith) hL (by rw [himp0]; exact hz0.trans (by norm_num)) hsafe'
  refine ⟨z, t, e1, e2.trans (by norm_num), by norm_num at hz0' ⊢; linarith [hz0'.2], fun β hβ => ?_⟩
  rcases used_cover (f := f) (idx := idx) rb _ ht β hβ with h1 | ⟨c, hc, h1⟩
  · rw [impurity_congr h1, himp0]
    norm_num at hz0' ⊢
    linarith [hz0'.2]
  · rw [impurity_congr h1]
    refine (e4 c hc).trans ?_
    norm_num

end Miniboosts.FTree
