import Verif.Lemmas.FloatEdge

/-! # The scan over the bins for the largest edge, in `f64` -/

namespace Miniboosts.FTree

open Miniboosts F64 Spec

/-! ## The signed weight of one bin -/

theorem rep_sign {z : Int} (h : z = 1 ∨ z = -1) {x : ℝ} (hx : F64.Rep x) : F64.Rep (z * x) := by
  rcases h with rfl | rfl
  · simpa using hx
  · obtain ⟨k, j, h1, h2, rfl⟩ := hx
    exact ⟨-k, j, by rwa [abs_neg], h2, by push_cast; ring⟩

theorem signedSum_near {m : List (Int × ℝ)} (hm : PM m) (hs : Signs m) (hl : m.length ≤ 2) (hv : vsum m ≤ 3) {d : F64} (hd : SignedSum (toM m) d) :
    ∃ δ, d = fin δ ∧ F64.Rep δ ∧ |δ - ssum m| ≤ 1 / 10 ^ 14 := by
  obtain ⟨l, hp, rfl⟩ := hd
  obtain ⟨m', hp', rfl⟩ := perm_toM hp
  have hlen := hp'.length_eq
  have hu := u_small
  have hu0 := u_pos
  have e1 : ((toM m').map fun p => F64.mul (ofInt p.1) p.2) = (m'.map fun p => (p.1 : ℝ) * p.2).map fin := by
    unfold toM
    rw [List.map_map, List.map_map]
    refine List.map_congr_left fun p hpm => ?_
    have hpm' := hp'.mem_iff.mp hpm
    have hz := hs p hpm'
    have hr := rep_sign hz (hm p hpm').2
    have hle := hm.le_vsum hpm'
    have h0 := hm.nonneg p hpm'
    show F64.mul (ofInt p.1) (fin p.2) = fin ((p.1 : ℝ) * p.2)
    rw [ofInt_sign hz, F64.mul, rnd_small (by rw [abs_mul, sign_abs hz, one_mul, abs_of_nonneg h0]; exact (hle.trans hv).trans (by norm_num)), round_of_rep hr]
  rw [e1]
  have habs : ((m'.map fun p => (p.1 : ℝ) * p.2).map (|·|)).sum = vsum m := by
    rw [← vsum_perm hp']
    unfold vsum
    rw [List.map_map]
    congr 1
    refine List.map_congr_left fun p hpm => ?_
    have hpm' := hp'.mem_iff.mp hpm
    show |(p.1 : ℝ) * p.2| = p.2
    rw [abs_mul, sign_abs (hs p hpm'), one_mul, abs_of_nonneg (hm.nonneg p hpm')]
  obtain ⟨x, f1, f2, f3⟩ := foldl_add_err 3 (by norm_num) (by norm_num) (m'.map fun p => (p.1 : ℝ) * p.2) 0 0 0 rep_zero (by simp) (by rw [habs, abs_zero]; linarith)
    (by rw [List.length_map]; omega)
  refine ⟨x, f1, f2, ?_⟩
  rw [zero_add, zero_add, List.length_map, show (m'.map fun p => (p.1 : ℝ) * p.2).sum = ssum m from ssum_perm hp'] at f3
  refine f3.trans ?_
  have hk : (m'.length : ℝ) ≤ 2 := by exact_mod_cast (by omega : m'.length ≤ 2)
  calc 2 * u * 3 * (m'.length : ℝ) ≤ 2 * (1 / 9000000000000000) * 3 * 2 := by gcongr
    _ ≤ _ := by norm_num

theorem normR_signs {T : ℝ} {m : List (Int × ℝ)} (h : Signs m) : Signs (normR T m) := by
  intro p hp
  obtain ⟨q, hq, rfl⟩ := List.mem_map.mp hp
  exact h q hq

theorem normR_near {T : ℝ} (hT : 0 < T) : ∀ (m : List (Int × ℝ)), Signs m → (∀ p ∈ m, 0 ≤ p.2) →
    |ssum (normR T m) - ssum m / T| ≤ u * (vsum m / T) + m.length * eta ∧ |vsum (normR T m) - vsum m / T| ≤ u * (vsum m / T) + m.length * eta := by
  intro m
  induction m with
  | nil => intro _ _; simp [normR, ssum, vsum]
  | cons p m ih =>
    intro hs h0
    obtain ⟨i1, i2⟩ := ih (fun q hq => hs q (List.mem_cons_of_mem _ hq)) fun q hq => h0 q (List.mem_cons_of_mem _ hq)
    have hp := h0 p (by simp)
    have hz := sign_abs (hs p (by simp))
    have hr := round_err (p.2 / T)
    rw [abs_of_nonneg (div_nonneg hp hT.le)] at hr
    have e1 : ssum (normR T (p :: m)) = p.1 * F64.round (p.2 / T) + ssum (normR T m) := rfl
    have e2 : vsum (normR T (p :: m)) = F64.round (p.2 / T) + vsum (normR T m) := rfl
    rw [e1, e2, ssum_cons, vsum_cons, List.length_cons]
    push_cast
    have hsplit : u * ((p.2 + vsum m) / T) = u * (p.2 / T) + u * (vsum m / T) := by ring
    constructor
    · rw [show (p.1 : ℝ) * F64.round (p.2 / T) + ssum (normR T m) - (p.1 * p.2 + ssum m) / T
        = p.1 * (F64.round (p.2 / T) - p.2 / T) + (ssum (normR T m) - ssum m / T) by ring]
      refine (abs_add_le _ _).trans ?_
      rw [abs_mul, hz, one_mul, hsplit]
      linarith
    · rw [show F64.round (p.2 / T) + vsum (normR T m) - (p.2 + vsum m) / T = (F64.round (p.2 / T) - p.2 / T) + (vsum (normR T m) - vsum m / T) by ring]
      refine (abs_add_le _ _).trans ?_
      rw [hsplit]
      linarith

/-- The error made in one bin. -/
noncomputable def binErr (w : ℕ → ℝ) (f : Feature ℝ) (idx : List ℕ) (W : ℝ) (c : Bin ℝ) : ℝ := 1 / 10 ^ 8 * (binWeight w f idx c / W) + 1 / 10 ^ 13

theorem binWeight_le {s : Sample ℝ} {dist : List F64} {w : ℕ → ℝ} {idx : List ℕ} (hN : Node s dist w idx) (f : Feature ℝ) (c : Bin ℝ) :
    0 ≤ binWeight w f idx c ∧ binWeight w f idx c ≤ (idx.map w).sum := by
  have h0 : ∀ (p : ℕ → Bool), 0 ≤ ((idx.filter p).map w).sum := fun p => List.sum_nonneg (by
    simp only [List.mem_map]
    rintro _ ⟨i, hi, rfl⟩
    exact hN.nonneg i (List.mem_filter.mp hi).1)
  have := weight_filter w idx fun i => c.contains (f.val i)
  refine ⟨h0 _, ?_⟩
  have h1 := h0 fun i => !c.contains (f.val i)
  unfold binWeight
  linarith

/-- The signed weight of a bin, computed after the normalisation. -/
theorem bin_near {s : Sample ℝ} {dist : List F64} {w : ℕ → ℝ} {idx : List ℕ} (hN : Node s dist w idx) (hne : idx ≠ []) (hb : Binary s idx) {f : Feature ℝ}
    {c : Bin ℝ} {m : List (Int × ℝ)} (hm : BinMap s w f idx c m) {T : ℝ} (hT0 : 0 < T) (hT : |T - (idx.map w).sum| ≤ 3 / 10 ^ 9 * (idx.map w).sum)
    (hpm : PM (normR T m)) {d : F64} (hd : SignedSum (toM (normR T m)) d) :
    ∃ δ, d = fin δ ∧ F64.Rep δ ∧ |δ - binSigned s w f idx c / (idx.map w).sum| ≤ binErr w f idx (idx.map w).sum c := by
  have hW := hN.wpos hne
  obtain ⟨c0, c1⟩ := binWeight_le hN f c
  have hbs : |binSigned s w f idx c| ≤ binWeight w f idx c := abs_signedWeight (hb.filter _) fun i hi => hN.nonneg i (List.mem_filter.mp hi).1
  set W := (idx.map w).sum with hWdef
  set C := binWeight w f idx c with hC
  have hT' := abs_le.mp hT
  have hTW : W ≤ 101 / 100 * T := by linarith
  have hlen := signs_few hm.signs hm.keys
  have hu := u_small
  have hu0 := u_pos
  have hη := eta_tiny
  have hη0 := eta_pos
  have hlr : (m.length : ℝ) ≤ 2 := by exact_mod_cast hlen
  have hv0 := hm.pos.vsum_nonneg
  obtain ⟨n1, n2⟩ := normR_near hT0 m hm.signs hm.pos.nonneg
  have hCW : C / W ≤ 1 := (div_le_one hW).mpr c1
  have hCW0 : 0 ≤ C / W := div_nonneg c0 hW.le
  have hCT : C / T ≤ 101 / 100 * (C / W) := by
    rw [div_le_iff₀ hT0]
    have h1 : C / W * W = C := div_mul_cancel₀ C hW.ne'
    nlinarith [mul_le_mul_of_nonneg_left hTW hCW0]
  have hvT : vsum m / T ≤ 202 / 100 * (C / W) := by
    calc vsum m / T ≤ 2 * C / T := by gcongr; exact hm.weight
      _ = 2 * (C / T) := by ring
      _ ≤ _ := by linarith
  have hvT0 : 0 ≤ vsum m / T := div_nonneg hv0 hT0.le
  have hround : u * (vsum m / T) + m.length * eta ≤ 1 / 10 ^ 15 * (C / W) + 1 / 10 ^ 15 := by
    have h1 : u * (vsum m / T) ≤ 1 / 9000000000000000 * (202 / 100 * (C / W)) := by gcongr
    have h2 : (m.length : ℝ) * eta ≤ 2 * (1 / 10 ^ 60) := by gcongr
    have h3 : (1 / 9000000000000000 * (202 / 100 * (C / W)) : ℝ) ≤ 1 / 10 ^ 15 * (C / W) := by nlinarith
    have h4 : (2 * (1 / 10 ^ 60) : ℝ) ≤ 1 / 10 ^ 15 := by norm_num
    linarith
  obtain ⟨δ, d1, d2, d3⟩ := signedSum_near hpm (normR_signs hm.signs) (by unfold normR; rw [List.length_map]; exact hlen) (by
    have := (abs_le.mp (n2.trans hround)).2
    have h4 : (1 / 10 ^ 15 * (C / W) + 1 / 10 ^ 15 : ℝ) ≤ 1 / 2 := by nlinarith
    linarith) hd
  refine ⟨δ, d1, d2, ?_⟩
  have s1 : |ssum m / T - binSigned s w f idx c / T| ≤ 1 / 10 ^ 10 * (101 / 100 * (C / W)) := by
    rw [← sub_div, abs_div, abs_of_pos hT0]
    calc |ssum m - binSigned s w f idx c| / T ≤ 1 / 10 ^ 10 * C / T := by gcongr; exact hm.signed
      _ = 1 / 10 ^ 10 * (C / T) := by ring
      _ ≤ _ := by gcongr
  have s2 : |binSigned s w f idx c / T - binSigned s w f idx c / W| ≤ 3 / 10 ^ 9 * (101 / 100 * (C / W)) := by
    rw [show binSigned s w f idx c / T - binSigned s w f idx c / W = binSigned s w f idx c / T * (-(T - W) / W) by field_simp; ring, abs_mul, abs_div, abs_div, abs_neg,
      abs_of_pos hT0, abs_of_pos hW]
    have h1 : |T - W| / W ≤ 3 / 10 ^ 9 := by rw [div_le_iff₀ hW]; exact hT
    calc |binSigned s w f idx c| / T * (|T - W| / W) ≤ C / T * (3 / 10 ^ 9) := by gcongr
      _ ≤ 101 / 100 * (C / W) * (3 / 10 ^ 9) := by gcongr
      _ = _ := by ring
  have a1 := abs_le.mp d3
  have a2 := abs_le.mp (n1.trans hround)
  have a3 := abs_le.mp s1
  have a4 := abs_le.mp s2
  have hfin : (1 / 10 ^ 14 + (1 / 10 ^ 15 * (C / W) + 1 / 10 ^ 15) + 1 / 10 ^ 10 * (101 / 100 * (C / W)) + 3 / 10 ^ 9 * (101 / 100 * (C / W)) : ℝ) ≤
      1 / 10 ^ 8 * (C / W) + 1 / 10 ^ 13 := by nlinarith
  unfold binErr
  rw [abs_le]
  constructor <;> linarith [a1.1, a1.2, a2.1, a2.2, a3.1, a3.2, a4.1, a4.2]

/-! ## The scan -/

/-- The normalised difference between the signed weights on the two sides of `t`. -/
noncomputable def diff (s : Sample ℝ) (w : ℕ → ℝ) (f : Feature ℝ) (idx : List ℕ) (t : ℝ) : ℝ :=
  (signedWeight s w idx - 2 * below s w f idx t) / (idx.map w).sum

theorem diff_congr {s : Sample ℝ} {w : ℕ → ℝ} {f : Feature ℝ} {idx : List ℕ} {t t' : ℝ} (h : ∀ i ∈ idx, f.val i < t ↔ f.val i < t') :
    diff s w f idx t = diff s w f idx t' := by
  unfold diff
  rw [below_congr h]

theorem diff_abs {s : Sample ℝ} {dist : List F64} {w : ℕ → ℝ} {idx : List ℕ} (hN : Node s dist w idx) (hne : idx ≠ []) (hb : Binary s idx) (f : Feature ℝ) (t : ℝ) :
    |diff s w f idx t| ≤ 1 := by
  have hW := hN.wpos hne
  have h1 := signed_filter s w idx fun i => decide (f.val i < t)
  have h2 := weight_filter w idx fun i => decide (f.val i < t)
  have h3 := abs_signedWeight (hb.filter fun i => decide (f.val i < t)) fun i hi => hN.nonneg i (List.mem_filter.mp hi).1
  have h4 := abs_signedWeight (hb.filter fun i => !decide (f.val i < t)) fun i hi => hN.nonneg i (List.mem_filter.mp hi).1
  unfold diff below
  rw [abs_div, abs_of_pos hW, div_le_one hW, abs_le]
  have h3' := abs_le.mp h3
  have h4' := abs_le.mp h4
  constructor <;> linarith [h3'.1, h3'.2, h4'.1, h4'.2]

open Classical in
theorem edge_scan {s : Sample ℝ} {dist : List F64} {w : ℕ → ℝ} {idx : List ℕ} (hN : Node s dist w idx) (hne : idx ≠ []) (hb : Binary s idx) {f : Feature ℝ} {T : ℝ}
    {m : Bin ℝ → List (Int × ℝ)} {κ : Bin ℝ → ℝ} {E : ℝ} (hE : E ≤ 1) :
    ∀ (cs : List (Bin ℝ)) (pack : List (Bin F64 × LabelMap F64)) (a x z t err : ℝ) (r : F64 × F64),
      (∀ c ∈ cs, ∀ d, SignedSum (toM (normR T (m c))) d → ∃ δ, d = fin δ ∧ F64.Rep δ ∧ |δ - binSigned s w f idx c / (idx.map w).sum| ≤ κ c) →
      (∀ c ∈ cs, 1 / 10 ^ 13 ≤ κ c ∧ κ c ≤ 1) → List.Forall₂ (Entry f idx T m) cs pack → Chained f idx a cs → |x - diff s w f idx a| ≤ err →
      err + 4 * (cs.map κ).sum ≤ E → EdgeLoop pack (fin x) (fin z) (fin t) r → |z - (|diff s w f idx t|)| ≤ E →
      ∃ z' t', r = (fin t', fin z') ∧ |z' - (|diff s w f idx t'|)| ≤ E ∧ z ≤ z' ∧ ∀ c ∈ cs, |diff s w f idx c.stop| ≤ z' + E := by
  intro cs
  induction cs with
  | nil =>
    intro pack a x z t err r _ _ hF _ _ _ hL hz
    cases hF
    exact ⟨z, t, hL, hz, le_rfl, by simp⟩
  | cons c cs ih =>
    intro pack a x z t err r hd hκ hF hC hx hErr hL hz
    obtain ⟨q, pack, rfl⟩ : ∃ q l, pack = q :: l := by cases hF; exact ⟨_, _, rfl⟩
    rw [List.forall₂_cons] at hF
    obtain ⟨⟨hq, tc, ht1, ht2⟩, hF⟩ := hF
    obtain ⟨bin, map⟩ := q
    simp only at hq ht1
    subst hq
    obtain ⟨g1, g2, g3, g4⟩ := hC
    obtain ⟨d, hs, hL⟩ := hL
    obtain ⟨δ, rfl, -, hδ⟩ := hd c (by simp) d hs
    obtain ⟨k1, k2⟩ := hκ c (by simp)
    rw [List.map_cons, List.sum_cons] at hErr
    have hW := hN.wpos hne
    have hsum0 : 0 ≤ (cs.map κ).sum := List.sum_nonneg (by
      simp only [List.mem_map]
      rintro _ ⟨b, hb', rfl⟩
      have := (hκ b (List.mem_cons_of_mem _ hb')).1
      exact le_trans (by norm_num) this)
    have hda := diff_abs hN hne hb f a
    have hds := diff_abs hN hne hb f c.stop
    have hstep : diff s w f idx c.stop = diff s w f idx a - 2 * (binSigned s w f idx c / (idx.map w).sum) := by
      have h1 := below_step (s := s) (w := w) (f := f) (idx := idx) g2.le
      have h2 : below s w f idx c.start = below s w f idx a := below_congr fun i hi => by
        constructor
        · intro h
          by_contra hcon
          exact g3 i hi ⟨not_lt.mp hcon, h⟩
        · intro h; exact h.trans_le g1
      unfold diff
      rw [h1, h2]
      ring
    have hda' := abs_le.mp hda
    have hds' := abs_le.mp hds
    have hδ' := abs_le.mp hδ
    have hx' := abs_le.mp hx
    have herr0 : 0 ≤ err := (abs_nonneg _).trans hx
    have hkbound : κ c ≤ E / 4 := by linarith
    obtain ⟨r1, r2⟩ := rnd_approx (z := 2 * δ) (by rw [abs_le]; constructor <;> linarith [hδ'.1, hδ'.2])
    have r2' := abs_le.mp r2
    have hsmall : (1 / 10 ^ 13 : ℝ) ≤ 1 / 100 := by norm_num
    obtain ⟨r3, r4⟩ := rnd_approx (z := x + -F64.round (2 * δ)) (by rw [abs_le]; constructor <;> linarith [hδ'.1, hδ'.2, r2'.1, r2'.2, hx'.1, hx'.2])
    have r4' := abs_le.mp r4
    have he : F64.sub (fin x) (F64.mul (fin 2) (fin δ)) = fin (F64.round (x + -F64.round (2 * δ))) := by
      rw [F64.mul, r1, F64.sub, F64.neg, F64.add, r3]
    set x' := F64.round (x + -F64.round (2 * δ)) with hx'def
    have hxe : |x' - diff s w f idx c.stop| ≤ err + 4 * κ c := by
      rw [hstep, abs_le]
      constructor <;> linarith [hδ'.1, hδ'.2, r2'.1, r2'.2, hx'.1, hx'.2, r4'.1, r4'.2]
    have hxE : |x' - diff s w f idx c.stop| ≤ E := by linarith
    have habs : |(|x'|) - (|diff s w f idx c.stop|)| ≤ E := (abs_abs_sub_abs_le _ _).trans hxE
    have habs' := abs_le.mp habs
    have hd' : ∀ c ∈ cs, ∀ d, SignedSum (toM (normR T (m c))) d → ∃ δ, d = fin δ ∧ F64.Rep δ ∧ |δ - binSigned s w f idx c / (idx.map w).sum| ≤ κ c :=
      fun b hb' => hd b (List.mem_cons_of_mem _ hb')
    have hκ' : ∀ c ∈ cs, 1 / 10 ^ 13 ≤ κ c ∧ κ c ≤ 1 := fun b hb' => hκ b (List.mem_cons_of_mem _ hb')
    simp only [he] at hL
    by_cases hlt : z < |x'|
    · rw [if_pos (show F64.Lt (fin z) (F64.abs (fin x')) from hlt), ht1] at hL
      obtain ⟨z', t', e1, e2, e3, e4⟩ := ih pack c.stop x' |x'| tc (err + 4 * κ c) r hd' hκ' hF g4 hxe (by linarith) hL (by rw [diff_congr ht2]; exact habs)
      refine ⟨z', t', e1, e2, by linarith, fun b hb' => ?_⟩
      rcases List.mem_cons.mp hb' with rfl | hb'
      · linarith [habs'.1]
      · exact e4 b hb'
    · rw [if_neg (show ¬ F64.Lt (fin z) (F64.abs (fin x')) from hlt)] at hL
      obtain ⟨z', t', e1, e2, e3, e4⟩ := ih pack c.stop x' z t (err + 4 * κ c) r hd' hκ' hF g4 hxe (by linarith) hL hz
      refine ⟨z', t', e1, e2, e3, fun b hb' => ?_⟩
      rcases List.mem_cons.mp hb' with rfl | hb'
      · linarith [habs'.1, not_lt.mp hlt]
      · exact e4 b hb'

/-- The signed weights of all bins. -/
theorem sums_near {s : Sample ℝ} {w : ℕ → ℝ} {idx : List ℕ} {f : Feature ℝ} {T : ℝ} {m : Bin ℝ → List (Int × ℝ)} {κ : Bin ℝ → ℝ} :
    ∀ (cs : List (Bin ℝ)) (pack : List (Bin F64 × LabelMap F64)) (ds : List F64),
      (∀ c ∈ cs, ∀ d, SignedSum (toM (normR T (m c))) d → ∃ δ, d = fin δ ∧ F64.Rep δ ∧ |δ - binSigned s w f idx c / (idx.map w).sum| ≤ κ c) →
      List.Forall₂ (Entry f idx T m) cs pack → List.Forall₂ SignedSum (pack.map Prod.snd) ds →
      ∃ xs : List ℝ, ds = xs.map fin ∧ xs.length = cs.length ∧ |xs.sum - (cs.map fun c => binSigned s w f idx c / (idx.map w).sum).sum| ≤ (cs.map κ).sum ∧
        (xs.map (|·|)).sum ≤ (cs.map fun c => |binSigned s w f idx c| / |(idx.map w).sum|).sum + (cs.map κ).sum := by
  intro cs
  induction cs with
  | nil =>
    intro pack ds _ hF hd
    cases hF
    cases hd
    exact ⟨[], rfl, rfl, by simp, by simp⟩
  | cons c cs ih =>
    intro pack ds hκ hF hd
    obtain ⟨q, pack, rfl⟩ : ∃ q l, pack = q :: l := by cases hF; exact ⟨_, _, rfl⟩
    rw [List.forall₂_cons] at hF
    obtain ⟨⟨hq, -⟩, hF⟩ := hF
    obtain ⟨d, ds, rfl⟩ : ∃ t l, ds = t :: l := by cases hd; exact ⟨_, _, rfl⟩
    rw [List.map_cons, List.forall₂_cons, hq] at hd
    obtain ⟨δ, rfl, -, h2⟩ := hκ c (by simp) d hd.1
    obtain ⟨xs, rfl, i1, i2, i3⟩ := ih pack ds (fun b hb => hκ b (List.mem_cons_of_mem _ hb)) hF hd.2
    refine ⟨δ :: xs, rfl, by simp [i1], ?_, ?_⟩
    · simp only [List.map_cons, List.sum_cons]
      rw [show δ + xs.sum - (binSigned s w f idx c / (idx.map w).sum + (cs.map fun c => binSigned s w f idx c / (idx.map w).sum).sum)
        = (δ - binSigned s w f idx c / (idx.map w).sum) + (xs.sum - (cs.map fun c => binSigned s w f idx c / (idx.map w).sum).sum) by ring]
      exact (abs_add_le _ _).trans (add_le_add h2 i2)
    · simp only [List.map_cons, List.sum_cons]
      have h3 := le_abs_of_dist h2
      rw [abs_div] at h3
      linarith

/-- `split_by_edge` finds the boundary where the two sides differ most, up to rounding. -/
theorem splitByEdge_near {rb : List (Bin ℝ)} (ht : Tiles (-maxVal) rb maxVal) (hrl : rb.length ≤ 10 ^ 5) (hfine : FineBins rb) {s : Sample ℝ} (hs : SampleOk s)
    {f : Feature ℝ} (hf : f ∈ s.features) (hv : ∀ i < s.nSample, |f.val i| < maxVal) {dist : List F64} {w : ℕ → ℝ} {idx : List ℕ} (hN : Node s dist w idx)
    (hne : idx ≠ []) (hb : Binary s idx) {pack : List (Bin F64 × LabelMap F64)} (h : Pack (rb.map toF) idx f s.target dist (some pack)) {r : F64 × F64}
    (hr : SplitByEdge pack r) :
    ∃ z t, r = (fin t, fin z) ∧ |z - (|diff s w f idx t|)| ≤ 12 / 10 ^ 8 ∧ |signedWeight s w idx| / (idx.map w).sum ≤ z + 12 / 10 ^ 8 ∧
      ∀ β ∈ rb, |diff s w f idx β.stop| ≤ z + 12 / 10 ^ 8 := by
  obtain ⟨T, m, hT0, hT, hm, hpm, hF⟩ := pack_entries ht hrl hfine hs hf hv hN hne hb h
  have hW := hN.wpos hne
  have hu := u_small
  have hu0 := u_pos
  set W := (idx.map w).sum with hWd
  set cs := usedBins f idx rb with hcs
  have hsub : ∀ c ∈ cs, c ∈ rb := fun c hc => (List.mem_filter.mp hc).1
  have hκ : ∀ c ∈ cs, ∀ d, SignedSum (toM (normR T (m c))) d → ∃ δ, d = fin δ ∧ F64.Rep δ ∧ |δ - binSigned s w f idx c / W| ≤ binErr w f idx W c :=
    fun c hc d hd => bin_near hN hne hb (hm c) hT0 hT (hpm c (hsub c hc)) hd
  have hκ1 : ∀ c ∈ cs, 1 / 10 ^ 13 ≤ binErr w f idx W c ∧ binErr w f idx W c ≤ 1 := by
    intro c _
    obtain ⟨c0, c1⟩ := binWeight_le hN f c
    have h0 : 0 ≤ binWeight w f idx c / W := div_nonneg c0 hW.le
    have h1 : binWeight w f idx c / W ≤ 1 := (div_le_one hW).mpr c1
    unfold binErr
    constructor <;> nlinarith
  have hchain : Chained f idx (-maxVal) cs := usedBins_chained rb _ ht
  have hweight := usedBins_weight cs _ hchain hN.nonneg
  have hall : (idx.filter fun i => decide (-maxVal ≤ f.val i)) = idx := List.filter_eq_self.mpr fun i hi => by
    have := (abs_lt.mp (hv i (hN.row i hi))).1
    simpa using this.le
  rw [hall] at hweight
  have hclen : cs.length ≤ 10 ^ 5 := (List.length_filter_le _ _).trans hrl
  have hκsum : (cs.map (binErr w f idx W)).sum ≤ 2 / 10 ^ 8 := by
    have e : ∀ l : List (Bin ℝ), (l.map (binErr w f idx W)).sum = 1 / 10 ^ 8 * ((l.map (binWeight w f idx)).sum / W) + l.length * (1 / 10 ^ 13) := by
      intro l
      induction l with
      | nil => simp
      | cons b l ih =>
        simp only [List.map_cons, List.sum_cons, ih, List.length_cons, binErr]
        push_cast
        ring
    rw [e]
    have h1 : (cs.map (binWeight w f idx)).sum / W ≤ 1 := (div_le_one hW).mpr hweight
    have h2 : (cs.length : ℝ) ≤ 100000 := by exact_mod_cast (hclen.trans (by norm_num) : cs.length ≤ 100000)
    nlinarith
  have hb0 : below s w f idx (-maxVal) = 0 := by
    unfold below
    rw [List.filter_eq_nil_iff.mpr fun i hi => by
      have := (abs_lt.mp (hv i (hN.row i hi))).1
      simpa using this.le]
    rfl
  have hb1 : below s w f idx maxVal = signedWeight s w idx := by
    unfold below
    rw [List.filter_eq_self.mpr fun i hi => by
      have := (abs_lt.mp (hv i (hN.row i hi))).2
      simpa using this]
  have htotal := usedBins_total (s := s) (w := w) (f := f) (idx := idx) rb _ ht
  rw [hb0, hb1, zero_add] at htotal
  have hd0 : diff s w f idx (-maxVal) = signedWeight s w idx / W := by
    unfold diff
    rw [hb0]; ring
  obtain ⟨ds, hds, hL⟩ := hr
  obtain ⟨xs, rfl, x1, x2, x3⟩ := sums_near cs pack ds hκ hF hds
  have hdivsum : ∀ (g : Bin ℝ → ℝ) (l : List (Bin ℝ)), (l.map fun c => g c / W).sum = (l.map g).sum / W := by
    intro g l
    induction l with
    | nil => simp
    | cons b l ih => simp only [List.map_cons, List.sum_cons, ih]; ring
  rw [hdivsum, ← htotal] at x2
  have habs : (cs.map fun c => |binSigned s w f idx c| / |W|).sum ≤ 1 := by
    rw [abs_of_pos hW, hdivsum fun c => |binSigned s w f idx c|, div_le_one hW]
    refine le_trans (List.sum_le_sum fun c _ => ?_) hweight
    exact abs_signedWeight (hb.filter _) fun i hi => hN.nonneg i (List.mem_filter.mp hi).1
  obtain ⟨e, e1, -, e3⟩ := foldl_add_err 2 (by norm_num) (by norm_num) xs 0 0 0 rep_zero (by simp) (by rw [abs_zero]; linarith) (by omega)
  rw [zero_add, zero_add] at e3
  have he3 : |e - xs.sum| ≤ 1 / 10 ^ 8 := by
    refine e3.trans ?_
    have h2 : (xs.length : ℝ) ≤ 100000 := by rw [x1]; exact_mod_cast (hclen.trans (by norm_num) : cs.length ≤ 100000)
    calc 2 * u * 2 * (xs.length : ℝ) ≤ 2 * (1 / 9000000000000000) * 2 * 100000 := by gcongr
      _ ≤ _ := by norm_num
  have hxe : |e - diff s w f idx (-maxVal)| ≤ 3 / 10 ^ 8 := by
    rw [hd0, show e - signedWeight s w idx / W = (e - xs.sum) + (xs.sum - signedWeight s w idx / W) by ring]
    refine (abs_add_le _ _).trans ?_
    linarith
  rw [e1] at hL
  have hinit : |(|e|) - (|diff s w f idx (-maxVal)|)| ≤ 12 / 10 ^ 8 := (abs_abs_sub_abs_le _ _).trans (hxe.trans (by norm_num))
  obtain ⟨z, t, r1, r2, r3, r4⟩ := edge_scan hN hne hb (E := 12 / 10 ^ 8) (by norm_num) cs pack (-maxVal) e |e| (-maxVal) (3 / 10 ^ 8) r hκ hκ1 hF hchain hxe (by linarith) hL hinit
  have hS : |signedWeight s w idx| / W ≤ z + 12 / 10 ^ 8 := by
    have h1 := (abs_le.mp hinit).1
    rw [hd0, abs_div, abs_of_pos hW] at h1
    linarith
  refine ⟨z, t, r1, r2, hS, fun β hβ => ?_⟩
  rcases usedBins_cover (s := s) (w := w) (f := f) (idx := idx) rb _ ht β hβ with h1 | ⟨c, hc, h1⟩
  · have : diff s w f idx β.stop = signedWeight s w idx / W := by
      unfold diff
      rw [h1, hb0]; ring
    rw [this, abs_div, abs_of_pos hW]
    exact hS
  · have : diff s w f idx β.stop = diff s w f idx c.stop := by
      unfold diff
      rw [h1]
    rw [this]
    exact r4 c hc

end Miniboosts.FTree
