import Verif.Lemmas.Accurate
import Verif.Lemmas.GammaExists
import Verif.Spec.SoftMargin

/-! # The programs with a `γ` column, solved up to `ε` -/

namespace Miniboosts

open LP

variable {H X : Type*} [Classifier H X ℝ]

namespace IsGamma

variable {p : Program ℝ} {S : Examples X ℝ} {hs : List H} {cc ci : ℝ} {b a : Nat → ℝ}

theorem wellFormed (hp : IsGamma p S hs cc ci b a) : p.WellFormed := by
  refine ⟨?_, ?_, ?_, ?_, ?_⟩
  · rw [hp.A]; exact gamma_wellFormed S hs cc
  · rw [hp.qlen, hp.nCols]
  · rw [hp.pcols, hp.nCols]
  · rw [hp.rhs, hp.nRows]; simp [rhsOf]; omega
  · rw [hp.cones, hp.nRows]; simp [senseOf, Program.isEq]; omega

/-- What the optimality conditions up to `ε` say. -/
theorem accurate (hp : IsGamma p S hs cc ci b a) (ha : ∀ i, i < S.length → 0 ≤ a i) (hci : 0 ≤ ci) (ε : ℝ) (hε : 0 ≤ ε)
    (s : Solution ℝ) (ho : p.Accurate ε s) :
    ∃ γ d, s.x = γ :: d ∧ 1 + 2 * S.length ≤ s.z.length ∧ d.length = S.length ∧ Spec.NearProb ε d ∧
      (∀ q ∈ d, cc * q ≤ ci + ε) ∧ (∀ h ∈ hs, Spec.edge S d (conf h) ≤ γ + ε) ∧
      (s.z.drop (1 + 2 * S.length)).length = hs.length ∧ Spec.NearProb ε (s.z.drop (1 + 2 * S.length)) ∧
      |s.objVal - (γ + quadPen S.length b a d)| ≤ ε ∧
      ∀ d' : List ℝ, d'.length = S.length → Spec.IsProb d' → (∀ q ∈ d', 0 ≤ cc * q ∧ cc * q ≤ ci) →
        s.objVal - (3 + S.length * ci) * ε ≤
          Spec.edge S d' (fun x => Spec.vote conf (List.zip (s.z.drop (1 + 2 * S.length)) hs) x) +
            quadPen S.length b a d' := by
  have hxl := ho.xlen
  rw [hp.nCols] at hxl
  have hzl := ho.zlen
  rw [hp.nRows] at hzl
  obtain ⟨γ, d, hx⟩ : ∃ γ d, s.x = γ :: d := by
    match hxx : s.x with
    | [] => rw [hxx] at hxl; simp at hxl; omega
    | γ :: d => exact ⟨γ, d, rfl⟩
  have hd : d.length = S.length := by rw [hx] at hxl; simp at hxl; omega
  obtain ⟨s0, s1, s2, s3⟩ := hp.slack γ d hd
  set w := s.z.drop (1 + 2 * S.length) with hw
  have hwl : w.length = hs.length := by simp [hw]; omega
  obtain ⟨t0, t1⟩ := gamma_tmulVec S hs cc s.z
  have hws : |w.sum - 1| ≤ ε := by
    have := ho.stationary 0 (by rw [hp.nCols]; omega)
    rw [hp.p0, hp.q0, hp.A, t0] at this
    rw [sum_getD, hwl, Finset.sum_congr rfl fun k _ => by rw [hw, getD_drop], abs_sub_comm]
    rw [zero_add, ← sub_eq_add_neg] at this
    exact this
  have hdual : ∀ i, i ≠ 0 → i < 1 + 2 * S.length + hs.length → -ε ≤ s.z.getD i 0 := by
    intro i h0 h1
    exact ho.dual i (by rw [hp.isEq, if_neg h0, if_pos h1])
  have hineq : ∀ i, i ≠ 0 → i < 1 + 2 * S.length + hs.length → -ε ≤ p.slack (γ :: d) i := by
    intro i h0 h1
    have := ho.inequality i (by rw [hp.isEq, if_neg h0, if_pos h1])
    rwa [hx] at this
  have hwn : ∀ q ∈ w, -ε ≤ q := by
    intro q hq
    obtain ⟨k, hk, rfl⟩ := mem_getD _ _ hq
    rw [hw, getD_drop]
    exact hdual _ (by omega) (by omega)
  have hobj := ho.value
  rw [hx, hp.objective_eq γ d hd] at hobj
  refine ⟨γ, d, hx, by omega, hd, ⟨?_, ?_⟩, ?_, ?_, hwl, ⟨hwn, hws⟩, hobj, ?_⟩
  · intro q hq
    obtain ⟨i, hi, rfl⟩ := mem_getD _ _ hq
    rw [← s1 i (by omega)]
    exact hineq _ (by omega) (by omega)
  · have := ho.equality 0 (by rw [hp.isEq, if_pos rfl])
    rw [hx, s0] at this
    rw [abs_sub_comm]; exact this
  · intro q hq
    obtain ⟨i, hi, rfl⟩ := mem_getD _ _ hq
    have := hineq (1 + S.length + i) (by omega) (by omega)
    rw [s2 i (by omega)] at this
    linarith
  · intro h hh
    obtain ⟨k, hk, rfl⟩ := List.getElem_of_mem hh
    have := hineq (1 + 2 * S.length + k) (by omega) (by omega)
    rw [s3 k hs[k] (by simp [hk])] at this
    linarith
  · intro d' hd' hprob' hcap'
    obtain ⟨b0, b1, b2, b3⟩ := hp.b_getD
    -- the dual objective
    have hdobj : p.dualObjective s.x s.z = -(s.z.getD 0 0 + ∑ i ∈ Finset.range S.length, s.z.getD (1 + S.length + i) 0 * ci) -
        (∑ i ∈ Finset.range S.length, a i * d.getD i 0 ^ 2) / 2 := by
      unfold Program.dualObjective
      rw [sum_range_list, sum_range_list, hp.nRows, hp.pcols,
        show 1 + 2 * S.length + hs.length = 1 + S.length + S.length + hs.length by omega, Finset.sum_range_add,
        Finset.sum_range_add, Finset.sum_range_add, Finset.sum_range_one, b0, mul_one]
      have e1 : ∑ i ∈ Finset.range S.length, s.z.getD (1 + i) 0 * p.b.getD (1 + i) 0 = 0 :=
        Finset.sum_eq_zero fun i hi => by rw [b1 i (Finset.mem_range.1 hi), mul_zero]
      have e2 : ∑ i ∈ Finset.range S.length, s.z.getD (1 + S.length + i) 0 * p.b.getD (1 + S.length + i) 0 =
          ∑ i ∈ Finset.range S.length, s.z.getD (1 + S.length + i) 0 * ci :=
        Finset.sum_congr rfl fun i hi => by rw [b2 i (Finset.mem_range.1 hi)]
      have e3 : ∑ i ∈ Finset.range hs.length, s.z.getD (1 + S.length + S.length + i) 0 * p.b.getD (1 + S.length + S.length + i) 0 = 0 :=
        Finset.sum_eq_zero fun i _ => by
          rw [show 1 + S.length + S.length + i = 1 + 2 * S.length + i by omega, b3 i, mul_zero]
      rw [e1, e2, e3, Finset.sum_range_add, Finset.sum_range_one, hp.p0]
      have e4 : ∑ i ∈ Finset.range S.length, s.x.getD (1 + i) 0 * p.P.tmulVec s.x (1 + i) =
          ∑ i ∈ Finset.range S.length, a i * d.getD i 0 ^ 2 :=
        Finset.sum_congr rfl fun i hi => by
          rw [hp.p1 s.x i (Finset.mem_range.1 hi), hx, Nat.add_comm 1 i, List.getD_cons_succ]; ring
      rw [e4]; ring
    have hgap := (abs_le.1 ho.gap).2
    rw [hdobj] at hgap
    -- the edge of the vote
    have hedge : Spec.edge S d' (fun x => Spec.vote conf (List.zip w hs) x) = ∑ i ∈ Finset.range S.length,
        (∑ k ∈ Finset.range hs.length, ((hs.map (margins S)).getD k []).getD i 0 * s.z.getD (1 + 2 * S.length + k) 0) *
          d'.getD i 0 := by
      rw [edge_fun_sum S d' _ hd']
      refine Finset.sum_congr rfl fun i hi => ?_
      have hi' := Finset.mem_range.1 hi
      congr 1
      rw [List.getD_eq_getElem?_getD, List.getElem?_map, List.getElem?_eq_getElem hi']
      simp only [Option.map_some, Option.getD_some]
      rw [vote_sum S w hs hwl i S[i] (by simp [hi'])]
      exact Finset.sum_congr rfl fun k _ => by rw [hw, getD_drop]
    rw [hedge]
    unfold quadPen
    rw [← Finset.sum_add_distrib]
    have hterm : ∀ i ∈ Finset.range S.length,
        -s.z.getD 0 0 * d'.getD i 0 - 2 * ε * d'.getD i 0 - s.z.getD (1 + S.length + i) 0 * ci - ε * ci -
          a i * d.getD i 0 ^ 2 / 2 ≤
        (∑ k ∈ Finset.range hs.length, ((hs.map (margins S)).getD k []).getD i 0 * s.z.getD (1 + 2 * S.length + k) 0) *
          d'.getD i 0 + (b i * d'.getD i 0 + a i * d'.getD i 0 ^ 2 / 2) := by
      intro i hi
      have hi' := Finset.mem_range.1 hi
      have hst := ho.stationary (1 + i) (by rw [hp.nCols]; omega)
      rw [hp.p1 s.x i hi', hp.q1 i hi', hp.A, t1 i hi', hx, Nat.add_comm 1 i, List.getD_cons_succ, Nat.add_comm i 1] at hst
      have h1 := (abs_le.1 hst).1
      have hmem := getD_mem d' i (by omega)
      have h2 := hprob'.1 _ hmem
      obtain ⟨h3, h3'⟩ := hcap' _ hmem
      have h4 := hdual (1 + i) (by omega) (by omega)
      have h5 := hdual (1 + S.length + i) (by omega) (by omega)
      have h6 := ha i hi'
      set M := ∑ k ∈ Finset.range hs.length, ((hs.map (margins S)).getD k []).getD i 0 * s.z.getD (1 + 2 * S.length + k) 0
      set Z0 := s.z.getD 0 0
      set Zn := s.z.getD (1 + i) 0
      set Zc := s.z.getD (1 + S.length + i) 0
      set x := d.getD i 0
      set y := d'.getD i 0
      have g1 : (-ε - a i * x - b i - Z0 - ε - cc * Zc) * y ≤ M * y := mul_le_mul_of_nonneg_right (by linarith) h2
      have g2 : cc * y * (Zc + ε) ≤ ci * (Zc + ε) := mul_le_mul_of_nonneg_right h3' (by linarith)
      have g3 : 0 ≤ cc * y * ε := mul_nonneg h3 hε
      have g4 : 0 ≤ a i * (x - y) ^ 2 := mul_nonneg h6 (sq_nonneg _)
      nlinarith
    have hsum := Finset.sum_le_sum hterm
    refine le_trans ?_ hsum
    simp only [Finset.sum_sub_distrib, Finset.sum_const, Finset.card_range, nsmul_eq_mul]
    have hone : ∑ i ∈ Finset.range S.length, d'.getD i 0 = 1 := by
      rw [← hd', ← sum_getD, hprob'.2]
    rw [← Finset.mul_sum, ← Finset.mul_sum, hone, ← Finset.sum_div]
    linarith

end IsGamma

/-! ## An exactly capped distribution next to a nearly capped one -/

/-- From entries in `[0, c]` to entries in `[0, c]` with total 1, moving by the distance of the total from 1. -/
theorem exists_capped_sum (l : List ℝ) (c : ℝ) (hl : ∀ q ∈ l, 0 ≤ q ∧ q ≤ c) (hc : 1 ≤ (l.length : ℝ) * c) :
    ∃ f : ℝ → ℝ, (l.map f).sum = 1 ∧ (∀ q ∈ l, 0 ≤ f q ∧ f q ≤ c) ∧ (l.map fun q => |f q - q|).sum = |l.sum - 1| := by
  have hn0 : 0 ≤ l.sum := sum_nonneg' _ fun q hq => (hl q hq).1
  have habs : ∀ (f : ℝ → ℝ) (σ : ℝ), (∀ q ∈ l, |f q - q| = σ * (f q - q)) →
      (l.map fun q => |f q - q|).sum = σ * ((l.map f).sum - l.sum) := by
    intro f σ h
    clear hc hn0 hl
    induction l with
    | nil => simp
    | cons a l ih =>
      have := ih fun q hq => h q (by simp [hq])
      simp only [List.map_cons, List.sum_cons, this, h a (by simp)]
      ring
  rcases le_or_gt 1 l.sum with h1 | h1
  · have hpos : 0 < l.sum := by linarith
    have hs : (l.map fun q => q / l.sum).sum = 1 := by
      simp only [div_eq_mul_inv]
      rw [List.sum_map_mul_right, List.map_id']
      exact mul_inv_cancel₀ hpos.ne'
    have hle : ∀ q ∈ l, q / l.sum ≤ q := fun q hq => div_le_self (hl q hq).1 h1
    refine ⟨fun q => q / l.sum, hs, fun q hq => ⟨div_nonneg (hl q hq).1 hpos.le, (hle q hq).trans (hl q hq).2⟩, ?_⟩
    rw [habs (fun q => q / l.sum) (-1) (fun q hq => by
      rw [abs_of_nonpos (by linarith [hle q hq])]; ring), hs, abs_of_nonneg (by linarith)]
    ring
  · have hden : 0 < l.length * c - l.sum := by linarith
    set t := (1 - l.sum) / (l.length * c - l.sum) with ht
    have ht0 : 0 ≤ t := div_nonneg (by linarith) hden.le
    have ht1 : t ≤ 1 := by rw [ht, div_le_one hden]; linarith
    have hs : (l.map fun q => q + t * (c - q)).sum = 1 := by
      have : ∀ l : List ℝ, (l.map fun q => q + t * (c - q)).sum = l.sum + t * (l.length * c - l.sum) := by
        intro l
        induction l with
        | nil => simp
        | cons a l ih => simp only [List.map_cons, List.sum_cons, ih, List.length_cons]; push_cast; ring
      rw [this, ht, div_mul_cancel₀ _ hden.ne']; ring
    refine ⟨fun q => q + t * (c - q), hs, fun q hq => ?_, ?_⟩
    · obtain ⟨h2, h3⟩ := hl q hq
      constructor
      · have := mul_nonneg ht0 (sub_nonneg.2 h3); linarith
      · have := mul_le_mul_of_nonneg_right ht1 (sub_nonneg.2 h3); linarith
    · rw [habs (fun q => q + t * (c - q)) 1 (fun q hq => by
        have := mul_nonneg ht0 (sub_nonneg.2 (hl q hq).2)
        rw [abs_of_nonneg (by linarith)]; ring), hs, abs_of_neg (by linarith)]
      ring

theorem exists_near_capped (S : Examples X ℝ) (d : List ℝ) (hdl : d.length = S.length) (nu : ℝ)
    (hnu : 1 ≤ nu) (hnu2 : nu ≤ S.length) (ε : ℝ) (hε : 0 ≤ ε) (hd : Spec.NearProb ε d) (hcap : ∀ q ∈ d, q ≤ 1 / nu + ε) :
    ∃ d' : List ℝ, d'.length = S.length ∧ Spec.IsCapped nu d' ∧
      ∀ g : X → ℝ, (∀ e ∈ S, |e.2 * g e.1| ≤ 1) → |Spec.edge S d' g - Spec.edge S d g| ≤ (2 * S.length + 1) * ε := by
  set c := 1 / nu with hc
  have hc0 : 0 < c := by rw [hc]; positivity
  set k : ℝ → ℝ := fun q => max 0 (min q c) with hk
  have hk0 : ∀ q ∈ d.map k, 0 ≤ q ∧ q ≤ c := by
    intro q hq
    obtain ⟨r, hr, rfl⟩ := List.mem_map.1 hq
    exact ⟨le_max_left _ _, max_le hc0.le (min_le_right _ _)⟩
  have hk1 : ∀ q ∈ d, |k q - q| ≤ ε := by
    intro q hq
    have h1 := hd.1 q hq
    have h2 := hcap q hq
    simp only [hk]
    rw [abs_le]
    constructor
    · rcases le_total q c with h | h
      · rw [min_eq_left h]; linarith [le_max_right (0:ℝ) q]
      · rw [min_eq_right h]; linarith [le_max_right (0:ℝ) c]
    · rcases le_total 0 (min q c) with h | h
      · rw [max_eq_right h]; linarith [min_le_left q c]
      · rw [max_eq_left h]; linarith
  have hlen1 : 1 ≤ ((d.map k).length : ℝ) * c := by
    rw [List.length_map, hdl, hc, mul_one_div, le_div_iff₀ (by linarith)]; linarith
  obtain ⟨f, f1, f2, f3⟩ := exists_capped_sum (d.map k) c hk0 hlen1
  have hsumk : |(d.map k).sum - d.sum| ≤ d.length * ε := by
    clear * - hk1
    induction d with
    | nil => simp
    | cons a d ih =>
      have h1 := abs_le.1 (ih fun q hq => hk1 q (by simp [hq]))
      have h2 := abs_le.1 (hk1 a (by simp))
      simp only [List.map_cons, List.sum_cons, List.length_cons]
      push_cast
      rw [abs_le]; constructor <;> linarith [h1.1, h1.2, h2.1, h2.2]
  have hmove : (d.map fun q => |f (k q) - k q|).sum ≤ (d.length + 1) * ε := by
    rw [List.map_map, Function.comp_def] at f3
    rw [f3]
    have h1 := abs_le.1 hsumk
    have h2 := abs_le.1 hd.2
    rw [abs_le]; constructor <;> linarith [h1.1, h1.2, h2.1, h2.2]
  have htot : (d.map fun q => |f (k q) - q|).sum ≤ (2 * d.length + 1) * ε := by
    have : ∀ l : List ℝ, (∀ q ∈ l, |k q - q| ≤ ε) →
        (l.map fun q => |f (k q) - q|).sum ≤ (l.map fun q => |f (k q) - k q|).sum + l.length * ε := by
      intro l hl
      induction l with
      | nil => simp
      | cons a l ih =>
        have h1 := ih fun q hq => hl q (by simp [hq])
        have h2 := hl a (by simp)
        have h3 := abs_sub_le (f (k a)) (k a) a
        simp only [List.map_cons, List.sum_cons, List.length_cons]
        push_cast
        linarith
    have := this d hk1
    linarith
  refine ⟨d.map fun q => f (k q), by simp [hdl], ⟨?_, ?_⟩, ?_⟩
  · intro q hq
    obtain ⟨r, hr, rfl⟩ := List.mem_map.1 hq
    exact f2 _ (List.mem_map_of_mem hr)
  · rw [List.map_map, Function.comp_def] at f1; exact f1
  · intro g hg
    have key : ∀ (S : Examples X ℝ) (d : List ℝ), d.length = S.length → (∀ e ∈ S, |e.2 * g e.1| ≤ 1) →
        |Spec.edge S (d.map fun q => f (k q)) g - Spec.edge S d g| ≤ (d.map fun q => |f (k q) - q|).sum := by
      intro S
      induction S with
      | nil => intro d hl _; simp at hl; subst hl; simp [Spec.edge]
      | cons e S ih =>
        intro d hl hg
        match d, hl with
        | q :: d, hl =>
          have h1 := ih d (by simpa using hl) fun e he => hg e (by simp [he])
          have h2 := hg e (by simp)
          simp only [Spec.edge, List.map_cons, List.zip_cons_cons, List.sum_cons] at h1 ⊢
          have h3 : |(f (k q) - q) * (e.2 * g e.1)| ≤ |f (k q) - q| := by
            rw [abs_mul]
            exact mul_le_of_le_one_right (abs_nonneg _) h2
          refine le_trans (le_trans (le_of_eq ?_) (abs_add_le _ _)) (add_le_add h3 h1)
          congr 1; ring
    have := key S d hdl hg
    rw [hdl] at htot
    exact this.trans htot

end Miniboosts
