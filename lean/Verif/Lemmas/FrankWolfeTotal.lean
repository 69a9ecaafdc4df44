import Verif.Lemmas.CERLPBoost

/-! # Every Frank-Wolfe strategy answers, and keeps the weights usable -/

namespace Miniboosts

open Real FrankWolfe

variable {H X : Type*} [Classifier H X ℝ]

/-- Non-negative weights with sum at most one. -/
def SubProb (w : List ℝ) : Prop := (∀ x ∈ w, 0 ≤ x) ∧ w.sum ≤ 1

theorem bisect_total (dot : ℝ → Except Panic ℝ) (hdot : ∀ s, ∃ v, dot s = .ok v) (fuel : Nat) (lb ub : ℝ) (hlt : lb < ub)
    (hlen : ub - lb ≤ 2 ^ fuel / 10 ^ 9) : ∃ l u, bisect dot fuel lb ub = .ok (some (l, u)) ∧ lb ≤ l ∧ l < u ∧ u ≤ ub := by
  induction fuel generalizing lb ub with
  | zero =>
    unfold bisect
    rw [if_neg (by unfold subTolerance; simpa using hlen)]
    exact ⟨lb, ub, rfl, le_rfl, hlt, le_rfl⟩
  | succ fuel ih =>
    unfold bisect
    by_cases h1 : subTolerance < ub - lb
    · rw [if_pos h1]
      have hp : (2 : ℝ) ^ (fuel + 1) = 2 * 2 ^ fuel := by ring
      rw [hp] at hlen
      obtain ⟨v, hv⟩ := hdot ((lb + ub) / 2)
      simp only [hv]
      by_cases h2 : v < 0
      · rw [if_pos h2]
        obtain ⟨l, u, hr, h3, h4, h5⟩ := ih ((lb + ub) / 2) ub (by linarith) (by linarith)
        exact ⟨l, u, hr, by linarith, h4, h5⟩
      · rw [if_neg h2]
        by_cases h3 : 0 < v
        · rw [if_pos h3]
          obtain ⟨l, u, hr, h3, h4, h5⟩ := ih lb ((lb + ub) / 2) (by linarith) (by linarith)
          exact ⟨l, u, hr, h3, h4, by linarith⟩
        · rw [if_neg h3]
          exact ⟨lb, ub, rfl, le_rfl, hlt, le_rfl⟩
    · rw [if_neg h1]
      exact ⟨lb, ub, rfl, le_rfl, hlt, le_rfl⟩

theorem interior_sub {s : ℝ} (h0 : 0 < s) (h1 : s ≤ 1) {pos : Nat} {w : List ℝ} (hw : SubProb w) (hp : pos < w.length) :
    ∃ w', interiorPoint s pos w = .ok w' ∧ SubProb w' ∧ w'.length = w.length ∧ ∃ x ∈ w', 0 < x := by
  refine ⟨_, interiorPoint_eq h0.le h1 pos w, ⟨?_, ?_⟩, by simp, ?_⟩
  · intro x hx
    obtain ⟨i, hi, rfl⟩ := List.mem_mapIdx.1 hx
    have hb := hw.1 _ (List.getElem_mem hi)
    split
    · nlinarith
    · nlinarith
  · rw [interior_total s w pos hp]
    nlinarith [hw.2]
  · have hb := hw.1 _ (List.getElem_mem hp)
    refine ⟨w[pos] + s * (1 - w[pos]), List.mem_mapIdx.2 ⟨pos, hp, by simp⟩, ?_⟩
    nlinarith

theorem expDistribution_total (eta nu : ℝ) (S : Examples X ℝ) (ws : List ℝ) (hs : List H) (h1 : 1 ≤ nu) (h2 : nu ≤ S.length) :
    ∃ d, expDistribution eta nu S ws hs = .ok d := by
  unfold expDistribution
  exact (Props.project_ok_iff nu _).2 ⟨h1, by simpa [logExpDistribution, weightedMargins] using h2⟩

omit [Classifier H X ℝ] in
theorem gradAt_total (fw : FrankWolfe) (n : Nat) (base dir : List ℝ) (hb : base.length = n) (hd : dir.length = n)
    (h1 : 1 ≤ fw.nu) (h2 : fw.nu ≤ n) (s : ℝ) : ∃ v, gradAt fw base dir s = .ok v := by
  unfold gradAt expDistributionFromMargins
  obtain ⟨d, hd⟩ := (Props.project_ok_iff fw.nu ((List.zipWith (fun b d => b + s * d) base dir).map fun yf => -fw.eta * yf)).2
    ⟨h1, by simp [hb, hd, h2]⟩
  rw [hd]
  exact ⟨_, rfl⟩

theorem lineSearch_total (fw : FrankWolfe) (S : Examples X ℝ) (hs : List H) (pos : Nat) (w : List ℝ) (h1 : 1 ≤ fw.nu)
    (h2 : fw.nu ≤ S.length) (hw : SubProb w) (hp : pos < w.length) :
    ∃ w', lineSearch fw S hs pos w = .ok w' ∧ SubProb w' ∧ w'.length = w.length ∧ ∃ x ∈ w', 0 < x := by
  unfold lineSearch
  simp only []
  obtain ⟨d, hd⟩ := expDistribution_total fw.eta fw.nu S (w.mapIdx fun j w => if j = pos then 1 - w else -w) hs h1 h2
  rw [hd]
  simp only []
  simp only [if_pos hp]
  split
  · obtain ⟨a, b⟩ := Props.setOne_prob w.length pos hp
    refine ⟨_, rfl, ⟨a, b.le⟩, by simp, 1, ?_, one_pos⟩
    exact List.mem_iff_getElem.2 ⟨pos, by simpa using hp, by simp⟩
  · obtain ⟨l, u, hb, h3, h4, h5⟩ := bisect_total (gradAt fw (weightedMargins S w hs)
      (weightedMargins S (w.mapIdx fun j w => if j = pos then 1 - w else -w) hs))
      (gradAt_total fw S.length _ _ (by simp [weightedMargins]) (by simp [weightedMargins]) h1 h2) 31 0 1 one_pos (by norm_num)
    rw [hb]
    simp only []
    exact interior_sub (by linarith) (by linarith) hw hp

/-- The candidates of the scan: the indices of positive weight, with the edge of the hypothesis. -/
noncomputable def cands (S : Examples X ℝ) (dist : List ℝ) (hs : List H) (w : List ℝ) : List (Nat × ℝ) :=
  (List.zip w hs).zipIdx.filterMap fun p => if p.1.1 ≤ 0 then none else some (p.2, edge S dist p.1.2)

theorem mem_cands {S : Examples X ℝ} {dist : List ℝ} {hs : List H} {w : List ℝ} {j : Nat} {e : ℝ} :
    (j, e) ∈ cands S dist hs w ↔ ∃ b h, w[j]? = some b ∧ hs[j]? = some h ∧ 0 < b ∧ e = edge S dist h := by
  unfold cands
  rw [List.mem_filterMap]
  constructor
  · rintro ⟨⟨⟨b, h⟩, i⟩, hm, he⟩
    by_cases hb : b ≤ 0
    · simp [hb] at he
    · simp only [if_neg hb, Option.some.injEq, Prod.mk.injEq] at he
      obtain ⟨rfl, rfl⟩ := he
      have := List.mem_zipIdx_iff_getElem?.1 hm
      rw [List.getElem?_zip_eq_some] at this
      exact ⟨b, h, this.1, this.2, not_le.1 hb, rfl⟩
  · rintro ⟨b, h, h1, h2, h3, rfl⟩
    refine ⟨((b, h), j), List.mem_zipIdx_iff_getElem?.2 ?_, by simp [not_le.2 h3]⟩
    rw [List.getElem?_zip_eq_some]
    exact ⟨h1, h2⟩

/-- What the scan knows after looking at the candidates in `seen`. -/
structure ScanInv (pos len : Nat) (all seen : List (Nat × ℝ)) (st : Scan) : Prop where
  worst : (st.posWorst = len ∧ st.worstEdge = 2) ∨ (st.posWorst, st.worstEdge) ∈ all
  loc : (st.posLocal = len ∧ st.localBest = -2) ∨ (st.posLocal, st.localBest) ∈ all
  glob : (st.posGlobal = pos ∧ st.globalBest = -2) ∨ (st.posGlobal, st.globalBest) ∈ all
  worst_le : ∀ je ∈ seen, st.worstEdge ≤ je.2
  le_glob : ∀ je ∈ seen, je.2 ≤ st.globalBest
  le_loc : ∀ je ∈ seen, je.1 ≠ pos → je.2 ≤ st.localBest
  loc_le : st.localBest ≤ st.globalBest

omit [Classifier H X ℝ] in
theorem scanStep_eq (pos : Nat) (st : Scan) (j : Nat) (e : ℝ) :
    scanStep pos st (j, e) =
      { worstEdge := if e < st.worstEdge then e else st.worstEdge
        localBest := if j ≠ pos ∧ st.localBest < e then e else st.localBest
        globalBest := if st.globalBest < e then e else st.globalBest
        posWorst := if e < st.worstEdge then j else st.posWorst
        posLocal := if j ≠ pos ∧ st.localBest < e then j else st.posLocal
        posGlobal := if st.globalBest < e then j else st.posGlobal } := by
  unfold scanStep
  simp only []
  by_cases c1 : j ≠ pos ∧ st.localBest < e
  · simp only [if_pos c1]
    by_cases c2 : st.globalBest < e
    · simp only [if_pos c2]
      by_cases c3 : e < st.worstEdge
      · simp only [if_pos c3]
      · simp only [if_neg c3]
    · simp only [if_neg c2]
      by_cases c3 : e < st.worstEdge
      · simp only [if_pos c3]
      · simp only [if_neg c3]
  · simp only [if_neg c1]
    by_cases c2 : st.globalBest < e
    · simp only [if_pos c2]
      by_cases c3 : e < st.worstEdge
      · simp only [if_pos c3]
      · simp only [if_neg c3]
    · simp only [if_neg c2]
      by_cases c3 : e < st.worstEdge
      · simp only [if_pos c3]
      · simp only [if_neg c3]

omit [Classifier H X ℝ] in
theorem scanInv_step {pos len : Nat} {all seen : List (Nat × ℝ)} {st : Scan} (h : ScanInv pos len all seen st) {je : Nat × ℝ}
    (hje : je ∈ all) : ScanInv pos len all (seen ++ [je]) (scanStep pos st je) := by
  obtain ⟨j, e⟩ := je
  rw [scanStep_eq]
  constructor
  · by_cases c : e < st.worstEdge
    · simp only [if_pos c]; exact .inr hje
    · simp only [if_neg c]; exact h.worst
  · by_cases c : j ≠ pos ∧ st.localBest < e
    · simp only [if_pos c]; exact .inr hje
    · simp only [if_neg c]; exact h.loc
  · by_cases c : st.globalBest < e
    · simp only [if_pos c]; exact .inr hje
    · simp only [if_neg c]; exact h.glob
  · intro x hx
    rcases List.mem_append.1 hx with hx | hx
    · have := h.worst_le x hx
      simp only []; split <;> linarith
    · rw [List.mem_singleton] at hx; subst hx
      simp only []; split <;> linarith
  · intro x hx
    rcases List.mem_append.1 hx with hx | hx
    · have := h.le_glob x hx
      simp only []; split <;> linarith
    · rw [List.mem_singleton] at hx; subst hx
      simp only []; split <;> linarith
  · intro x hx hne
    rcases List.mem_append.1 hx with hx | hx
    · have := h.le_loc x hx hne
      simp only []
      by_cases c : j ≠ pos ∧ st.localBest < e
      · rw [if_pos c]; linarith [c.2]
      · rw [if_neg c]; exact this
    · rw [List.mem_singleton] at hx; subst hx
      simp only []
      by_cases c : j ≠ pos ∧ st.localBest < e
      · rw [if_pos c]
      · rw [if_neg c]
        by_contra hc
        exact c ⟨hne, not_le.1 hc⟩
  · have := h.loc_le
    simp only []
    by_cases c : j ≠ pos ∧ st.localBest < e
    · rw [if_pos c]; split <;> linarith
    · rw [if_neg c]; split <;> linarith

omit [Classifier H X ℝ] in
theorem scanInv_foldl {pos len : Nat} {all : List (Nat × ℝ)} (l : List (Nat × ℝ)) (seen : List (Nat × ℝ)) (st : Scan)
    (h : ScanInv pos len all seen st) (hl : ∀ je ∈ l, je ∈ all) :
    ScanInv pos len all (seen ++ l) (l.foldl (scanStep pos) st) := by
  induction l generalizing seen st with
  | nil => simpa using h
  | cons je l ih =>
    rw [List.foldl_cons]
    have := ih (seen ++ [je]) _ (scanInv_step h (hl je (by simp))) (fun x hx => hl x (by simp [hx]))
    simpa using this

/-- Blended pairwise steps, when the chosen hypothesis is better than the current vote and edges lie in `[-1, 1]`: they always give an
answer, and at least one weight stays positive. -/
theorem blendedPairwise_total (fw : FrankWolfe) (S : Examples X ℝ) (dist : List ℝ) (hs : List H) (pos : Nat) (w : List ℝ) (h : H)
    (h1 : 1 ≤ fw.nu) (h2 : fw.nu ≤ S.length) (hw : SubProb w) (hl : w.length = hs.length) (hp : hs[pos]? = some h)
    (hedge : ∀ k ∈ hs, |edge S dist k| ≤ 1) (hgap : weightedEdge S dist w hs < edge S dist h) :
    ∃ w', blendedPairwise fw S dist hs pos w = .ok w' ∧ SubProb w' ∧ w'.length = w.length ∧ ∃ x ∈ w', 0 < x := by
  have hpos : pos < w.length := by rw [hl]; exact (List.getElem?_eq_some_iff.1 hp).1
  set st₀ := (cands S dist hs w).foldl (scanStep pos) ⟨2, -2, -2, hs.length, hs.length, pos⟩ with hst₀
  have hinv : ScanInv pos hs.length (cands S dist hs w) (cands S dist hs w) st₀ := by
    have := scanInv_foldl (pos := pos) (len := hs.length) (all := cands S dist hs w) (cands S dist hs w) []
      ⟨2, -2, -2, hs.length, hs.length, pos⟩ ⟨.inl ⟨rfl, rfl⟩, .inl ⟨rfl, rfl⟩, .inl ⟨rfl, rfl⟩, by simp, by simp, by simp, by simp⟩
      (fun _ h => h)
    simpa using this
  have hscan : scan S dist hs pos w = if st₀.posGlobal + 1 ≠ hs.length then
      { st₀ with localBest := st₀.globalBest, posLocal := st₀.posGlobal } else st₀ := rfl
  unfold blendedPairwise
  simp only []
  set st := scan S dist hs pos w with hst
  by_cases hc : st.globalBest - weightedEdge S dist w hs ≤ st.localBest - st.worstEdge
  swap
  · rw [if_neg hc]
    exact lineSearch_total fw S hs pos w h1 h2 hw hpos
  rw [if_pos hc]
  have hworstEq : st.worstEdge = st₀.worstEdge ∧ st.posWorst = st₀.posWorst ∧ st.globalBest = st₀.globalBest := by
    rw [hscan]; split <;> exact ⟨rfl, rfl, rfl⟩
  have hloc : st.localBest ≤ st.globalBest := by
    rw [hscan]; split
    · exact le_rfl
    · exact hinv.loc_le
  have hworst_le : st.worstEdge ≤ weightedEdge S dist w hs := by linarith
  -- edges of candidates lie in [-1, 1]
  have hb : ∀ je ∈ cands S dist hs w, |je.2| ≤ 1 := by
    rintro ⟨j, e⟩ hje
    obtain ⟨b, k, -, hk, -, rfl⟩ := mem_cands.1 hje
    exact hedge k (List.mem_of_getElem? hk)
  -- there is a candidate
  have hne : cands S dist hs w ≠ [] := by
    intro hnil
    have hz : weightedEdge S dist w hs = 0 := by
      rw [weightedEdge_eq_spec]
      have hall : ∀ x : X, weightedConf w hs x = 0 := by
        intro x
        unfold weightedConf
        apply List.sum_eq_zero
        intro y hy
        obtain ⟨i, hi, rfl⟩ := List.mem_iff_getElem.1 hy
        rw [List.length_zipWith] at hi
        have hi1 : i < w.length := by omega
        have hi2 : i < hs.length := by omega
        rw [List.getElem_zipWith]
        have hnn := hw.1 _ (List.getElem_mem hi1)
        rcases lt_or_eq_of_le hnn with h0 | h0
        · have : (i, edge S dist hs[i]) ∈ cands S dist hs w :=
            mem_cands.2 ⟨w[i], hs[i], by simp [hi1], by simp [hi2], h0, rfl⟩
          rw [hnil] at this; cases this
        · rw [← h0, zero_mul]
      unfold Spec.edge
      simp [hall]
    have hwo : st₀.worstEdge = 2 := by
      rcases hinv.worst with h | h
      · exact h.2
      · rw [hnil] at h; cases h
    rw [hz, hworstEq.1, hwo] at hworst_le
    norm_num at hworst_le
  obtain ⟨je, hje⟩ := List.exists_mem_of_ne_nil _ hne
  -- the worst candidate
  have hwc : (st.posWorst, st.worstEdge) ∈ cands S dist hs w := by
    rw [hworstEq.1, hworstEq.2.1]
    rcases hinv.worst with ⟨-, h⟩ | h
    · have := hinv.worst_le je hje
      have := (abs_le.1 (hb je hje)).2
      linarith
    · exact h
  obtain ⟨mx, kw, hm, hkw, hmx, hwe⟩ := mem_cands.1 hwc
  have hmx1 : mx ≤ 1 := (List.single_le_sum hw.1 _ (List.mem_of_getElem? hm)).trans hw.2
  have hwl : st.posWorst < w.length := (List.getElem?_eq_some_iff.1 hm).1
  have hnep : pos ≠ st.posWorst := by
    intro h0
    rw [← h0, hp, Option.some.injEq] at hkw
    rw [hwe, ← hkw] at hworst_le
    linarith
  -- the local best
  have hlb : st.posLocal < hs.length := by
    have hgc : (st₀.posGlobal, st₀.globalBest) ∈ cands S dist hs w := by
      rcases hinv.glob with ⟨-, h⟩ | h
      · have := hinv.le_glob je hje
        have := (abs_le.1 (hb je hje)).1
        linarith
      · exact h
    rw [hscan]
    split
    · obtain ⟨b, k, -, hk, -, -⟩ := mem_cands.1 hgc
      exact (List.getElem?_eq_some_iff.1 hk).1
    · rcases hinv.loc with ⟨-, h⟩ | h
      · have := hinv.le_loc _ hwc (Ne.symm hnep)
        have := (abs_le.1 (hb _ hwc)).1
        simp only at *
        linarith
      · obtain ⟨b, k, -, hk, -, -⟩ := mem_cands.1 h
        exact (List.getElem?_eq_some_iff.1 hk).1
  have hkl : hs[st.posLocal]? = some hs[st.posLocal] := by simp [hlb]
  rw [hm, hkl, hkw]
  simp only []
  obtain ⟨d', hd'⟩ := expDistribution_total fw.eta fw.nu S (List.zipWith (fun dir cur => cur + mx * dir)
    (List.zipWith (fun a b => a - b) (margins S hs[st.posLocal]) (margins S kw)) (weightedMargins S w hs)) hs h1 h2
  rw [hd']
  simp only [if_pos hpos]
  split
  · refine ⟨_, rfl, ⟨?_, ?_⟩, by simp, mx, ?_, hmx⟩
    · intro x hx
      rcases List.mem_or_eq_of_mem_set hx with h3 | h3
      · rcases List.mem_or_eq_of_mem_set h3 with h4 | h4
        · exact hw.1 x h4
        · rw [h4]; exact hmx.le
      · rw [h3]
    · have hwp : w[pos]? = some w[pos] := by simp [hpos]
      rw [Props.sum_set' _ st.posWorst mx 0 (by rw [List.getElem?_set_ne hnep]; exact hm), Props.sum_set' w pos _ mx hwp]
      have := hw.1 _ (List.getElem_mem hpos)
      have := hw.2
      linarith
    · apply List.mem_of_getElem? (i := pos)
      rw [List.getElem?_set_ne (Ne.symm hnep), List.getElem?_set_self hpos]
  · obtain ⟨l, u, hbi, h3, h4, h5⟩ := bisect_total (gradAt fw (weightedMargins S w hs)
      (List.zipWith (fun a b => a - b) (margins S hs[st.posLocal]) (margins S kw)))
      (gradAt_total fw S.length _ _ (by simp [weightedMargins]) (by simp [margins]) h1 h2) 31 0 mx hmx
      (by norm_num; linarith)
    rw [hbi]
    simp only [if_pos (show st.posLocal < w.length by omega)]
    have hget : ∀ i, ((w.modify st.posLocal (· + (l + u) / 2)).modify st.posWorst (· - (l + u) / 2))[i]? =
        w[i]?.map fun a => (if st.posWorst = i then fun b => b - (l + u) / 2 else id)
          ((if st.posLocal = i then fun b => b + (l + u) / 2 else id) a) := by
      intro i
      rw [List.getElem?_modify, List.getElem?_modify]
      cases w[i]? with
      | none => split <;> split <;> rfl
      | some a => split <;> split <;> rfl
    refine ⟨_, rfl, ⟨?_, ?_⟩, by simp, ?_⟩
    · intro x hx
      obtain ⟨i, hi⟩ := List.mem_iff_getElem?.1 hx
      rw [hget] at hi
      cases hwi : w[i]? with
      | none => rw [hwi] at hi; simp at hi
      | some a =>
        have ha := hw.1 a (List.mem_of_getElem? hwi)
        rw [hwi] at hi
        by_cases h7 : st.posWorst = i
        · have : a = mx := by rw [← h7, hm] at hwi; cases hwi; rfl
          by_cases h8 : st.posLocal = i
          · simp [h7, h8] at hi; linarith
          · simp [h7, h8] at hi; linarith
        · by_cases h8 : st.posLocal = i
          · simp [h7, h8] at hi; linarith
          · simp [h7, h8] at hi; linarith
    · have h9 := Props.sum_modify (w.modify st.posLocal (· + (l + u) / 2)) st.posWorst
        (-((l + u) / 2)) (by simpa using hwl)
      simp only [← sub_eq_add_neg] at h9
      rw [h9, Props.sum_modify _ _ _ (by omega)]
      have := hw.2
      linarith
    · by_cases h7 : st.posWorst = st.posLocal
      · refine ⟨mx, List.mem_of_getElem? (i := st.posWorst) ?_, hmx⟩
        rw [hget, hm]
        simp [h7]
      · obtain ⟨a, ha⟩ : ∃ a, w[st.posLocal]? = some a := ⟨w[st.posLocal]'(by omega), by simp [show st.posLocal < w.length by omega]⟩
        refine ⟨a + (l + u) / 2, List.mem_of_getElem? (i := st.posLocal) ?_, ?_⟩
        · rw [hget, ha]
          simp [h7]
        · have := hw.1 a (List.mem_of_getElem? ha)
          linarith

/-- Whatever the strategy: from usable weights and towards a hypothesis that is better than the current vote, a Frank-Wolfe step gives
an answer, and at least one weight is positive afterwards. -/
theorem nextIterate_total (fw : FrankWolfe) (heta : 0 < fw.eta) (it : Nat) (hit : 1 ≤ it) (S : Examples X ℝ) (dist : List ℝ)
    (hdl : dist.length = S.length) (hs : List H) (pos : Nat) (w : List ℝ) (h : H)
    (h1 : 1 ≤ fw.nu) (h2 : fw.nu ≤ S.length) (hw : SubProb w) (hl : w.length = hs.length) (hp : hs[pos]? = some h)
    (hedge : ∀ k ∈ hs, |edge S dist k| ≤ 1) (hgap : weightedEdge S dist w hs < edge S dist h) :
    ∃ w', fw.nextIterate it S dist hs pos w = .ok w' ∧ SubProb w' ∧ w'.length = w.length ∧ ∃ x ∈ w', 0 < x := by
  have hpos : pos < hs.length := (List.getElem?_eq_some_iff.1 hp).1
  unfold nextIterate
  rw [if_pos hpos]
  cases fw.fwType with
  | classic =>
    have h1 : (1 : ℝ) ≤ it := by exact_mod_cast hit
    exact interior_sub (by positivity) (by rw [div_le_one (by linarith)]; linarith) hw (by omega)
  | lineSearch => exact lineSearch_total fw S hs pos w h1 h2 hw (by omega)
  | blendedPairwise => exact blendedPairwise_total fw S dist hs pos w h h1 h2 hw hl hp hedge hgap
  | shortStep =>
    simp only [shortStep, hp]
    by_cases hone : hs.length = 1
    · rw [if_pos hone]
      exact ⟨_, rfl, ⟨by simp, by simp⟩, by simp [hl, hone], 1, by simp, one_pos⟩
    · rw [if_neg hone]
      rw [weightedEdge_eq_spec, edge_eq_spec] at hgap
      obtain ⟨s, c, a1, a2, a3, a4, a5, a6, a7⟩ := Props.shortStepSize_optimal fw.eta heta S (weightedConf w hs) (conf h) dist hdl hgap
      have hspos : 0 < s := by
        rcases lt_or_eq_of_le a2 with h0 | h0
        · exact h0
        · exfalso
          -- a small step is better than none
          set G := Spec.edge S dist (conf h) - Spec.edge S dist (weightedConf w hs) with hG
          have hG0 : 0 < G := by rw [hG]; linarith
          have hq : 0 < fw.eta * c ^ 2 := by positivity
          have ht0 : 0 < min 1 (G / (fw.eta * c ^ 2)) := lt_min one_pos (div_pos hG0 hq)
          have := a7 (min 1 (G / (fw.eta * c ^ 2))) ht0.le (min_le_left _ _)
          rw [← h0] at this
          have hle := min_le_right 1 (G / (fw.eta * c ^ 2))
          rw [le_div_iff₀ hq] at hle
          nlinarith
      have hmm : margins S h = S.map fun e => e.2 * conf h e.1 := margins_def S h
      have hmw : weightedMargins S w hs = S.map fun e => e.2 * weightedConf w hs e.1 := rfl
      rw [hmm, hmw, a1]
      exact interior_sub hspos a3 hw (by omega)

end Miniboosts
