import Verif.Lemmas.FloatPack

/-! # The searches for the best split of the `f64` trees -/

namespace Miniboosts.FTree

open F64 Spec

theorem lt_ne_nan {a b : F64} (h : F64.Lt a b) : a ≠ nan ∧ b ≠ nan := by
  constructor
  · rintro rfl; exact h
  · rintro rfl; cases a <;> exact h

/-! ## The weights of all labels -/

theorem exists_allWeights (pack : List (Bin F64 × LabelMap F64)) : ∃ m, AllWeights pack m :=
  ⟨_, pack.map Prod.snd, by
    induction pack.map Prod.snd with
    | nil => exact .nil
    | cons a l ih => exact .cons (List.Perm.refl a) ih, rfl⟩

theorem allWeights_ok {pack : List (Bin F64 × LabelMap F64)} {ms : List (List (Int × ℝ))} (h : SoundPack pack ms) {m : LabelMap F64} (hm : AllWeights pack m) :
    ∃ rm, m = toM rm ∧ PM rm ∧ rm.length ≤ 10 ^ 5 ∧ (∀ z, z ∈ rm.map Prod.fst ↔ z ∈ ms.flatten.map Prod.fst) ∧ Near (10 ^ 5) (vsum rm) (vsum ms.flatten) := by
  obtain ⟨l, h1, rfl⟩ := hm
  rw [h.maps] at h1
  have hp : l.flatten.Perm (toM ms.flatten) := by rw [← toM_flatten]; exact List.Perm.flatten_congr h1
  obtain ⟨fl, hfl, e⟩ := perm_toM hp
  have hs := abs_le.mp h.sum
  have hv := vsum_perm hfl
  have hlen := hfl.length_eq
  have hfew := h.few
  obtain ⟨rm, r1, r2, r3, r4, r5⟩ := collect_ok fl [] 0 0 (h.pos.perm hfl) PM.nil le_rfl (by simp [Near, vsum_nil]) (by rw [hv]; norm_num at hs ⊢; linarith [hs.2]) (by omega)
  refine ⟨rm, by rw [e, ← toM_nil]; exact r1, r2, by simp only [List.length_nil] at r3; omega, ?_, ?_⟩
  · intro z
    rw [r4, (hfl.map Prod.fst).mem_iff]
    simp
  · rw [hv, zero_add, zero_add] at r5
    exact r5.mono (by omega) h.pos.vsum_nonneg

/-! ## Entropy -/

open Classical in
theorem exists_entropy (L : Libm) (m : LabelMap F64) : ∃ r, Entropy L m r := by
  obtain ⟨t, ht⟩ := exists_total m
  by_cases h : Le t (fin 0) ∨ m.isEmpty = true
  · exact ⟨fin 0, t, ht, by rw [if_pos h]⟩
  · obtain ⟨r, hr⟩ := exists_sumOf (m.map fun p => if Le (F64.div p.2 t) (fin 0) then fin 0 else F64.mul (F64.neg (F64.div p.2 t)) (F64.ln L (F64.div p.2 t)))
    exact ⟨r, t, ht, by rw [if_neg h]; exact ⟨m, List.Perm.refl m, hr⟩⟩

theorem entropy_ok (L : Libm) {m : List (Int × ℝ)} (hm : PM m) (hl : m.length ≤ 10 ^ 5) (hv : vsum m ≤ 3 / 2) {r : F64} (hr : Entropy L (toM m) r) :
    ∃ x, r = fin x := by
  obtain ⟨t, ht, h⟩ := hr
  obtain ⟨T, rfl, -, hN⟩ := total_ok hm (by omega) (by linarith) ht
  split at h
  · exact ⟨0, h⟩
  · rename_i hc
    push Not at hc
    have hT0 : 0 < T := by
      have := hc.1
      simpa [Le] using this
    obtain ⟨l, hp, t, ht', rfl⟩ := h
    obtain ⟨m', hp', rfl⟩ := perm_toM hp
    have hη := eta_pos
    have hη' := eta_tiny
    have hu := u_small
    have hu0 := u_pos
    have hlen := hp'.length_eq
    have hb := hN.bound (by omega) hm.vsum_nonneg
    have item : ∀ p ∈ m', ∃ x, (open Classical in if Le (F64.div (fin p.2) (fin T)) (fin 0) then fin 0
        else F64.mul (F64.neg (F64.div (fin p.2) (fin T))) (F64.ln L (F64.div (fin p.2) (fin T)))) = fin x ∧ F64.Rep x ∧ |x| ≤ 4000 := by
      intro p hpm
      have hpm' := hp'.mem_iff.mp hpm
      have h1 := hm.le_vsum hpm'
      have h2 := (hm p hpm').1
      have hq2 : p.2 / T ≤ 2 := by rw [div_le_iff₀ hT0]; nlinarith [hb.1]
      have hq0 : 0 ≤ p.2 / T := div_nonneg (by linarith) hT0.le
      rw [show F64.div (fin p.2) (fin T) = fin (F64.round (p.2 / T)) by
        rw [F64.div, if_neg hT0.ne', rnd_small (by rw [abs_of_nonneg hq0]; linarith)]]
      have hre := abs_le.mp (round_err (p.2 / T))
      rw [abs_of_nonneg hq0] at hre
      have hrn := round_nonneg hq0
      have hrep := rep_round (p.2 / T)
      have hq3 : F64.round (p.2 / T) ≤ 3 := by nlinarith [hre.2]
      generalize F64.round (p.2 / T) = q at *
      by_cases hle : q ≤ 0
      · exact ⟨0, if_pos hle, rep_zero, by norm_num⟩
      · have hq : 0 < q := not_le.mp hle
        have hqe : 2 * eta ≤ q := by
          obtain ⟨k, hk⟩ := rep_int hrep
          rw [two_eta] at hk
          have hk1 : (1 : ℝ) ≤ k := by
            have : 0 < (k : ℝ) := by
              by_contra hcon
              push Not at hcon
              nlinarith
            exact_mod_cast this
          nlinarith
        have hlog : |Real.log q| ≤ 1000 := by
          rw [abs_le]
          constructor
          · have := Real.log_le_log (by linarith) hqe
            have := log_two_eta
            linarith
          · have := Real.log_le_sub_one_of_pos hq
            linarith
        obtain ⟨y, hy1, hy2⟩ := ln_fin L hq hlog
        have hy3 : |y| ≤ 1001 := by
          have := le_abs_of_dist hy2
          have h8 : u * |Real.log q| ≤ u * 1000 := by gcongr
          nlinarith
        have hprod : |-q * y| ≤ 3003 := by
          rw [abs_mul, abs_neg, abs_of_pos hq]
          calc q * |y| ≤ 3 * 1001 := by gcongr
            _ = _ := by norm_num
        refine ⟨F64.round (-q * y), ?_, rep_round _, ?_⟩
        · refine (if_neg hle).trans ?_
          rw [F64.neg, hy1, F64.mul, rnd_small (hprod.trans (by norm_num))]
        · have := le_abs_of_dist (round_err (-q * y))
          nlinarith
    obtain ⟨xs, hxs⟩ : ∃ xs : List ℝ, ((toM m').map fun p => open Classical in if Le (F64.div p.2 (fin T)) (fin 0) then fin 0
        else F64.mul (F64.neg (F64.div p.2 (fin T))) (F64.ln L (F64.div p.2 (fin T)))) = xs.map fin ∧ xs.length = m'.length ∧ ∀ x ∈ xs, F64.Rep x ∧ |x| ≤ 4000 := by
      clear hp' hlen hp ht' ht
      induction m' with
      | nil => exact ⟨[], rfl, rfl, by simp⟩
      | cons p m' ih =>
        obtain ⟨xs, e1, e2, e3⟩ := ih fun q hq => item q (List.mem_cons_of_mem _ hq)
        obtain ⟨x, f1, f2, f3⟩ := item p (by simp)
        refine ⟨x :: xs, ?_, by simp [e2], ?_⟩
        · rw [List.map_cons, ← e1, ← f1]; rfl
        · intro z hz
          rcases List.mem_cons.mp hz with rfl | hz
          · exact ⟨f2, f3⟩
          · exact e3 z hz
    rw [hxs.1] at ht'
    have hbd : (xs.map (|·|)).sum ≤ xs.length * 4000 := by
      have : ∀ l : List ℝ, (∀ x ∈ l, |x| ≤ 4000) → (l.map (|·|)).sum ≤ l.length * 4000 := by
        intro l
        induction l with
        | nil => intro _; simp
        | cons a l ih =>
          intro h
          have := ih fun x hx => h x (List.mem_cons_of_mem _ hx)
          have := h a (by simp)
          simp only [List.map_cons, List.sum_cons, List.length_cons]
          push_cast
          linarith
      exact this xs fun x hx => (hxs.2.2 x hx).2
    have hxl : (xs.length : ℝ) ≤ 100000 := by
      rw [hxs.2.1, hlen]; exact_mod_cast (hl.trans (by norm_num) : m.length ≤ 100000)
    obtain ⟨s, e1, -, -⟩ := split_abs t xs ht' (fun x hx => (hxs.2.2 x hx).1) (by linarith) (by rw [hxs.2.1, hlen]; omega)
    exact ⟨s, e1⟩

theorem insert_fst {A B : Type*} [DecidableEq A] (m : List (A × B)) (k : A) (v : B) (h : k ∈ m.map Prod.fst) : (HMap.insert m k v).map Prod.fst = m.map Prod.fst := by
  induction m with
  | nil => simp at h
  | cons p m ih =>
    obtain ⟨k', v'⟩ := p
    unfold HMap.insert
    by_cases hk : k' = k
    · rw [if_pos hk]; simp [hk]
    · rw [if_neg hk]
      simp only [List.map_cons, List.mem_cons] at h ⊢
      rw [ih (h.resolve_left (Ne.symm hk))]

theorem get?_of_mem {A B : Type*} [DecidableEq A] {m : List (A × B)} {k : A} (h : k ∈ m.map Prod.fst) : ∃ v, HMap.get? m k = some v ∧ (k, v) ∈ m := by
  cases hg : HMap.get? m k with
  | none => exact absurd h (HMap.get?_eq_none_iff.mp hg)
  | some v => exact ⟨v, rfl, HMap.get?_eq_some_mem hg⟩

theorem moveEntropy_ok : ∀ (l : LabelMap F64) (st : Scan), (∀ p ∈ l, p.1 ∈ st.right.map Prod.fst) →
    ∃ st', moveEntropy l st = some st' ∧ st'.right.map Prod.fst = st.right.map Prod.fst ∧ st'.bestScore = st.bestScore := by
  intro l
  induction l with
  | nil => intro st _; exact ⟨st, rfl, rfl, rfl⟩
  | cons p l ih =>
    obtain ⟨y, w⟩ := p
    intro st h
    have hy := h (y, w) (by simp)
    obtain ⟨v, hv, -⟩ := get?_of_mem hy
    unfold moveEntropy
    rw [hv]
    have hk : (HMap.insert st.right y (F64.sub v w)).map Prod.fst = st.right.map Prod.fst := insert_fst _ _ _ hy
    obtain ⟨st', e1, e2, e3⟩ := ih { st with left := addTo st.left y w, leftSum := F64.add st.leftSum w, right := HMap.insert st.right y (F64.sub v w) }
      (fun p hp => by show p.1 ∈ (HMap.insert st.right y (F64.sub v w)).map Prod.fst; rw [hk]; exact h p (List.mem_cons_of_mem _ hp))
    exact ⟨st', e1, e2.trans hk, e3⟩

theorem impurityLoop_ok {Imp : LabelMap F64 → F64 → Prop} (hImp : ∀ m, ∃ r, Imp m r) (ws : F64) : ∀ (pack : List (Bin F64 × LabelMap F64)) (st : Scan),
    (∀ q ∈ pack, ∀ p ∈ q.2, p.1 ∈ st.right.map Prod.fst) → st.bestScore ≠ nan →
    (∃ o, ImpurityLoop moveEntropy Imp ws pack st o) ∧
    ∀ o, ImpurityLoop moveEntropy Imp ws pack st o → ∃ r : F64 × F64, o = some r ∧ r.2 ≠ nan := by
  intro pack
  induction pack with
  | nil => intro st _ hs; exact ⟨⟨_, rfl⟩, fun o ho => ⟨_, ho, hs⟩⟩
  | cons q pack ih =>
    obtain ⟨bin, map⟩ := q
    intro st hk hs
    have step : ∀ map' : LabelMap F64, map'.Perm map → ∃ st', moveEntropy map' st = some st' ∧ st'.right.map Prod.fst = st.right.map Prod.fst ∧ st'.bestScore = st.bestScore :=
      fun map' hp => moveEntropy_ok map' st fun p hpm => hk (bin, map) (by simp) p (hp.mem_iff.mp hpm)
    have next : ∀ (st' : Scan) (score : F64), st'.right.map Prod.fst = st.right.map Prod.fst → st'.bestScore = st.bestScore →
        (∃ o, ImpurityLoop moveEntropy Imp ws pack (open Classical in if F64.Lt score st'.bestScore then { st' with bestScore := score, bestThreshold := bin.stop } else st') o) ∧
        ∀ o, ImpurityLoop moveEntropy Imp ws pack (open Classical in if F64.Lt score st'.bestScore then { st' with bestScore := score, bestThreshold := bin.stop } else st') o →
          ∃ r : F64 × F64, o = some r ∧ r.2 ≠ nan := by
      intro st' score h1 h2
      have hk' : ∀ q ∈ pack, ∀ p ∈ q.2, p.1 ∈ st'.right.map Prod.fst := by
        intro q hq p hp; rw [h1]; exact hk q (List.mem_cons_of_mem _ hq) p hp
      split
      · rename_i hlt
        exact ih _ hk' (lt_ne_nan hlt).1
      · exact ih _ hk' (by rw [h2]; exact hs)
    constructor
    · obtain ⟨st', e1, e2, e3⟩ := step map (List.Perm.refl map)
      obtain ⟨il, hil⟩ := hImp st'.left
      obtain ⟨ir, hir⟩ := hImp st'.right
      obtain ⟨⟨o, ho⟩, -⟩ := next st' (F64.add (F64.mul (F64.div st'.leftSum ws) il) (F64.mul (fmax (F64.sub (fin 1) (F64.div st'.leftSum ws)) (fin 0)) ir)) e2 e3
      refine ⟨o, map, List.Perm.refl map, ?_⟩
      rw [e1]
      exact ⟨il, ir, hil, hir, ho⟩
    · rintro o ⟨map', hp, h⟩
      obtain ⟨st', e1, e2, e3⟩ := step map' hp
      rw [e1] at h
      obtain ⟨il, ir, -, -, h⟩ := h
      exact (next st' _ e2 e3).2 o h

theorem exists_weightSum (pack : List (Bin F64 × LabelMap F64)) : ∃ r, WeightSum pack r := by
  obtain ⟨ts, h⟩ := exists_totals (pack.map Prod.snd)
  exact ⟨_, ts, h, rfl⟩

theorem pack_keys {pack : List (Bin F64 × LabelMap F64)} {ms : List (List (Int × ℝ))} (h : SoundPack pack ms) : ∀ q ∈ pack, ∀ p ∈ q.2, p.1 ∈ ms.flatten.map Prod.fst := by
  intro q hq p hp
  have h1 : q.2 ∈ ms.map toM := by rw [← h.maps]; exact List.mem_map.mpr ⟨q, hq, rfl⟩
  obtain ⟨m, hm, e⟩ := List.mem_map.mp h1
  rw [← e] at hp
  obtain ⟨r, hr, rfl⟩ := List.mem_map.mp hp
  exact List.mem_map.mpr ⟨r, List.mem_flatten.mpr ⟨m, hm, hr⟩, rfl⟩

theorem splitByEntropy_ok (L : Libm) {pack : List (Bin F64 × LabelMap F64)} {ms : List (List (Int × ℝ))} (h : SoundPack pack ms) :
    (∃ o, SplitByEntropy L pack o) ∧ ∀ o, SplitByEntropy L pack o → ∃ r : F64 × F64, o = some r ∧ r.2 ≠ nan := by
  have main : ∀ (right : LabelMap F64) (e ws : F64), AllWeights pack right → Entropy L right e →
      (∃ o, ImpurityLoop moveEntropy (Entropy L) ws pack ⟨[], fin 0, right, e, fin (-maxVal)⟩ o) ∧
      ∀ o, ImpurityLoop moveEntropy (Entropy L) ws pack ⟨[], fin 0, right, e, fin (-maxVal)⟩ o → ∃ r : F64 × F64, o = some r ∧ r.2 ≠ nan := by
    intro right e ws hr he
    obtain ⟨rm, rfl, r1, r2, r3, r4⟩ := allWeights_ok h hr
    have hs := abs_le.mp h.sum
    have hb := (r4.bound (by norm_num) h.pos.vsum_nonneg).2
    obtain ⟨x, rfl⟩ := entropy_ok L r1 r2 (by norm_num at hs hb ⊢; linarith [hs.2]) he
    refine impurityLoop_ok (exists_entropy L) ws pack _ ?_ (by simp)
    intro q hq p hp
    show p.1 ∈ (toM rm).map Prod.fst
    rw [toM_fst, r3]
    exact pack_keys h q hq p hp
  constructor
  · obtain ⟨ws, h1⟩ := exists_weightSum pack
    obtain ⟨right, h2⟩ := exists_allWeights pack
    obtain ⟨e, h3⟩ := exists_entropy L right
    obtain ⟨⟨o, ho⟩, -⟩ := main right e ws h2 h3
    exact ⟨o, ws, right, e, h1, h2, h3, ho⟩
  · rintro o ⟨ws, right, e, h1, h2, h3, ho⟩
    exact (main right e ws h2 h3).2 o ho

/-! ## Edge -/

theorem ofInt_fin {z : Int} (h : |z| ≤ 2 ^ 63) : ∃ x, ofInt z = fin x ∧ F64.Rep x ∧ |x| ≤ |(z : ℝ)| + 2000 := by
  have hz : |(z : ℝ)| ≤ 2 ^ 63 := by exact_mod_cast h
  refine ⟨F64.round z, rnd_small (hz.trans (by norm_num)), rep_round _, ?_⟩
  have := le_abs_of_dist (round_err (z : ℝ))
  have hu := u_small
  have hη := eta_tiny
  have : u * |(z : ℝ)| ≤ 1 / 9000000000000000 * 2 ^ 63 := by gcongr
  norm_num at *
  linarith

theorem abs_sum_le {l : List ℝ} {c : ℝ} (h : ∀ x ∈ l, |x| ≤ c) : (l.map (|·|)).sum ≤ l.length * c := by
  induction l with
  | nil => simp
  | cons a l ih =>
    have h1 := ih fun x hx => h x (List.mem_cons_of_mem _ hx)
    have h2 := h a (by simp)
    simp only [List.map_cons, List.sum_cons, List.length_cons]
    push_cast
    linarith

theorem hi_pow {k : ℕ} (hk : k ≤ 10 ^ 6) : (1 + u) ^ k ≤ 2 := by
  have hN : Near k ((1 + u) ^ k * 1) 1 := ⟨by
    rw [mul_one, mul_one]
    exact (pow_le_one₀ lo_pos.le lo_le).trans (one_le_pow₀ hi_ge), le_rfl⟩
  have := (hN.bound hk zero_le_one).2
  norm_num at this ⊢
  linarith

theorem exists_signedSum (m : LabelMap F64) : ∃ r, SignedSum m r := ⟨_, m, List.Perm.refl m, rfl⟩

theorem exists_signedSums (ms : List (LabelMap F64)) : ∃ ts, List.Forall₂ SignedSum ms ts := by
  induction ms with
  | nil => exact ⟨[], .nil⟩
  | cons m ms ih =>
    obtain ⟨ts, h⟩ := ih
    obtain ⟨t, h'⟩ := exists_signedSum m
    exact ⟨t :: ts, .cons h' h⟩

theorem signedSum_ok {m : List (Int × ℝ)} (hm : PM m) (hl : m.length ≤ 10 ^ 5) (hv : vsum m ≤ 2) (hy : ∀ p ∈ m, |p.1| ≤ 2 ^ 31) {r : F64} (hr : SignedSum (toM m) r) :
    ∃ x, r = fin x ∧ F64.Rep x ∧ |x| ≤ m.length * 2 ^ 34 := by
  obtain ⟨l, hp, rfl⟩ := hr
  obtain ⟨m', hp', rfl⟩ := perm_toM hp
  have hlen := hp'.length_eq
  have hu := u_small
  have hu0 := u_pos
  have hη := eta_tiny
  have item : ∀ p ∈ m', ∃ x, F64.mul (ofInt p.1) (fin p.2) = fin x ∧ F64.Rep x ∧ |x| ≤ 2 ^ 33 := by
    intro p hpm
    have hpm' := hp'.mem_iff.mp hpm
    have hz : |(p.1 : ℝ)| ≤ 2 ^ 31 := by exact_mod_cast hy p hpm'
    obtain ⟨x, e1, e2, e3⟩ := ofInt_fin ((hy p hpm').trans (by norm_num))
    have h1 := hm.le_vsum hpm'
    have h2 := hm.nonneg p hpm'
    have hx : |x * p.2| ≤ (2 ^ 31 + 2000) * 2 := by
      rw [abs_mul, abs_of_nonneg h2]
      exact mul_le_mul (by linarith) (by linarith) h2 (by norm_num)
    refine ⟨F64.round (x * p.2), ?_, rep_round _, ?_⟩
    · rw [e1, F64.mul, rnd_small (hx.trans (by norm_num))]
    · have h3 := le_abs_of_dist (round_err (x * p.2))
      have h4 : u * |x * p.2| ≤ 1 / 9000000000000000 * ((2 ^ 31 + 2000) * 2) := by gcongr
      norm_num at *
      linarith
  obtain ⟨xs, x1, x2, x3⟩ : ∃ xs : List ℝ, ((toM m').map fun p => F64.mul (ofInt p.1) p.2) = xs.map fin ∧ xs.length = m'.length ∧
      ∀ x ∈ xs, F64.Rep x ∧ |x| ≤ 2 ^ 33 := by
    clear hp' hlen hp
    induction m' with
    | nil => exact ⟨[], rfl, rfl, by simp⟩
    | cons p m' ih =>
      obtain ⟨xs, e1, e2, e3⟩ := ih fun q hq => item q (List.mem_cons_of_mem _ hq)
      obtain ⟨x, f1, f2, f3⟩ := item p (by simp)
      refine ⟨x :: xs, ?_, by simp [e2], ?_⟩
      · rw [List.map_cons, ← e1, ← f1]; rfl
      · intro z hz
        rcases List.mem_cons.mp hz with rfl | hz
        · exact ⟨f2, f3⟩
        · exact e3 z hz
  have hbd := abs_sum_le fun x hx => (x3 x hx).2
  have hxl : (xs.length : ℝ) ≤ 100000 := by
    rw [x2, hlen]; exact_mod_cast (hl.trans (by norm_num) : m.length ≤ 100000)
  obtain ⟨s, e1, e2, e3⟩ := split_abs (.seq (xs.map fin)) xs rfl (fun x hx => (x3 x hx).1) (hbd.trans (by norm_num; linarith)) (by rw [x2, hlen]; omega)
  refine ⟨s, by rw [x1]; exact e1, e2, e3.trans ?_⟩
  have h0 : 0 ≤ (xs.map (|·|)).sum := List.sum_nonneg (by simp only [List.mem_map]; rintro _ ⟨a, -, rfl⟩; exact abs_nonneg a)
  calc (1 + u) ^ xs.length * (xs.map (|·|)).sum ≤ 2 * (xs.length * 2 ^ 33) := mul_le_mul (hi_pow (by rw [x2, hlen]; omega)) hbd h0 (by norm_num)
    _ = m.length * 2 ^ 34 := by rw [x2, hlen]; ring

theorem edgeLoop_ok : ∀ (pack : List (Bin F64 × LabelMap F64)) (e be bt : F64), be ≠ nan →
    (∃ r, EdgeLoop pack e be bt r) ∧ ∀ r, EdgeLoop pack e be bt r → r.2 ≠ nan := by
  intro pack
  induction pack with
  | nil => intro e be bt h; exact ⟨⟨_, rfl⟩, fun r hr => by rw [show r = (bt, be) from hr]; exact h⟩
  | cons q pack ih =>
    obtain ⟨bin, map⟩ := q
    intro e be bt h
    have step : ∀ d : F64, (∃ r, (open Classical in if F64.Lt be (F64.abs (F64.sub e (F64.mul (fin 2) d)))
          then EdgeLoop pack (F64.sub e (F64.mul (fin 2) d)) (F64.abs (F64.sub e (F64.mul (fin 2) d))) bin.stop r
          else EdgeLoop pack (F64.sub e (F64.mul (fin 2) d)) be bt r)) ∧
        ∀ r, (open Classical in if F64.Lt be (F64.abs (F64.sub e (F64.mul (fin 2) d)))
          then EdgeLoop pack (F64.sub e (F64.mul (fin 2) d)) (F64.abs (F64.sub e (F64.mul (fin 2) d))) bin.stop r
          else EdgeLoop pack (F64.sub e (F64.mul (fin 2) d)) be bt r) → r.2 ≠ nan := by
      intro d
      by_cases hlt : F64.Lt be (F64.abs (F64.sub e (F64.mul (fin 2) d)))
      · simp only [hlt, if_true]
        exact ih _ _ _ (lt_ne_nan hlt).2
      · simp only [hlt, if_false]
        exact ih _ _ _ h
    constructor
    · obtain ⟨d, hd⟩ := exists_signedSum map
      obtain ⟨⟨r, hr⟩, -⟩ := step d
      exact ⟨r, d, hd, hr⟩
    · rintro r ⟨d, hd, hr⟩
      exact (step d).2 r hr

theorem splitByEdge_ok {pack : List (Bin F64 × LabelMap F64)} {ms : List (List (Int × ℝ))} (h : SoundPack pack ms) :
    (∃ o, SplitByEdge pack o) ∧ ∀ r, SplitByEdge pack r → r.2 ≠ nan := by
  have hs := abs_le.mp h.sum
  have hfew := h.few
  have hbins := h.bins
  have sums : ∀ (l : List (List (Int × ℝ))), PM l.flatten → vsum l.flatten ≤ 2 → (∀ p ∈ l.flatten, |p.1| ≤ 2 ^ 31) → l.flatten.length ≤ 10 ^ 5 →
      ∀ ds, List.Forall₂ SignedSum (l.map toM) ds → ∃ xs : List ℝ, ds = xs.map fin ∧ xs.length = l.length ∧ (∀ x ∈ xs, F64.Rep x) ∧
        (xs.map (|·|)).sum ≤ l.flatten.length * 2 ^ 34 := by
    intro l
    induction l with
    | nil => intro _ _ _ _ ds hd; cases hd; exact ⟨[], rfl, rfl, by simp, by simp⟩
    | cons m l ih =>
      intro h1 h2 h3 h4 ds hd
      obtain ⟨d, ds, rfl⟩ : ∃ t l, ds = t :: l := by cases hd; exact ⟨_, _, rfl⟩
      rw [List.map_cons, List.forall₂_cons] at hd
      simp only [List.flatten_cons, List.length_append, vsum_append] at h2 h4 ⊢
      have p1 : PM m := fun p hp => h1 p (by simp [hp])
      have p2 : PM l.flatten := fun p hp => h1 p (by rw [List.flatten_cons]; exact List.mem_append_right _ hp)
      have n1 := p1.vsum_nonneg
      have n2 := p2.vsum_nonneg
      obtain ⟨x, rfl, x1, x2⟩ := signedSum_ok p1 (by omega) (by linarith) (fun p hp => h3 p (by simp [hp])) hd.1
      obtain ⟨xs, rfl, e2, e3, e4⟩ := ih p2 (by linarith) (fun p hp => h3 p (by rw [List.flatten_cons]; exact List.mem_append_right _ hp)) (by omega) ds hd.2
      refine ⟨x :: xs, rfl, by simp [e2], ?_, ?_⟩
      · intro z hz
        rcases List.mem_cons.mp hz with rfl | hz
        · exact x1
        · exact e3 z hz
      · simp only [List.map_cons, List.sum_cons]
        push_cast
        linarith
  have main : ∀ ds, List.Forall₂ SignedSum (pack.map Prod.snd) ds → F64.abs (ds.foldl F64.add (fin 0)) ≠ nan := by
    intro ds hd
    rw [h.maps] at hd
    obtain ⟨xs, rfl, e2, e3, e4⟩ := sums ms h.pos (by norm_num at hs ⊢; linarith [hs.2]) h.labels hfew ds hd
    have hl : (ms.flatten.length : ℝ) ≤ 100000 := by exact_mod_cast (hfew.trans (by norm_num) : ms.flatten.length ≤ 100000)
    obtain ⟨s, f1, -, -⟩ := split_abs (.seq (xs.map fin)) xs rfl e3 (e4.trans ((mul_le_mul_of_nonneg_right hl (by norm_num)).trans (by norm_num))) (by omega)
    have f1' : (xs.map fin).foldl F64.add (fin 0) = fin s := f1
    rw [f1']
    simp [F64.abs]
  constructor
  · obtain ⟨ds, hd⟩ := exists_signedSums (pack.map Prod.snd)
    obtain ⟨⟨r, hr⟩, -⟩ := edgeLoop_ok pack (ds.foldl F64.add (fin 0)) _ (fin (-maxVal)) (main ds hd)
    exact ⟨r, ds, hd, hr⟩
  · rintro r ⟨ds, hd, hr⟩
    exact (edgeLoop_ok pack _ _ _ (main ds hd)).2 r hr

/-! ## Twoing -/

/-- Sum of the absolute values. -/
noncomputable def asum (m : List (Int × ℝ)) : ℝ := (m.map fun p => |p.2|).sum

theorem insert_ok {y : Int} : ∀ (m : List (Int × ℝ)), y ∈ m.map Prod.fst → ∃ v, HMap.get? (toM m) y = some (fin v) ∧ (y, v) ∈ m ∧
    ∀ v', ∃ m', HMap.insert (toM m) y (fin v') = toM m' ∧ vsum m' = vsum m - v + v' ∧ asum m' = asum m - |v| + |v'| ∧
      m'.map Prod.fst = m.map Prod.fst ∧ (∀ p ∈ m', p ∈ m ∨ p.2 = v') := by
  intro m
  induction m with
  | nil => intro h; simp at h
  | cons p m ih =>
    intro h
    obtain ⟨k, x⟩ := p
    by_cases hk : k = y
    · subst hk
      refine ⟨x, ?_, by simp, fun v' => ⟨(k, v') :: m, ?_, ?_, ?_, by simp, ?_⟩⟩
      · show (if k = k then some (fin x) else HMap.get? (toM m) k) = _
        rw [if_pos rfl]
      · show (if k = k then (k, fin v') :: toM m else (k, fin x) :: HMap.insert (toM m) k (fin v')) = _
        rw [if_pos rfl]; rfl
      · simp only [vsum_cons]; ring
      · simp only [asum, List.map_cons, List.sum_cons]; ring
      · intro q hq
        rcases List.mem_cons.mp hq with rfl | hq
        · exact Or.inr rfl
        · exact Or.inl (List.mem_cons_of_mem _ hq)
    · obtain ⟨v, e1, e2, e3⟩ := ih (by simp only [List.map_cons, List.mem_cons] at h; exact h.resolve_left (Ne.symm hk))
      refine ⟨v, ?_, List.mem_cons_of_mem _ e2, fun v' => ?_⟩
      · show (if k = y then some (fin x) else HMap.get? (toM m) y) = _
        rw [if_neg hk, e1]
      · obtain ⟨m', f1, f2, f3, f4, f5⟩ := e3 v'
        refine ⟨(k, x) :: m', ?_, ?_, ?_, by simp [f4], ?_⟩
        · show (if k = y then (y, fin v') :: toM m else (k, fin x) :: HMap.insert (toM m) y (fin v')) = _
          rw [if_neg hk, f1]; rfl
        · simp only [vsum_cons, f2]; ring
        · simp only [asum, List.map_cons, List.sum_cons] at f3 ⊢; rw [f3]; ring
        · intro q hq
          rcases List.mem_cons.mp hq with rfl | hq
          · exact Or.inl (by simp)
          · rcases f5 q hq with h | h
            · exact Or.inl (List.mem_cons_of_mem _ h)
            · exact Or.inr h

/-- The state of the twoing search after weights with sum `A` have been moved (`k` of them) and weights with sum `B` are left. -/
structure TwoState (st : LabelMap F64 × LabelMap F64) (keys : List Int) (k : ℕ) (A B : ℝ) (lm rm : List (Int × ℝ)) : Prop where
  left : st.1 = toM lm
  right : st.2 = toM rm
  leftPos : PM lm
  leftFew : lm.length ≤ k
  leftSum : Near k (vsum lm) A
  rightRep : ∀ p ∈ rm, F64.Rep p.2
  rightFew : rm.length ≤ 10 ^ 5
  rightKeys : rm.map Prod.fst = keys
  rightSum : |vsum rm - B| ≤ 1 / 10 ^ 8 + k * (1 / 10 ^ 14)
  rightAbs : asum rm ≤ 11 / 10 + A + k * (1 / 10 ^ 14)

theorem abs_le_asum {m : List (Int × ℝ)} {p : Int × ℝ} (h : p ∈ m) : |p.2| ≤ asum m := by
  have : ∀ x ∈ m.map fun p => |p.2|, 0 ≤ x := by simp only [List.mem_map]; rintro _ ⟨q, -, rfl⟩; exact abs_nonneg _
  exact List.single_le_sum this _ (List.mem_map.mpr ⟨p, h, rfl⟩)

open Classical in
theorem moveTwoing_cons (y : Int) (w : F64) (l left right : LabelMap F64) : moveTwoing ((y, w) :: l) (left, right) =
    moveTwoing l (addTo left y w, if Le ((HMap.get? (addTo left y w) y).getD (fin 0)) (fin 0)
      then HMap.remove (match HMap.get? right y with | none => right | some v => HMap.insert right y (F64.sub v w)) y
      else match HMap.get? right y with | none => right | some v => HMap.insert right y (F64.sub v w)) := rfl

theorem moveTwoing_ok {keys : List Int} : ∀ (l : List (Int × ℝ)) (st : LabelMap F64 × LabelMap F64) (k : ℕ) (A B : ℝ) (lm rm : List (Int × ℝ)),
    TwoState st keys k A B lm rm → PM l → (∀ p ∈ l, p.1 ∈ keys) → 0 ≤ A → A + vsum l ≤ 11 / 10 → k + l.length ≤ 10 ^ 5 →
    ∃ lm' rm', TwoState (moveTwoing (toM l) st) keys (k + l.length) (A + vsum l) (B - vsum l) lm' rm' := by
  intro l
  induction l with
  | nil => intro st k A B lm rm h _ _ _ _ _; exact ⟨lm, rm, by simpa [vsum_nil, toM_nil, moveTwoing] using h⟩
  | cons p l ih =>
    obtain ⟨y, w⟩ := p
    intro st k A B lm rm h hl hk hA hAB hkl
    obtain ⟨sl, sr⟩ := st
    obtain ⟨⟨hw1, hw2⟩, hl'⟩ := hl.cons
    simp only at hw1 hw2
    have hη := eta_pos
    have hη' := eta_tiny
    have hu := u_small
    have hu0 := u_pos
    have hv := hl'.vsum_nonneg
    simp only [vsum_cons, List.length_cons] at hAB hkl ⊢
    have hkr : (k : ℝ) ≤ 100000 := by exact_mod_cast (by omega : k ≤ 100000)
    obtain ⟨L, R, l1, l2, l3, r1, r2, r3, r4, r5⟩ := h
    simp only at L R
    subst L R
    have hb := (l3.bound (by omega) hA).2
    obtain ⟨lm1, e1, e2, -, e3, e4, e5, e6⟩ := addTo_ok l1 y hw1 hw2 (by norm_num at hb ⊢; linarith)
    obtain ⟨v, g1, g2, g3⟩ := insert_ok rm (by rw [r3]; exact hk (y, w) (by simp))
    have hav := (abs_le_asum g2).trans r5
    simp only at hav
    have hab : |v + -w| ≤ |v| + w := by
      have := abs_add_le v (-w)
      rwa [abs_neg, abs_of_nonneg (by linarith : 0 ≤ w)] at this
    have hk14 : (k : ℝ) * (1 / 10 ^ 14) ≤ 1 / 10 ^ 9 := (mul_le_mul_of_nonneg_right hkr (by norm_num)).trans (by norm_num)
    have hab3 : |v + -w| ≤ 4 := by
      have h9 : (1 / 10 ^ 9 : ℝ) ≤ 1 / 10 := by norm_num
      linarith only [hab, hav, hk14, h9, hAB, hv]
    have hsub : F64.sub (fin v) (fin w) = fin (F64.round (v + -w)) := by
      rw [F64.sub, F64.neg, F64.add, rnd_small (hab3.trans (by norm_num))]
    have hre : |F64.round (v + -w) - (v + -w)| ≤ 1 / 10 ^ 14 := by
      refine (round_err _).trans ?_
      have : u * |v + -w| ≤ 1 / 9000000000000000 * 4 := by gcongr
      have h9 : (1 / 9000000000000000 * 4 : ℝ) + 1 / 10 ^ 18 ≤ 1 / 10 ^ 14 := by norm_num
      have h8 : eta ≤ 1 / 10 ^ 18 := hη'.trans (by norm_num)
      linarith only [this, h9, h8]
    obtain ⟨rm1, i1, i2, i3, i4, i5⟩ := g3 (F64.round (v + -w))
    have hmv : moveTwoing (toM ((y, w) :: l)) (toM lm, toM rm) = moveTwoing (toM l) (toM lm1, toM rm1) := by
      have hg : ∃ x, HMap.get? (toM lm1) y = some (fin x) ∧ 0 < x := by
        have : y ∈ (toM lm1).map Prod.fst := by rw [toM_fst]; exact (e4 y).mpr (Or.inl rfl)
        obtain ⟨x, hx1, hx2⟩ := get?_of_mem this
        obtain ⟨q, hq, hqe⟩ := List.mem_map.mp hx2
        obtain ⟨-, rfl⟩ := Prod.mk.injEq _ _ _ _ ▸ hqe
        exact ⟨q.2, hx1, by have := (e2 q hq).1; linarith⟩
      obtain ⟨x, hx1, hx2⟩ := hg
      refine (moveTwoing_cons y (fin w) (toM l) (toM lm) (toM rm)).trans ?_
      rw [e1, g1, hx1, Option.getD_some]
      refine congrArg _ (Prod.ext rfl ?_)
      refine (if_neg (show ¬ Le (fin x) (fin 0) from not_le.mpr hx2)).trans ?_
      show HMap.insert (toM rm) y (F64.sub (fin v) (fin w)) = _
      rw [hsub, i1]
    rw [hmv]
    have hN : Near (k + 1) (vsum lm1) (A + w) := (l3.add (Near.mono (Nat.zero_le k) (by linarith) (Near.refl w))).step e5 e6
    have hst : TwoState (toM lm1, toM rm1) keys (k + 1) (A + w) (B - w) lm1 rm1 := by
      refine ⟨rfl, rfl, e2, by omega, hN, ?_, ?_, i4.trans r3, ?_, ?_⟩
      · intro p hp
        rcases i5 p hp with h | h
        · exact r1 p h
        · rw [h]; exact rep_round _
      · have := congrArg List.length i4
        simp only [List.length_map] at this
        omega
      · rw [i2]
        have h1 := abs_le.mp hre
        have h2 := abs_le.mp r4
        push_cast
        rw [abs_le]
        constructor <;> linarith [h1.1, h1.2, h2.1, h2.2]
      · rw [i3]
        have h3 := le_abs_of_dist hre
        push_cast
        linarith
    obtain ⟨lm', rm', h'⟩ := ih _ (k + 1) (A + w) (B - w) lm1 rm1 hst hl' (fun p hp => hk p (List.mem_cons_of_mem _ hp)) (by linarith) (by linarith) (by omega)
    refine ⟨lm', rm', ?_⟩
    rw [show k + (l.length + 1) = k + 1 + l.length by ring, show A + (w + vsum l) = A + w + vsum l by ring, show B - (w + vsum l) = B - w - vsum l by ring]
    exact h'

open Classical in
theorem twoing_ok {st : LabelMap F64 × LabelMap F64} {keys labels : List Int} {k : ℕ} {A B : ℝ} {lm rm : List (Int × ℝ)} (h : TwoState st keys k A B lm rm)
    (hk : k ≤ 10 ^ 5) (hA : 0 ≤ A) (hA2 : A ≤ 11 / 10) (hAB : 9 / 10 ≤ A + B) :
    (∃ x, Twoing labels st.1 st.2 x) ∧ ∀ x, Twoing labels st.1 st.2 x → ∃ y, x = some y := by
  have hu := u_small
  have hu0 := u_pos
  have hkr : (k : ℝ) ≤ 100000 := by exact_mod_cast (hk.trans (by norm_num) : k ≤ 100000)
  have hk14 : (k : ℝ) * (1 / 10 ^ 14) ≤ 1 / 10 ^ 9 := (mul_le_mul_of_nonneg_right hkr (by norm_num)).trans (by norm_num)
  have key : ∀ pl pr, Total st.1 pl → Total st.2 pr → F64.Lt (fin 0) (F64.add pl pr) := by
    intro pl pr h1 h2
    rw [h.left] at h1
    rw [h.right] at h2
    have hb := h.leftSum.bound (by omega) hA
    obtain ⟨a, rfl, a1, a2⟩ := total_ok h.leftPos (by have := h.leftFew; omega) (by norm_num at *; linarith) h1
    have hb2 := a2.bound (by have := h.leftFew; omega) h.leftPos.vsum_nonneg
    obtain ⟨l, hp, rfl⟩ := h2
    obtain ⟨m', hp', rfl⟩ := perm_toM hp
    rw [toM_snd]
    have hlen := hp'.length_eq
    have hrf := h.rightFew
    have hasum : ((m'.map Prod.snd).map (|·|)).sum = asum rm := by
      unfold asum
      rw [List.map_map]
      exact (hp'.map _).sum_eq
    obtain ⟨s, s1, s2, s3⟩ := foldl_add_err 3 (by norm_num) (by norm_num) (m'.map Prod.snd) 0 0 0 rep_zero (by simp)
      (by rw [hasum, abs_zero, zero_add]; have := h.rightAbs; norm_num at *; linarith) (by rw [List.length_map]; omega)
    rw [s1]
    simp only [zero_add, List.length_map] at s3
    rw [show (m'.map Prod.snd).sum = vsum rm from vsum_perm hp'] at s3
    have hml : (m'.length : ℝ) ≤ 100000 := by exact_mod_cast (by omega : m'.length ≤ 100000)
    have hs3 : 2 * u * 3 * m'.length ≤ 1 / 10 ^ 8 := by
      calc 2 * u * 3 * m'.length ≤ 2 * (1 / 9000000000000000) * 3 * 100000 := by gcongr
        _ ≤ _ := by norm_num
    have h3 := abs_le.mp (s3.trans hs3)
    have h4 := abs_le.mp h.rightSum
    have hval := h.leftPos.vsum_nonneg
    have hab : 8 / 10 ≤ a + s := by
      norm_num at *
      nlinarith [h3.1, h4.1, hb.1, hb2.1]
    have hpos := round_add_pos a1 s2 (by linarith)
    have hfin : F64.add (fin a) (fin s) = fin (F64.round (a + s)) := by
      have h6 : s ≤ asum rm + 1 := by
        have : vsum rm ≤ asum rm := by
          unfold vsum asum
          exact List.sum_le_sum fun p _ => le_abs_self _
        norm_num at *
        linarith [h3.2]
      have := h.rightAbs
      rw [F64.add, rnd_small]
      rw [abs_of_nonneg (by linarith)]
      norm_num at *
      linarith [hb.2, hb2.2]
    rw [hfin]
    exact hpos
  constructor
  · obtain ⟨pl, h1⟩ := exists_total st.1
    obtain ⟨pr, h2⟩ := exists_total st.2
    by_cases hc : pl = fin 0 ∨ pr = fin 0
    · exact ⟨some (fin 0), pl, pr, h1, h2, by rw [if_pos hc]⟩
    · exact ⟨_, pl, pr, h1, h2, by rw [if_neg hc, if_pos (key pl pr h1 h2)]; exact ⟨labels, List.Perm.refl _, rfl⟩⟩
  · rintro x ⟨pl, pr, h1, h2, hx⟩
    by_cases hc : pl = fin 0 ∨ pr = fin 0
    · rw [if_pos hc] at hx; exact ⟨_, hx⟩
    · rw [if_neg hc, if_pos (key pl pr h1 h2)] at hx
      obtain ⟨ys, -, hx⟩ := hx
      exact ⟨_, hx⟩

open Classical in
theorem twoingLoop_ok {labels keys : List Int} : ∀ (pack : List (Bin F64 × LabelMap F64)) (ms : List (List (Int × ℝ))) (st : LabelMap F64 × LabelMap F64) (k : ℕ)
    (A : ℝ) (lm rm : List (Int × ℝ)) (bs bt : F64), pack.map Prod.snd = ms.map toM → PM ms.flatten → (∀ p ∈ ms.flatten, p.1 ∈ keys) → TwoState st keys k A (vsum ms.flatten) lm rm →
    0 ≤ A → 9 / 10 ≤ A + vsum ms.flatten → A + vsum ms.flatten ≤ 11 / 10 → k + ms.flatten.length ≤ 10 ^ 5 → bs ≠ nan →
    (∃ o, TwoingLoop labels pack st bs bt o) ∧ ∀ o, TwoingLoop labels pack st bs bt o → ∃ r : F64 × F64, o = some r ∧ r.2 ≠ nan := by
  intro pack
  induction pack with
  | nil => intro ms st k A lm rm bs bt _ _ _ _ _ _ _ _ hb; exact ⟨⟨_, rfl⟩, fun o ho => ⟨_, ho, hb⟩⟩
  | cons q pack ih =>
    obtain ⟨bin, map⟩ := q
    intro ms st k A lm rm bs bt hmaps hPM hkeys hst hA h1 h2 hk hb
    cases ms with
    | nil => simp at hmaps
    | cons m ms =>
      simp only [List.map_cons, List.cons.injEq] at hmaps
      obtain ⟨rfl, hmaps⟩ := hmaps
      simp only [List.flatten_cons, vsum_append, List.length_append] at h1 h2 hk hst
      have p1 : PM m := fun p hp => hPM p (by simp [hp])
      have p2 : PM ms.flatten := fun p hp => hPM p (by rw [List.flatten_cons]; exact List.mem_append_right _ hp)
      have v1 := p1.vsum_nonneg
      have v2 := p2.vsum_nonneg
      have step : ∀ map' : LabelMap F64, map'.Perm (toM m) → ∃ lm' rm', TwoState (moveTwoing map' st) keys (k + m.length) (A + vsum m) (vsum ms.flatten) lm' rm' := by
        intro map' hp
        obtain ⟨m', hp', rfl⟩ := perm_toM hp
        have e := vsum_perm hp'
        have e' := hp'.length_eq
        obtain ⟨lm', rm', h⟩ := moveTwoing_ok m' st k A _ lm rm hst (p1.perm hp')
          (fun p hpm => hkeys p (by rw [List.flatten_cons]; exact List.mem_append_left _ (hp'.mem_iff.mp hpm))) hA (by linarith) (by omega)
        rw [e, e', show vsum m + vsum ms.flatten - vsum m = vsum ms.flatten by ring] at h
        exact ⟨lm', rm', h⟩
      have next : ∀ st' lm' rm', TwoState st' keys (k + m.length) (A + vsum m) (vsum ms.flatten) lm' rm' → ∀ score : F64,
          (∃ o, if F64.Lt bs score then TwoingLoop labels pack st' score bin.stop o else TwoingLoop labels pack st' bs bt o) ∧
          ∀ o, (if F64.Lt bs score then TwoingLoop labels pack st' score bin.stop o else TwoingLoop labels pack st' bs bt o) →
            ∃ r : F64 × F64, o = some r ∧ r.2 ≠ nan := by
        intro st' lm' rm' hst' score
        have hkeys' : ∀ p ∈ ms.flatten, p.1 ∈ keys := fun p hp => hkeys p (by rw [List.flatten_cons]; exact List.mem_append_right _ hp)
        by_cases hlt : F64.Lt bs score
        · simp only [hlt, if_true]
          exact ih ms st' _ _ lm' rm' _ _ hmaps p2 hkeys' hst' (by linarith) (by linarith) (by linarith) (by omega) (lt_ne_nan hlt).2
        · simp only [hlt, if_false]
          exact ih ms st' _ _ lm' rm' _ _ hmaps p2 hkeys' hst' (by linarith) (by linarith) (by linarith) (by omega) hb
      constructor
      · obtain ⟨lm', rm', hst'⟩ := step (toM m) (List.Perm.refl _)
        obtain ⟨⟨x, hx⟩, hx'⟩ := twoing_ok (labels := labels) hst' (by omega) (by linarith) (by linarith) (by linarith)
        obtain ⟨y, rfl⟩ := hx' x hx
        obtain ⟨⟨o, ho⟩, -⟩ := next _ lm' rm' hst' y
        exact ⟨o, toM m, some y, List.Perm.refl _, hx, ho⟩
      · rintro o ⟨map', x, hp, hx, ho⟩
        obtain ⟨lm', rm', hst'⟩ := step map' hp
        obtain ⟨-, hx'⟩ := twoing_ok (labels := labels) hst' (by omega) (by linarith) (by linarith) (by linarith)
        obtain ⟨y, rfl⟩ := hx' x hx
        exact (next _ lm' rm' hst' y).2 o ho

theorem splitByTwoing_ok {pack : List (Bin F64 × LabelMap F64)} {ms : List (List (Int × ℝ))} (h : SoundPack pack ms) :
    (∃ o, SplitByTwoing pack o) ∧ ∀ o, SplitByTwoing pack o → ∃ r : F64 × F64, o = some r ∧ r.2 ≠ nan := by
  have main : ∀ right : LabelMap F64, AllWeights pack right →
      (∃ o, TwoingLoop (labelSet pack) pack ([], right) (fin 0) (fin (-maxVal)) o) ∧
      ∀ o, TwoingLoop (labelSet pack) pack ([], right) (fin 0) (fin (-maxVal)) o → ∃ r : F64 × F64, o = some r ∧ r.2 ≠ nan := by
    intro right hr
    obtain ⟨rm, rfl, r1, r2, r3, r4⟩ := allWeights_ok h hr
    have hs := abs_le.mp h.sum
    have hb := r4.bound (by norm_num) h.pos.vsum_nonneg
    have hfew := h.few
    have hasum : asum rm = vsum rm := by
      unfold asum vsum
      congr 1
      refine List.map_congr_left fun p hp => abs_of_nonneg (r1.nonneg p hp)
    refine twoingLoop_ok pack ms _ 0 0 [] rm _ _ h.maps h.pos (keys := rm.map Prod.fst) ?_ ⟨rfl, rfl, PM.nil, by simp, ?_, fun p hp => (r1 p hp).2, r2, rfl, ?_, ?_⟩ le_rfl ?_ ?_ (by omega) (by simp)
    · intro p hp
      exact (r3 p.1).mpr (List.mem_map.mpr ⟨p, hp, rfl⟩)
    · rw [vsum_nil]; exact Near.refl 0
    · rw [abs_le]
      norm_num at *
      constructor <;> linarith [hb.1, hb.2, hs.2]
    · rw [hasum]
      norm_num at *
      linarith [hb.2, hs.2]
    · norm_num at *; linarith [hs.1]
    · norm_num at *; linarith [hs.2]
  constructor
  · obtain ⟨right, h2⟩ := exists_allWeights pack
    obtain ⟨⟨o, ho⟩, -⟩ := main right h2
    exact ⟨o, right, h2, ho⟩
  · rintro o ⟨right, h2, ho⟩
    exact (main right h2).2 o ho

end Miniboosts.FTree
