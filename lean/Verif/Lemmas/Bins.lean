import Verif.Spec.Tree
import Verif.Lemmas.Feature
import Mathlib.Algebra.Order.Field.Basic
import Mathlib.Tactic.Linarith
import Mathlib.Tactic.FieldSimp
import Mathlib.Tactic.Positivity

set_option linter.unusedSectionVars false

namespace Miniboosts

open Spec

variable {K : Type*} [Field K] [LinearOrder K] [IsStrictOrderedRing K]

/-! ## Tilings -/

theorem tiles_le {a z : K} {bins : List (Bin K)} (h : Tiles a bins z) : a ≤ z := by
  induction bins generalizing a with
  | nil => exact le_of_eq h
  | cons b l ih => exact (h.2.1.trans_le (ih h.2.2)).le

theorem tiles_mem {a z : K} {bins : List (Bin K)} (h : Tiles a bins z) :
    ∀ b ∈ bins, a ≤ b.start ∧ b.start < b.stop ∧ b.stop ≤ z := by
  induction bins generalizing a with
  | nil => intro b hb; cases hb
  | cons c l ih =>
    intro b hb
    rcases List.mem_cons.mp hb with rfl | hb
    · exact ⟨h.1.ge, by rw [h.1]; exact h.2.1, tiles_le h.2.2⟩
    · have := ih h.2.2 b hb
      exact ⟨h.2.1.le.trans this.1, this.2⟩

theorem tiles_pairwise {a z : K} {bins : List (Bin K)} (h : Tiles a bins z) :
    bins.Pairwise (fun b c => b.stop ≤ c.start) := by
  induction bins generalizing a with
  | nil => exact .nil
  | cons c l ih => exact .cons (fun b hb => (tiles_mem h.2.2 b hb).1) (ih h.2.2)

theorem tiles_exists {a z : K} {bins : List (Bin K)} (h : Tiles a bins z) {x : K} (h1 : a ≤ x) (h2 : x < z) :
    ∃ b ∈ bins, b.contains x = true := by
  induction bins generalizing a with
  | nil => exact absurd (h1.trans_lt h2) (by rw [show a = z from h]; exact lt_irrefl _)
  | cons c l ih =>
    by_cases hx : x < c.stop
    · exact ⟨c, by simp, by simp [Bin.contains, h.1, h1, hx]⟩
    · obtain ⟨b, hb, hc⟩ := ih h.2.2 (not_lt.mp hx)
      exact ⟨b, List.mem_cons_of_mem _ hb, hc⟩

theorem contains_iff {b : Bin K} {x : K} : b.contains x = true ↔ b.start ≤ x ∧ x < b.stop := by
  simp [Bin.contains]

theorem tiles_unique {a z : K} {bins : List (Bin K)} (h : Tiles a bins z) {x : K} {i j : Nat} {b c : Bin K}
    (hi : bins[i]? = some b) (hj : bins[j]? = some c) (hb : b.contains x = true) (hc : c.contains x = true) : i = j := by
  have hp := List.pairwise_iff_getElem.mp (tiles_pairwise h)
  obtain ⟨hil, rfl⟩ := List.getElem?_eq_some_iff.mp hi
  obtain ⟨hjl, rfl⟩ := List.getElem?_eq_some_iff.mp hj
  rw [contains_iff] at hb hc
  rcases lt_trichotomy i j with h1 | h1 | h1
  · have := hp i j hil hjl h1
    exact absurd (hb.2.trans_le (this.trans hc.1)) (lt_irrefl _)
  · exact h1
  · have := hp j i hjl hil h1
    exact absurd (hc.2.trans_le (this.trans hb.1)) (lt_irrefl _)

theorem position_sorted {a z : K} {bins : List (Bin K)} (h : Tiles a bins z) (x : K) :
    CmpSorted (fun b : Bin K => if b.contains x then .eq else compare b.start x) bins := by
  have hw := tiles_mem h
  refine (tiles_pairwise h).imp_of_mem ?_
  intro b c hb hc hbc
  have hb' := (hw b hb).2.1
  have hc' := (hw c hc).2.1
  constructor
  · intro hgt
    have hxb : x < b.start := by
      by_cases hcon : b.contains x = true
      · simp [hcon] at hgt
      · simp only [hcon] at hgt
        exact compare_gt_iff_gt.mp hgt
    have h1 : ¬ c.contains x = true := by
      rw [contains_iff]; intro hh
      exact absurd (hh.1.trans_lt hxb) (not_lt.mpr (hb'.le.trans hbc))
    simp only [h1]
    exact compare_gt_iff_gt.mpr (hxb.trans_le (hb'.le.trans hbc))
  · intro hlt
    have hxc : c.start < x := by
      by_cases hcon : c.contains x = true
      · simp [hcon] at hlt
      · simp only [hcon] at hlt
        exact compare_lt_iff_lt.mp hlt
    have h1 : ¬ b.contains x = true := by
      rw [contains_iff]; intro hh
      exact absurd (hh.2.trans_le hbc) (not_lt.mpr hxc.le)
    simp only [h1]
    exact compare_lt_iff_lt.mpr (hb'.trans_le (hbc.trans hxc.le))

/-- The position found by `pack` is the bin containing the value. -/
theorem position_ok {a z : K} {bins : List (Bin K)} (h : Tiles a bins z) {x : K} (h1 : a ≤ x) (h2 : x < z) :
    ∃ k b, Bins.position bins x = some k ∧ bins[k]? = some b ∧ b.contains x = true := by
  obtain ⟨b, hb, hc⟩ := tiles_exists h h1 h2
  obtain ⟨k, b, e1, e2, e3⟩ := binarySearchBy_found (position_sorted h x) ⟨b, hb, by simp [hc]⟩
  refine ⟨k, b, e1, e2, ?_⟩
  by_contra hcon
  have hcon' : b.contains x = false := by simpa using hcon
  simp only [hcon', if_false, Bool.false_eq_true] at e3
  have heq : b.start = x := compare_eq_iff_eq.mp e3
  have := (tiles_mem h b (List.mem_of_getElem? e2)).2.1
  exact hcon (contains_iff.mpr ⟨heq.le, by rw [← heq]; exact this⟩)

/-! ## Cutting -/

theorem tol_pos : (0 : K) < Bins.numTolerance := by unfold Bins.numTolerance; positivity

/-- `k` steps of width `w` remain: the loop makes at most `k` bins, exactly `k` of them unless the width is below
the tolerance. -/
theorem cutLoop_spec (mx w : K) (hw : 0 < w) (k : Nat) : ∀ fuel left, k < fuel → 0 < k → left = mx - k * w →
    ∃ bins, Bins.cutLoop mx w fuel left = .ok bins ∧ bins ≠ [] ∧
      (bins.length = k ↔ (k = 1 ∨ Bins.numTolerance ≤ w)) ∧ (bins.length = k → Tiles left bins mx) := by
  induction k with
  | zero => intro fuel left _ h; omega
  | succ k ih =>
    intro fuel left hf _ hl
    cases fuel with
    | zero => omega
    | succ fuel =>
      unfold Bins.cutLoop
      have hlt : left < mx := by
        rw [hl]
        have : (0 : K) < ((k + 1 : Nat) : K) * w := by positivity
        linarith
      rw [if_pos hlt]
      have hdiff : left + w - mx = -(k * w) := by rw [hl]; push_cast; ring
      have habs : |left + w - mx| = k * w := by
        rw [hdiff, abs_neg, abs_of_nonneg (by positivity)]
      rw [habs]
      by_cases hk : k = 0
      · subst hk
        rw [if_pos (by simp only [Nat.cast_zero, zero_mul]; exact tol_pos)]
        refine ⟨_, rfl, by simp, by simp, ?_⟩
        intro _
        refine ⟨rfl, by linarith, ?_⟩
        have : left + w = mx := by rw [hl]; push_cast; ring
        exact this
      · by_cases ht : (k : K) * w < Bins.numTolerance
        · rw [if_pos ht]
          have h1 : w < Bins.numTolerance := by
            refine lt_of_le_of_lt ?_ ht
            have : (1 : K) ≤ k := by exact_mod_cast Nat.one_le_iff_ne_zero.mpr hk
            nlinarith
          refine ⟨_, rfl, by simp, ?_, ?_⟩
          · simp only [List.length_singleton]
            constructor
            · intro h; omega
            · rintro (h | h)
              · omega
              · exact absurd h1 (not_lt.mpr h)
          · intro h; simp at h; omega
        · rw [if_neg ht]
          obtain ⟨bins, h1, h2, h3, h4⟩ := ih fuel (left + w) (by omega) (by omega) (by rw [hl]; push_cast; ring)
          rw [h1]
          refine ⟨_, rfl, by simp, ?_, ?_⟩
          · simp only [List.length_cons, Nat.succ_inj]
            rw [h3]
            constructor
            · rintro (h | h)
              · right; subst h; simpa using ht
              · exact Or.inr h
            · rintro (h | h)
              · omega
              · exact Or.inr h
          · intro h
            simp only [List.length_cons, Nat.succ_inj] at h
            exact ⟨rfl, by linarith, h4 h⟩

theorem cutRange_spec {n : Nat} (hn : 0 < n) {mn mx : K} (hlt : mn < mx) :
    (n = 1 ∨ Bins.numTolerance ≤ (mx - mn) / n → ∃ bins, Bins.cutRange n (mn, mx) = .ok bins ∧ bins.length = n ∧ Tiles mn bins mx) ∧
    (¬ (n = 1 ∨ Bins.numTolerance ≤ (mx - mn) / n) → Bins.cutRange n (mn, mx) = .error .assertion) := by
  have hn0 : (0 : K) < n := by exact_mod_cast hn
  have hw : 0 < (mx - mn) / n := div_pos (by linarith) hn0
  obtain ⟨bins, h1, h2, h3, h4⟩ := cutLoop_spec mx ((mx - mn) / n) hw n (n + 1) mn (by omega) hn
    (by field_simp; ring)
  unfold Bins.cutRange
  simp only [if_neg (Nat.pos_iff_ne_zero.mp hn), h1]
  constructor
  · intro h
    have := h3.mpr h
    exact ⟨bins, by rw [if_pos this], this, h4 this⟩
  · intro h
    rw [if_neg (fun e => h (h3.mp e))]

/-! ## Minimum and maximum -/

theorem minMax_foldl (l : List K) (a : K × K) :
    ∀ v ∈ l, (l.foldl (fun a v => (min a.1 v, max a.2 v)) a).1 ≤ v ∧ v ≤ (l.foldl (fun a v => (min a.1 v, max a.2 v)) a).2 := by
  have gen : ∀ (l : List K) (a : K × K), (l.foldl (fun a v => (min a.1 v, max a.2 v)) a).1 ≤ a.1 ∧
      a.2 ≤ (l.foldl (fun a v => (min a.1 v, max a.2 v)) a).2 := by
    intro l
    induction l with
    | nil => intro a; simp
    | cons v l ih =>
      intro a
      have := ih (min a.1 v, max a.2 v)
      exact ⟨this.1.trans (min_le_left _ _), (le_max_left _ _).trans this.2⟩
  induction l generalizing a with
  | nil => intro v hv; cases hv
  | cons u l ih =>
    intro v hv
    rcases List.mem_cons.mp hv with rfl | hv
    · have := gen l (min a.1 v, max a.2 v)
      exact ⟨this.1.trans (min_le_right _ _), (le_max_right _ _).trans this.2⟩
    · exact ih _ v hv

theorem minMax_attained (l : List K) (a : K × K) :
    ((l.foldl (fun a v => (min a.1 v, max a.2 v)) a).1 = a.1 ∨ (l.foldl (fun a v => (min a.1 v, max a.2 v)) a).1 ∈ l) ∧
    ((l.foldl (fun a v => (min a.1 v, max a.2 v)) a).2 = a.2 ∨ (l.foldl (fun a v => (min a.1 v, max a.2 v)) a).2 ∈ l) := by
  induction l generalizing a with
  | nil => simp
  | cons u l ih =>
    have := ih (min a.1 u, max a.2 u)
    simp only [List.foldl_cons, List.mem_cons]
    constructor
    · rcases this.1 with h | h
      · rw [h]; rcases min_choice a.1 u with h' | h' <;> simp [h']
      · exact Or.inr (Or.inr h)
    · rcases this.2 with h | h
      · rw [h]; rcases max_choice a.2 u with h' | h' <;> simp [h']
      · exact Or.inr (Or.inr h)

/-- On a nonempty list of values strictly inside the platform's range, the fold computes the least and the
greatest value. -/
theorem minMax_spec {env : TreeEnv K} {l : List K} (hne : l ≠ []) (hb : ∀ v ∈ l, env.fmin < v ∧ v < env.fmax) :
    (Bins.minMax env l).1 ∈ l ∧ (Bins.minMax env l).2 ∈ l ∧ ∀ v ∈ l, (Bins.minMax env l).1 ≤ v ∧ v ≤ (Bins.minMax env l).2 := by
  have h1 := minMax_foldl l (env.fmax, env.fmin)
  have h2 := minMax_attained l (env.fmax, env.fmin)
  obtain ⟨v, hv⟩ := List.exists_mem_of_ne_nil l hne
  refine ⟨?_, ?_, h1⟩
  · rcases h2.1 with h | h
    · have := (h1 v hv).1
      rw [h] at this
      exact absurd (hb v hv).2 (not_lt.mpr this)
    · exact h
  · rcases h2.2 with h | h
    · have := (h1 v hv).2
      rw [h] at this
      exact absurd (hb v hv).1 (not_lt.mpr this)
    · exact h

/-- The least and greatest value as computed by the code, for a column of either kind. -/
def Bins.range (env : TreeEnv K) : Feature K → K × K
  | .dense f => Bins.minMax env f.sample
  | .sparse f => Bins.withZero f.hasZero (Bins.minMax env (f.sample.map Prod.snd))

theorem hasZero_iff {n : Nat} {f : SparseFeature K} (h : SparseOk n f) :
    f.hasZero = true ↔ ∃ i, i < n ∧ ∀ p ∈ f.sample, p.1 ≠ i := by
  unfold SparseFeature.hasZero
  rw [decide_eq_true_eq, h.1]
  have hnd : (f.sample.map Prod.fst).Nodup := nodup_keys h.2.1
  have hsub : (f.sample.map Prod.fst).toFinset ⊆ Finset.range n := by
    intro i hi
    rw [List.mem_toFinset, List.mem_map] at hi
    obtain ⟨p, hp, rfl⟩ := hi
    exact Finset.mem_range.mpr (h.2.2 p hp)
  have hcard : (f.sample.map Prod.fst).toFinset.card = f.sample.length := by
    rw [List.toFinset_card_of_nodup hnd, List.length_map]
  constructor
  · intro hlt
    by_contra hcon
    have : Finset.range n ⊆ (f.sample.map Prod.fst).toFinset := by
      intro i hi
      by_contra hni
      refine hcon ⟨i, Finset.mem_range.mp hi, fun p hp he => hni ?_⟩
      rw [List.mem_toFinset, List.mem_map]
      exact ⟨p, hp, he⟩
    have := Finset.card_le_card this
    rw [Finset.card_range, hcard] at this
    omega
  · rintro ⟨i, hi, hne⟩
    have : (f.sample.map Prod.fst).toFinset ⊂ Finset.range n := by
      refine Finset.ssubset_iff_subset_ne.mpr ⟨hsub, fun he => ?_⟩
      have : i ∈ (f.sample.map Prod.fst).toFinset := by rw [he]; exact Finset.mem_range.mpr hi
      rw [List.mem_toFinset, List.mem_map] at this
      obtain ⟨p, hp, he⟩ := this
      exact hne p hp he
    have := Finset.card_lt_card this
    rw [Finset.card_range, hcard] at this
    exact this

theorem valueOf_dense {n : Nat} {f : DenseFeature K} (h : ColumnOk n (.dense f)) (v : K) :
    ValueOf n (.dense f) v ↔ v ∈ f.sample := by
  have hl : f.sample.length = n := h
  constructor
  · rintro ⟨i, hi, he⟩
    simp only [Feature.index, DenseFeature.index] at he
    rw [List.getElem?_eq_getElem (by omega)] at he
    injection he with he
    rw [← he]; exact List.getElem_mem _
  · intro hv
    obtain ⟨i, hi, rfl⟩ := List.getElem_of_mem hv
    exact ⟨i, by omega, by simp [Feature.index, DenseFeature.index, List.getElem?_eq_getElem hi]⟩

theorem valueOf_sparse {n : Nat} {f : SparseFeature K} (h : SparseOk n f) (v : K) :
    ValueOf n (.sparse f) v ↔ (v ∈ f.sample.map Prod.snd ∨ (v = 0 ∧ f.hasZero = true)) := by
  rw [hasZero_iff h]
  constructor
  · rintro ⟨i, hi, he⟩
    simp only [Feature.index] at he
    injection he with he
    subst he
    by_cases hm : ∃ p ∈ f.sample, p.1 = i
    · obtain ⟨⟨a, b⟩, hp, rfl⟩ := hm
      left
      rw [sparse_index_mem h.2.1 hp]
      exact List.mem_map.mpr ⟨_, hp, rfl⟩
    · right
      have hm' : ∀ p ∈ f.sample, p.1 ≠ i := fun p hp he => hm ⟨p, hp, he⟩
      exact ⟨sparse_index_absent hm', i, hi, hm'⟩
  · rintro (hv | ⟨rfl, i, hi, hne⟩)
    · obtain ⟨⟨a, b⟩, hp, rfl⟩ := List.mem_map.mp hv
      exact ⟨a, h.2.2 _ hp, by simp [Feature.index, sparse_index_mem h.2.1 hp]⟩
    · exact ⟨i, hi, by simp [Feature.index, sparse_index_absent hne]⟩

/-- The range the code computes is the least and the greatest value of the column. -/
theorem range_spec {env : TreeEnv K} (h0 : env.fmin < 0 ∧ 0 < env.fmax) {n : Nat} (hn : 0 < n) {f : Feature K}
    (hf : ColumnOk n f) (hb : ∀ v, ValueOf n f v → env.fmin < v ∧ v < env.fmax) :
    ValueOf n f (Bins.range env f).1 ∧ ValueOf n f (Bins.range env f).2 ∧
      ∀ v, ValueOf n f v → (Bins.range env f).1 ≤ v ∧ v ≤ (Bins.range env f).2 := by
  cases f with
  | dense f =>
    have hne : f.sample ≠ [] := by
      intro he
      have : f.sample.length = n := hf
      rw [he] at this; simp at this; omega
    have := minMax_spec hne (env := env) (fun v hv => hb v ((valueOf_dense hf v).mpr hv))
    exact ⟨(valueOf_dense hf _).mpr this.1, (valueOf_dense hf _).mpr this.2.1,
      fun v hv => this.2.2 v ((valueOf_dense hf v).mp hv)⟩
  | sparse f =>
    have hf' : SparseOk n f := hf
    simp only [valueOf_sparse hf'] at hb ⊢
    simp only [Bins.range, Bins.withZero]
    by_cases hne : f.sample.map Prod.snd = []
    · have hz : f.hasZero = true := by
        unfold SparseFeature.hasZero
        have : f.sample = [] := by simpa using hne
        rw [this, hf'.1]; simpa using hn
      rw [hne]
      simp only [Bins.minMax, List.foldl_nil, h0.1, h0.2, hz, and_self, if_true, List.not_mem_nil, false_or]
      refine ⟨trivial, trivial, ?_⟩
      rintro v ⟨rfl, _⟩
      exact ⟨le_refl _, le_refl _⟩
    · obtain ⟨m1, m2, m3⟩ := minMax_spec hne (env := env) (fun v hv => hb v (Or.inl hv))
      set mm := Bins.minMax env (f.sample.map Prod.snd)
      by_cases hz : f.hasZero = true
      · simp only [hz, and_true]
        refine ⟨?_, ?_, ?_⟩
        · split
          · exact Or.inr rfl
          · exact Or.inl m1
        · split
          · exact Or.inr rfl
          · exact Or.inl m2
        · rintro v (hv | rfl)
          · have := m3 v hv
            constructor
            · split
              · rename_i hp; exact hp.le.trans this.1
              · exact this.1
            · split
              · rename_i hp; exact this.2.trans hp.le
              · exact this.2
          · constructor
            · split
              · exact le_refl _
              · rename_i hp; exact not_lt.mp hp
            · split
              · exact le_refl _
              · rename_i hp; exact not_lt.mp hp
      · have hz' : f.hasZero = false := by simpa using hz
        simp only [hz', Bool.false_eq_true, and_false, if_false, or_false]
        exact ⟨m1, m2, m3⟩

theorem setLast_tiles {a z v : K} {bins : List (Bin K)} (hne : bins ≠ []) (h : Tiles a bins z)
    (hv : ∀ b ∈ bins, b.start < v) : Tiles a (Bins.setLastStop v bins) v ∧ (Bins.setLastStop v bins).length = bins.length := by
  induction bins generalizing a with
  | nil => exact absurd rfl hne
  | cons b l ih =>
    cases l with
    | nil =>
      refine ⟨⟨h.1, ?_, rfl⟩, rfl⟩
      have := hv b (by simp)
      rw [h.1] at this
      exact this
    | cons c l =>
      have := ih (by simp) h.2.2 (fun b hb => hv b (List.mem_cons_of_mem _ hb))
      exact ⟨⟨h.1, h.2.1, this.1⟩, by simp [Bins.setLastStop] at this ⊢; exact this.2⟩

/-- The width of the bins the code aims at. -/
def Bins.width (env : TreeEnv K) (f : Feature K) (n : Nat) : K :=
  ((Bins.perturb (Bins.range env f)).2 - (Bins.perturb (Bins.range env f)).1) / n

theorem cut_spec {env : TreeEnv K} (h0 : env.fmin < 0 ∧ 0 < env.fmax) {rows : Nat} (hr : 0 < rows) {f : Feature K}
    (hf : ColumnOk rows f) (hb : ∀ v, ValueOf rows f v → env.fmin + Bins.eps < v ∧ v + Bins.eps < env.fmax) {n : Nat}
    (hn : 0 < n) :
    (n = 1 ∨ Bins.numTolerance ≤ Bins.width env f n → ∃ bins, Bins.cut env f n = .ok bins ∧ bins.length = n ∧ Tiles env.fmin bins env.fmax) ∧
    (¬ (n = 1 ∨ Bins.numTolerance ≤ Bins.width env f n) → Bins.cut env f n = .error .assertion) := by
  have he : (0 : K) < Bins.eps := by unfold Bins.eps; positivity
  obtain ⟨r1, r2, r3⟩ := range_spec h0 hr hf (env := env) (fun v hv => ⟨by linarith [(hb v hv).1], by linarith [(hb v hv).2]⟩)
  set mm := Bins.range env f with hmm
  have b1 := hb _ r1
  have b2 := hb _ r2
  have hle : mm.1 ≤ mm.2 := (r3 _ r2).1
  have hp : (Bins.perturb mm).1 < (Bins.perturb mm).2 ∧ env.fmin < (Bins.perturb mm).1 ∧ (Bins.perturb mm).2 < env.fmax := by
    unfold Bins.perturb
    by_cases heq : mm.1 = mm.2
    · rw [if_pos heq]
      exact ⟨by simp only; linarith, by simp only; linarith, by simp only; linarith⟩
    · rw [if_neg heq]
      exact ⟨lt_of_le_of_ne hle heq, by linarith, by linarith⟩
  have hcr := cutRange_spec hn hp.1
  have hcut : Bins.cut env f n = (match Bins.cutRange n (Bins.perturb mm) with
      | .error e => .error e
      | .ok [] => .error .unwrapNone
      | .ok (b :: l) => .ok (Bins.setLastStop env.fmax ({ b with start := env.fmin } :: l))) := by
    cases f <;> rfl
  constructor
  · intro h
    obtain ⟨bins, h1, h2, h3⟩ := hcr.1 h
    rw [hcut, h1]
    cases bins with
    | nil => simp at h2; omega
    | cons b l =>
      simp only
      have ht : Tiles env.fmin ({ b with start := env.fmin } :: l) (Bins.perturb mm).2 :=
        ⟨rfl, by have := h3.2.1; linarith [hp.2.1], h3.2.2⟩
      obtain ⟨t1, t2⟩ := setLast_tiles (v := env.fmax) (by simp) ht (by
        intro c hc
        have := tiles_mem ht c hc
        linarith [hp.2.2])
      refine ⟨_, rfl, ?_, t1⟩
      rw [t2]; simpa using h2
  · intro h
    rw [hcut, hcr.2 h]

end Miniboosts
