import Verif.Lemmas.FloatSplit
import Verif.Lemmas.Tree

/-! # Growing a decision tree in `f64` -/

namespace Miniboosts.FTree

open Miniboosts F64 Spec

/-! ## Extrema -/

theorem optJoin_mem {α : Type*} {op : α → α → α} (hop : ∀ a b, op a b = a ∨ op a b = b) {l r : List α} {a b : Option α}
    (ha : (l = [] ∧ a = none) ∨ ∃ x ∈ l, a = some x) (hb : (r = [] ∧ b = none) ∨ ∃ x ∈ r, b = some x) :
    (l ++ r = [] ∧ Split.optJoin op a b = none) ∨ ∃ x ∈ l ++ r, Split.optJoin op a b = some x := by
  rcases ha with ⟨rfl, rfl⟩ | ⟨x, hx, rfl⟩
  · rcases hb with ⟨rfl, rfl⟩ | ⟨y, hy, rfl⟩
    · exact Or.inl ⟨rfl, rfl⟩
    · exact Or.inr ⟨y, by simpa using hy, rfl⟩
  · rcases hb with ⟨rfl, rfl⟩ | ⟨y, hy, rfl⟩
    · exact Or.inr ⟨x, by simpa using hx, rfl⟩
    · rcases hop x y with h | h
      · exact Or.inr ⟨x, by simp [hx], by simp [Split.optJoin, h]⟩
      · exact Or.inr ⟨y, by simp [hy], by simp [Split.optJoin, h]⟩

theorem reduceWith_mem {α : Type*} {op : α → α → α} (hop : ∀ a b, op a b = a ∨ op a b = b) (t : Split α) :
    (t.items = [] ∧ t.reduceWith op = none) ∨ ∃ x ∈ t.items, t.reduceWith op = some x := by
  induction t with
  | seq xs =>
    have key : ∀ (xs l : List α) (a : Option α), ((l = [] ∧ a = none) ∨ ∃ x ∈ l, a = some x) →
        (l ++ xs = [] ∧ xs.foldl (fun o a => Split.optJoin op o (some a)) a = none) ∨
          ∃ x ∈ l ++ xs, xs.foldl (fun o a => Split.optJoin op o (some a)) a = some x := by
      intro xs
      induction xs with
      | nil => intro l a h; simpa using h
      | cons b xs ih =>
        intro l a h
        have := ih (l ++ [b]) (Split.optJoin op a (some b)) (optJoin_mem hop h (Or.inr ⟨b, by simp, rfl⟩))
        simpa using this
    exact key xs [] none (Or.inl ⟨rfl, rfl⟩)
  | join l r hl hr => exact optJoin_mem hop hl hr

/-- The result of a reduction that picks one of its arguments is at least as good as all the items. -/
theorem reduceWith_best {α : Type*} {op : α → α → α} {P : α → Prop} {ge : α → α → Prop} (refl : ∀ a, ge a a)
    (trans : ∀ a b c, P a → P b → P c → ge a b → ge b c → ge a c) (hop : ∀ a b, P a → P b → (op a b = a ∧ ge a b) ∨ (op a b = b ∧ ge b a))
    (t : Split α) : (∀ a ∈ t.items, P a) → ∀ x, t.reduceWith op = some x → x ∈ t.items ∧ ∀ b ∈ t.items, ge x b := by
  have join : ∀ (l r : List α) (o o' : Option α), (∀ a ∈ l, P a) → (∀ a ∈ r, P a) → (o = none → l = []) → (o' = none → r = []) →
      (∀ x, o = some x → x ∈ l ∧ ∀ b ∈ l, ge x b) → (∀ x, o' = some x → x ∈ r ∧ ∀ b ∈ r, ge x b) →
      ∀ x, Split.optJoin op o o' = some x → x ∈ l ++ r ∧ ∀ b ∈ l ++ r, ge x b := by
    intro l r o o' hl hr hn hn' h h' x hx
    cases o with
    | none =>
      rw [hn rfl]
      exact h' x hx
    | some a =>
      cases o' with
      | none =>
        rw [hn' rfl, List.append_nil]
        exact h x hx
      | some b =>
        obtain ⟨ha, hga⟩ := h a rfl
        obtain ⟨hb, hgb⟩ := h' b rfl
        have hx' : op a b = x := Option.some.inj hx
        subst hx'
        rcases hop a b (hl a ha) (hr b hb) with ⟨e, hge⟩ | ⟨e, hge⟩
        · rw [e]
          refine ⟨List.mem_append_left _ ha, fun c hc => ?_⟩
          rcases List.mem_append.mp hc with hc | hc
          · exact hga c hc
          · exact trans a b c (hl a ha) (hr b hb) (hr c hc) hge (hgb c hc)
        · rw [e]
          refine ⟨List.mem_append_right _ hb, fun c hc => ?_⟩
          rcases List.mem_append.mp hc with hc | hc
          · exact trans b a c (hr b hb) (hl a ha) (hl c hc) hge (hga c hc)
          · exact hgb c hc
  have none_iff : ∀ t : Split α, t.reduceWith op = none → t.items = [] := by
    intro t
    induction t with
    | seq xs =>
      intro h
      cases xs with
      | nil => rfl
      | cons a xs =>
        simp only [Split.reduceWith, Split.foldWith, List.foldl_cons] at h
        rw [show Split.optJoin op none (some a) = some a from rfl, Split.foldl_optJoin_some] at h
        cases h
    | join l r ihl ihr =>
      intro h
      change Split.optJoin op (l.reduceWith op) (r.reduceWith op) = none at h
      cases hl : l.reduceWith op with
      | none =>
        rw [hl] at h
        show l.items ++ r.items = []
        rw [ihl hl, ihr h]; rfl
      | some a =>
        rw [hl] at h
        cases hr : r.reduceWith op with
        | none => rw [hr] at h; cases h
        | some b => rw [hr] at h; cases h
  induction t with
  | seq xs =>
    intro hP
    have key : ∀ (xs l : List α) (o : Option α), (∀ a ∈ l, P a) → (∀ a ∈ xs, P a) → (o = none → l = []) → (∀ x, o = some x → x ∈ l ∧ ∀ b ∈ l, ge x b) →
        ∀ x, xs.foldl (fun o a => Split.optJoin op o (some a)) o = some x → x ∈ l ++ xs ∧ ∀ b ∈ l ++ xs, ge x b := by
      intro xs
      induction xs with
      | nil => intro l o _ _ _ h x hx; simpa using h x hx
      | cons b xs ih =>
        intro l o hl hxs hn h x hx
        have := ih (l ++ [b]) (Split.optJoin op o (some b))
          (by
            intro a ha
            rcases List.mem_append.mp ha with ha | ha
            · exact hl a ha
            · rw [List.mem_singleton.mp ha]; exact hxs b (by simp))
          (fun a ha => hxs a (by simp [ha])) (by cases o <;> intro h <;> cases h)
          (join l [b] o (some b) hl (fun a ha => by rw [List.mem_singleton.mp ha]; exact hxs b (by simp)) hn (fun h => by cases h) h
            (by rintro x ⟨⟩; exact ⟨by simp, fun c hc => by rw [List.mem_singleton.mp hc]; exact refl _⟩)) x hx
        simpa using this
    intro x hx
    exact key xs [] none (by simp) hP (fun _ => rfl) (by rintro x ⟨⟩) x hx
  | join l r ihl ihr =>
    intro hP
    exact join l.items r.items (l.reduceWith op) (r.reduceWith op) (fun a ha => hP a (List.mem_append_left _ ha)) (fun a ha => hP a (List.mem_append_right _ ha))
      (none_iff l) (none_iff r) (ihl fun a ha => hP a (List.mem_append_left _ ha)) (ihr fun a ha => hP a (List.mem_append_right _ ha))

theorem lt_irrefl' (a : F64) : ¬ Lt a a := by
  cases a with
  | nan => exact id
  | inf s => rintro ⟨h1, h2⟩; rw [h1] at h2; cases h2
  | fin x => exact lt_irrefl x

theorem lt_asymm' {a b : F64} (h : Lt a b) : ¬ Lt b a := by
  intro h2
  cases a <;> cases b <;> simp_all [Lt]
  linarith

theorem not_lt_trans {a b c : F64} (hb : b ≠ nan) (h1 : ¬ Lt a b) (h2 : ¬ Lt b c) : ¬ Lt a c := by
  intro h
  cases b with
  | nan => exact hb rfl
  | inf s =>
    cases s <;> cases a <;> cases c <;> simp_all [Lt]
  | fin y =>
    cases a <;> cases c <;> simp_all [Lt]
    linarith

/-- `max_by` returns a largest item, `min_by` a smallest. -/
theorem extremum_best {α : Type*} {smallest : Bool} {key : α → F64} {items : List α} (hk : ∀ a ∈ items, key a ≠ nan) {x : α}
    (h : Extremum smallest key items (some x)) : x ∈ items ∧ ∀ b ∈ items, if smallest then ¬ Lt (key b) (key x) else ¬ Lt (key x) (key b) := by
  classical
  unfold Extremum at h
  split at h
  · cases h
  · obtain ⟨t, rfl, h⟩ := h
    refine reduceWith_best (P := fun a => key a ≠ nan) (ge := fun x b => if smallest then ¬ Lt (key b) (key x) else ¬ Lt (key x) (key b)) ?_ ?_ ?_ t hk x h.symm
    · intro a
      cases smallest <;> simpa using lt_irrefl' (key a)
    · intro a b c _ hb _ h1 h2
      cases smallest with
      | true => simp only [if_true] at *; exact not_lt_trans hb h2 h1
      | false => simp only [Bool.false_eq_true, if_false] at *; exact not_lt_trans hb h1 h2
    · intro a b _ _
      cases smallest with
      | true =>
        simp only [if_true]
        by_cases hlt : Lt (key b) (key a)
        · right
          exact ⟨if_pos hlt, lt_asymm' hlt⟩
        · left; exact ⟨if_neg hlt, hlt⟩
      | false =>
        simp only [Bool.false_eq_true, if_false]
        by_cases hlt : Lt (key b) (key a)
        · left
          exact ⟨if_pos hlt, lt_asymm' hlt⟩
        · right; exact ⟨if_neg hlt, hlt⟩

theorem extremum_ok {α : Type*} {smallest : Bool} {key : α → F64} {items : List α} (hne : items ≠ []) (hk : ∀ a ∈ items, key a ≠ nan) :
    (∃ o, Extremum smallest key items o) ∧ ∀ o, Extremum smallest key items o → ∃ a ∈ items, o = some a := by
  have hneg : ¬ (2 ≤ items.length ∧ ∃ a ∈ items, key a = nan) := fun ⟨_, a, ha, h⟩ => hk a ha h
  constructor
  · exact ⟨_, (if_neg hneg).mpr ⟨.seq items, rfl, rfl⟩⟩
  · intro o ho
    unfold Extremum at ho
    rw [if_neg hneg] at ho
    obtain ⟨t, ht, rfl⟩ := ho
    rcases reduceWith_mem (op := fun a b => open Classical in if smallest then (if F64.Lt (key b) (key a) then b else a) else (if F64.Lt (key b) (key a) then a else b))
      (fun a b => by
        by_cases h1 : smallest = true <;> by_cases h2 : F64.Lt (key b) (key a) <;> simp [h1, h2]) t with ⟨h, -⟩ | ⟨x, hx, h⟩
    · exact absurd (ht.symm.trans h) hne
    · exact ⟨x, ht ▸ hx, h⟩

theorem allSome_ok {α : Type*} : ∀ (os : List (Option α)), (∀ o ∈ os, ∃ a, o = some a) → ∃ l : List α, Par.allSome os = some l ∧ os = l.map some := by
  intro os
  induction os with
  | nil => intro _; exact ⟨[], rfl, rfl⟩
  | cons o os ih =>
    intro h
    obtain ⟨a, rfl⟩ := h o (by simp)
    obtain ⟨l, e1, e2⟩ := ih fun o ho => h o (List.mem_cons_of_mem _ ho)
    exact ⟨a :: l, by simp [Par.allSome, e1], by simp [e2]⟩

/-! ## The best split -/

/-- The learner's bins suit the sample. -/
structure BinsOk (t : Tree) (s : Sample ℝ) : Prop where
  sample : SampleOk s
  some_feature : s.features ≠ []
  values : ∀ f ∈ s.features, ∀ i < s.nSample, |f.val i| < maxVal
  bins : ∀ f ∈ s.features, ∃ rb : List (Bin ℝ), HMap.get? t.bins f.name = some (rb.map toF) ∧ rb.length ≤ 10 ^ 5 ∧ Tiles (-maxVal) rb maxVal

theorem splitBy_ok (L : Libm) {c : Criterion} (hc : c ≠ .gini) {pack : List (Bin F64 × LabelMap F64)} {ms : List (List (Int × ℝ))} (h : SoundPack pack ms) :
    (∃ o, SplitBy L c pack o) ∧ ∀ o, SplitBy L c pack o → ∃ r : F64 × F64, o = some r ∧ r.2 ≠ nan := by
  cases c with
  | entropy => exact splitByEntropy_ok L h
  | gini => exact absurd rfl hc
  | twoing => exact splitByTwoing_ok h
  | edge =>
    obtain ⟨⟨r, hr⟩, hall⟩ := splitByEdge_ok h
    exact ⟨⟨some r, r, hr, rfl⟩, fun o ⟨r, hr, ho⟩ => ⟨r, ho, hall r hr⟩⟩

theorem featureSplit_ok (L : Libm) {c : Criterion} (hc : c ≠ .gini) {t : Tree} {s : Sample ℝ} (ht : BinsOk t s) {dist : List F64} {w : ℕ → ℝ} {idx : List ℕ}
    (hN : Node s dist w idx) (hne : idx ≠ []) {f : Feature ℝ} (hf : f ∈ s.features) :
    (∃ o, FeatureSplit L c t.bins s dist idx f o) ∧
      ∀ o, FeatureSplit L c t.bins s dist idx f o → ∃ k thr : F64, o = some (k, f.name, thr) ∧ k ≠ nan := by
  obtain ⟨rb, b1, b2, b3⟩ := ht.bins f hf
  obtain ⟨⟨p, hp⟩, hall⟩ := pack_f64 b3 b2 ht.sample hf (ht.values f hf) hN hne
  unfold FeatureSplit
  rw [b1]
  constructor
  · obtain ⟨pack, ms, rfl, hsp⟩ := hall p hp
    obtain ⟨⟨o, ho⟩, -⟩ := splitBy_ok L hc hsp
    exact ⟨_, some pack, hp, o, ho, rfl⟩
  · rintro o ⟨p, hp, ho⟩
    obtain ⟨pack, ms, rfl, hsp⟩ := hall p hp
    obtain ⟨r, hr, rfl⟩ := ho
    obtain ⟨q, rfl, hq⟩ := (splitBy_ok L hc hsp).2 r hr
    exact ⟨q.2, q.1, rfl, hq⟩

/-- The search on every feature returns a candidate. -/
def Searches (L : Libm) (t : Tree) (s : Sample ℝ) (dist : List F64) (idx : List ℕ) : Prop :=
  ∀ f ∈ s.features, (∃ o, FeatureSplit L t.criterion t.bins s dist idx f o) ∧
    ∀ o, FeatureSplit L t.criterion t.bins s dist idx f o → ∃ k thr : F64, o = some (k, f.name, thr) ∧ k ≠ nan

theorem bestSplit_ok (L : Libm) {t : Tree} {s : Sample ℝ} (ht : BinsOk t s) {dist : List F64} {idx : List ℕ} (feat : Searches L t s dist idx) :
    (∃ o, BestSplit L t.criterion t.bins s dist idx o) ∧
      ∀ o, BestSplit L t.criterion t.bins s dist idx o → ∃ f ∈ s.features, ∃ thr : F64, o = some (f.name, thr) := by
  have hex : ∀ l : List (Feature ℝ), (∀ f ∈ l, f ∈ s.features) → ∃ os, List.Forall₂ (FeatureSplit L t.criterion t.bins s dist idx) l os := by
    intro l
    induction l with
    | nil => intro _; exact ⟨[], .nil⟩
    | cons f l ih =>
      intro hl
      obtain ⟨os, h⟩ := ih fun g hg => hl g (List.mem_cons_of_mem _ hg)
      obtain ⟨⟨o, ho⟩, -⟩ := feat f (hl f (by simp))
      exact ⟨o :: os, .cons ho h⟩
  have hall : ∀ (l : List (Feature ℝ)) os, (∀ f ∈ l, f ∈ s.features) → List.Forall₂ (FeatureSplit L t.criterion t.bins s dist idx) l os →
      os.length = l.length ∧ ∀ o ∈ os, ∃ f ∈ s.features, ∃ k thr : F64, o = some (k, f.name, thr) ∧ k ≠ nan := by
    intro l
    induction l with
    | nil => intro os _ h; cases h; simp
    | cons f l ih =>
      intro os hl h
      obtain ⟨o, os, rfl⟩ : ∃ o l, os = o :: l := by cases h; exact ⟨_, _, rfl⟩
      rw [List.forall₂_cons] at h
      obtain ⟨i1, i2⟩ := ih os (fun g hg => hl g (List.mem_cons_of_mem _ hg)) h.2
      refine ⟨by simp [i1], fun o' ho' => ?_⟩
      rcases List.mem_cons.mp ho' with rfl | ho'
      · obtain ⟨k, thr, h1, h2⟩ := (feat f (hl f (by simp))).2 _ h.1
        exact ⟨f, hl f (by simp), k, thr, h1, h2⟩
      · exact i2 o' ho'
  have main : ∀ os, List.Forall₂ (FeatureSplit L t.criterion t.bins s dist idx) s.features os →
      ∃ cands : List (F64 × String × F64), Par.allSome os = some cands ∧ cands ≠ [] ∧ ∀ a ∈ cands, a.1 ≠ nan ∧ ∃ f ∈ s.features, a.2.1 = f.name := by
    intro os hos
    obtain ⟨h1, h2⟩ := hall s.features os (fun f hf => hf) hos
    obtain ⟨l, e1, rfl⟩ := allSome_ok os fun o ho => by obtain ⟨f, hf, k, thr, e, -⟩ := h2 o ho; exact ⟨_, e⟩
    refine ⟨l, e1, ?_, ?_⟩
    · rintro rfl
      exact ht.some_feature (List.length_eq_zero_iff.mp (by simpa using h1.symm))
    · intro a ha
      obtain ⟨f, hf, k, thr, e, hk⟩ := h2 (some a) (List.mem_map.mpr ⟨a, ha, rfl⟩)
      obtain rfl := Option.some.inj e
      exact ⟨hk, f, hf, rfl⟩
  constructor
  · obtain ⟨os, hos⟩ := hex s.features fun f hf => hf
    obtain ⟨cands, c1, c2, c3⟩ := main os hos
    obtain ⟨⟨x, hx⟩, -⟩ := extremum_ok (smallest := minimised t.criterion) (key := fun p : F64 × String × F64 => p.1) c2 fun a ha => (c3 a ha).1
    exact ⟨_, os, hos, by rw [c1]; exact ⟨x, hx, rfl⟩⟩
  · rintro o ⟨os, hos, ho⟩
    obtain ⟨cands, c1, c2, c3⟩ := main os hos
    rw [c1] at ho
    obtain ⟨x, hx, rfl⟩ := ho
    obtain ⟨a, ha, rfl⟩ := (extremum_ok c2 fun a ha => (c3 a ha).1).2 x hx
    obtain ⟨-, f, hf, hfe⟩ := c3 a ha
    exact ⟨f, hf, a.2.2, by simp [← hfe]⟩

/-! ## Leaves -/

theorem target_getD {s : Sample ℝ} (hs : SampleOk s) {i : ℕ} (hi : i < s.nSample) : s.target[i]? = some (s.target.getD i 0) := by
  rw [List.getElem?_eq_getElem (by rw [hs.labels]; exact hi), List.getD_eq_getElem?_getD, List.getElem?_eq_getElem (by rw [hs.labels]; exact hi)]; rfl

theorem countLabels_eq {s : Sample ℝ} (hs : SampleOk s) {dist : List F64} {w : ℕ → ℝ} : ∀ (idx : List ℕ), Node s dist w idx → ∀ m,
    countLabels s.target dist idx m = some (collectWeights (toM (idx.map fun i => (asI64 (s.target.getD i 0), w i))) m) := by
  intro idx
  induction idx with
  | nil => intro _ m; rfl
  | cons i idx ih =>
    intro hN m
    unfold countLabels
    rw [target_getD hs (hN.row i (by simp)), (hN.weight i (by simp)).1]
    exact ih hN.tail _

/-- A confidence: a number in `[-1, 1]`. -/
def Conf (c : F64) : Prop := ∃ x : ℝ, c = fin x ∧ |x| ≤ 1

theorem clamp1_conf (x : ℝ) : Conf (F64.clamp1 (fin x)) := by
  unfold F64.clamp1
  by_cases h1 : x < -1
  · exact ⟨-1, if_pos h1, by norm_num⟩
  · by_cases h2 : 1 < x
    · exact ⟨1, (if_neg h1).trans (if_pos h2), by norm_num⟩
    · exact ⟨x, (if_neg h1).trans (if_neg h2), abs_le.mpr ⟨not_lt.mp h1, not_lt.mp h2⟩⟩

theorem round_abs_le (x : ℝ) : |F64.round x| ≤ 101 / 100 * |x| + 1 / 100 := by
  have h1 := le_abs_of_dist (round_err x)
  have hη : eta ≤ 1 / 100 := eta_tiny.trans (by norm_num)
  have hu : u ≤ 1 / 100 := u_small.trans (by norm_num)
  have : u * |x| ≤ 1 / 100 * |x| := mul_le_mul_of_nonneg_right hu (abs_nonneg _)
  linarith

theorem leafValues_conf {T v : ℝ} (hT : 0 < T) (hv0 : 0 ≤ v) (hv : v ≤ 2 * T) {z : Int} (hz : |z| ≤ 2 ^ 63) : Conf (leafValues (fin T) (z, fin v)).1 := by
  have h0 : F64.Lt (fin 0) (fin T) := hT
  unfold leafValues
  simp only [h0, if_true]
  obtain ⟨x, e1, -, e3⟩ := ofInt_fin hz
  have hz' : |(z : ℝ)| ≤ 2 ^ 63 := by exact_mod_cast hz
  have hq : |v / T| ≤ 2 := by rw [abs_of_nonneg (div_nonneg hv0 hT.le), div_le_iff₀ hT]; exact hv
  have r1 := round_abs_le (v / T)
  have r2 := round_abs_le (2 * F64.round (v / T))
  have a2 : |2 * F64.round (v / T)| ≤ 5 := by rw [abs_mul, abs_two]; linarith
  have a3 : |F64.round (2 * F64.round (v / T)) + -1| ≤ 7 := by
    refine (abs_add_le _ _).trans ?_
    rw [abs_neg, abs_one]
    linarith
  have r3 := round_abs_le (F64.round (2 * F64.round (v / T)) + -1)
  have a4 : |x * F64.round (F64.round (2 * F64.round (v / T)) + -1)| ≤ 10 ^ 20 := by
    rw [abs_mul]
    calc |x| * |F64.round (F64.round (2 * F64.round (v / T)) + -1)| ≤ (2 ^ 63 + 2000) * 8 := mul_le_mul (by linarith) (by linarith) (abs_nonneg _) (by norm_num)
      _ ≤ _ := by norm_num
  have d : F64.div (fin v) (fin T) = fin (F64.round (v / T)) := by rw [F64.div, if_neg hT.ne', rnd_small (hq.trans (by norm_num))]
  rw [d, e1, F64.mul, rnd_small (a2.trans (by norm_num)), F64.sub, F64.neg, F64.add, rnd_small (a3.trans (by norm_num)), F64.mul, rnd_small a4]
  exact clamp1_conf _

theorem asI64_abs (y : ℝ) : |asI64 y| ≤ 2 ^ 63 := by
  unfold asI64
  rw [abs_le]
  constructor <;> omega

theorem Node.list {s : Sample ℝ} {dist : List F64} {w : ℕ → ℝ} {idx : List ℕ} (hN : Node s dist w idx) (g : ℕ → Int) : PM (idx.map fun i => (g i, w i)) := by
  intro p hp
  obtain ⟨i, hi, rfl⟩ := List.mem_map.mp hp
  exact (hN.weight i hi).2

theorem Node.vsum {s : Sample ℝ} {dist : List F64} {w : ℕ → ℝ} {idx : List ℕ} (_hN : Node s dist w idx) (g : ℕ → Int) :
    vsum (idx.map fun i => (g i, w i)) = (idx.map w).sum := by
  unfold FTree.vsum
  rw [List.map_map]
  rfl

theorem confLoss_ok {s : Sample ℝ} (hs : SampleOk s) {dist : List F64} {w : ℕ → ℝ} {idx : List ℕ} (hN : Node s dist w idx) (hne : idx ≠ []) :
    (∃ o, ConfLoss s dist idx o) ∧ ∀ o, ConfLoss s dist idx o → ∃ c l, o = some (c, l) ∧ Conf c := by
  have hη := eta_pos
  have hfew := hN.few
  have hsum := hN.sum
  have hpos := hN.sum_pos hne
  obtain ⟨m, m1, m2, m3, m4, m5⟩ := collect_ok (idx.map fun i => (asI64 (s.target.getD i 0), w i)) [] 0 0 (hN.list _) PM.nil le_rfl (by rw [vsum_nil]; exact Near.refl 0)
    (by rw [hN.vsum]; norm_num; linarith) (by rw [List.length_map]; omega)
  rw [hN.vsum, zero_add, zero_add, List.length_map] at m5
  rw [List.length_map] at m3
  have hb := m5.bound (by omega) (by linarith)
  have hmpos : 0 < FTree.vsum m := m5.pos (by linarith)
  have hml : m.length ≤ 10 ^ 5 := by simp only [List.length_nil] at m3; omega
  have hmne : m ≠ [] := by rintro rfl; simp [vsum_nil] at hmpos
  have hcount : countLabels s.target dist idx [] = some (toM m) := by
    rw [countLabels_eq hs idx hN, ← m1]; rfl
  have htot : ∀ total, Total (toM m) total → ∃ T, total = fin T ∧ 0 < T ∧ FTree.vsum m ≤ 2 * T := by
    intro total h
    obtain ⟨T, rfl, -, hT⟩ := total_ok m2 (by omega) (by norm_num at hb ⊢; linarith [hb.2]) h
    have hT' := hT.bound (by omega) hmpos.le
    refine ⟨T, rfl, hT.pos hmpos, ?_⟩
    have := hT'.1
    norm_num at this
    linarith
  have hext : ∀ l : LabelMap F64, l.Perm (toM m) → (∃ x, Extremum false (fun p : Int × F64 => p.2) l x) ∧
      ∀ x, Extremum false (fun p : Int × F64 => p.2) l x → ∃ q ∈ m, x = some (q.1, fin q.2) := by
    intro l hp
    obtain ⟨m', hp', rfl⟩ := perm_toM hp
    have hne' : toM m' ≠ [] := by
      intro h
      have : m' = [] := by simpa [toM] using h
      subst this
      exact hmne (List.nil_perm.mp hp')
    obtain ⟨h1, h2⟩ := extremum_ok (smallest := false) (key := fun p : Int × F64 => p.2) hne' (fun a ha => by
      obtain ⟨q, -, rfl⟩ := List.mem_map.mp ha
      simp)
    refine ⟨h1, fun x hx => ?_⟩
    obtain ⟨a, ha, rfl⟩ := h2 x hx
    obtain ⟨q, hq, rfl⟩ := List.mem_map.mp ha
    exact ⟨q, hp'.mem_iff.mp hq, rfl⟩
  unfold ConfLoss
  simp only [hne, if_false, hcount]
  constructor
  · obtain ⟨tot, ht⟩ := exists_total (toM m)
    obtain ⟨⟨x, hx⟩, -⟩ := hext (toM m) (List.Perm.refl _)
    exact ⟨_, tot, ht, toM m, x, List.Perm.refl _, hx, rfl⟩
  · rintro o ⟨tot, ht, l, x, hp, hx, rfl⟩
    obtain ⟨T, rfl, hT0, hT⟩ := htot tot ht
    obtain ⟨q, hq, rfl⟩ := (hext l hp).2 x hx
    refine ⟨_, _, rfl, leafValues_conf hT0 (m2.nonneg q hq) ((m2.le_vsum hq).trans hT) ?_⟩
    rcases (m4 q.1).mp (List.mem_map.mpr ⟨q, hq, rfl⟩) with h | h
    · obtain ⟨r, hr, hre⟩ := List.mem_map.mp h
      obtain ⟨i, -, rfl⟩ := List.mem_map.mp hr
      rw [← hre]
      exact asI64_abs _
    · simp at h

theorem sumAt_ok {s : Sample ℝ} {dist : List F64} {w : ℕ → ℝ} {idx : List ℕ} (hN : Node s dist w idx) :
    (∃ o, SumAt dist idx o) ∧ ∀ o, SumAt dist idx o → ∃ x, o = some x := by
  obtain ⟨l, h1, -⟩ := allSome_ok (idx.map fun i => dist[i]?) (fun o ho => by
    obtain ⟨i, hi, rfl⟩ := List.mem_map.mp ho
    exact ⟨_, (hN.weight i hi).1⟩)
  unfold SumAt
  rw [h1]
  constructor
  · obtain ⟨r, hr⟩ := exists_sumOf l
    exact ⟨_, r, hr, rfl⟩
  · rintro o ⟨r, -, rfl⟩
    exact ⟨r, rfl⟩

/-! ## The tree -/

open Classical in
theorem goesLeft_f64 {s : Sample ℝ} (hs : SampleOk s) {f : Feature ℝ} (hf : f ∈ s.features) (thr : F64) {i : ℕ} (hi : i < s.nSample) :
    goesLeft ⟨f.name, thr⟩ s i = some (decide (F64.Lt (fin (f.val i)) thr)) := by
  unfold goesLeft
  simp only [Sample.byName_ok hs.names hs.table hf, Feature.index_val (hs.columns f hf) hi]

open Classical in
theorem splitRows_f64 {s : Sample ℝ} (hs : SampleOk s) {f : Feature ℝ} (hf : f ∈ s.features) (thr : F64) : ∀ (idx : List ℕ), (∀ i ∈ idx, i < s.nSample) →
    splitRows ⟨f.name, thr⟩ s idx = some (idx.filter (fun i => decide (F64.Lt (fin (f.val i)) thr)), idx.filter fun i => !decide (F64.Lt (fin (f.val i)) thr)) := by
  intro idx
  induction idx with
  | nil => intro _; rfl
  | cons i idx ih =>
    intro h
    unfold splitRows
    rw [goesLeft_f64 hs hf thr (h i (by simp)), ih fun j hj => h j (List.mem_cons_of_mem _ hj)]
    by_cases hc : F64.Lt (fin (f.val i)) thr <;> simp [hc]

/-- Every confidence in the tree is a number in `[-1, 1]`, and every rule tests a column of the sample. -/
def GoodTrain (s : Sample ℝ) : TrainNode F64 → Prop
  | .leaf c _ _ => Conf c
  | .branch rule l r c _ _ _ => Conf c ∧ (∃ f ∈ s.features, rule.feature = f.name) ∧ GoodTrain s l ∧ GoodTrain s r

/-- The same for a finished tree. -/
def GoodTree (s : Sample ℝ) : TreeNode F64 → Prop
  | .leaf c => Conf c
  | .branch rule l r => (∃ f ∈ s.features, rule.feature = f.name) ∧ GoodTree s l ∧ GoodTree s r

theorem fullTree_grows (L : Libm) {t : Tree} {s : Sample ℝ} (ht : BinsOk t s) {dist : List F64} {w : ℕ → ℝ} {P : List ℕ → Prop}
    (hP : ∀ idx p, P idx → P (idx.filter p)) (hS : ∀ idx, Node s dist w idx → idx ≠ [] → P idx → Searches L t s dist idx) :
    ∀ (depth : ℕ) (idx : List ℕ), Node s dist w idx → idx ≠ [] → P idx →
      (∃ o, FullTree L t s dist depth idx o) ∧ ∀ o, FullTree L t s dist depth idx o → ∃ node, o = some node ∧ GoodTrain s node := by
  intro depth
  induction depth with
  | zero =>
    intro idx hN hne hp0
    obtain ⟨⟨a, ha⟩, hall⟩ := sumAt_ok hN
    obtain ⟨⟨c, hcl⟩, hcall⟩ := confLoss_ok ht.sample hN hne
    unfold FullTree
    constructor
    · obtain ⟨x, rfl⟩ := hall a ha
      obtain ⟨cc, l, rfl, -⟩ := hcall c hcl
      exact ⟨_, some x, some (cc, l), ha, hcl, rfl⟩
    · rintro o ⟨a, c, ha, hcl, ho⟩
      obtain ⟨x, rfl⟩ := hall a ha
      obtain ⟨cc, l, rfl, hcc⟩ := hcall c hcl
      exact ⟨_, ho, hcc⟩
  | succ depth ih =>
    intro idx hN hne hp0
    obtain ⟨⟨a, ha⟩, hall⟩ := sumAt_ok hN
    obtain ⟨⟨c, hcl⟩, hcall⟩ := confLoss_ok ht.sample hN hne
    obtain ⟨⟨b, hb⟩, hball⟩ := bestSplit_ok L ht (hS idx hN hne hp0)
    unfold FullTree
    constructor
    · obtain ⟨x, rfl⟩ := hall a ha
      obtain ⟨cc, l, rfl, -⟩ := hcall c hcl
      by_cases hl : l = fin 0
      · exact ⟨_, some x, some (cc, l), ha, hcl, Or.inl ⟨hl, rfl⟩⟩
      · obtain ⟨f, hf, thr, rfl⟩ := hball b hb
        have hsr := splitRows_f64 ht.sample hf thr idx hN.row
        set p := fun i => open Classical in decide (F64.Lt (fin (f.val i)) thr) with hp
        by_cases he : idx.filter p = [] ∨ (idx.filter fun i => !p i) = []
        · refine ⟨some (.leaf cc x l), some x, some (cc, l), ha, hcl, Or.inr ⟨hl, _, hb, ?_⟩⟩
          simp only [hsr]
          rw [if_pos he]
          trivial
        · push Not at he
          obtain ⟨⟨lt, hlt⟩, hlall⟩ := ih _ (hN.filter p) he.1 (hP _ _ hp0)
          obtain ⟨⟨rt, hrt⟩, hrall⟩ := ih _ (hN.filter fun i => !p i) he.2 (hP _ _ hp0)
          obtain ⟨lt, rfl, -⟩ := hlall lt hlt
          obtain ⟨rt, rfl, -⟩ := hrall rt hrt
          refine ⟨some (.branch ⟨f.name, thr⟩ lt rt cc x l (leavesOf lt + leavesOf rt)), some x, some (cc, l), ha, hcl, Or.inr ⟨hl, _, hb, ?_⟩⟩
          simp only [hsr]
          rw [if_neg (not_or.mpr ⟨he.1, he.2⟩)]
          exact ⟨_, _, hlt, hrt, rfl⟩
    · rintro o ⟨a, c, ha, hcl, ho⟩
      obtain ⟨x, rfl⟩ := hall a ha
      obtain ⟨cc, l, rfl, hcc⟩ := hcall c hcl
      rcases ho with ⟨-, ho⟩ | ⟨-, b, hb, ho⟩
      · exact ⟨_, ho, hcc⟩
      · obtain ⟨f, hf, thr, rfl⟩ := hball b hb
        have hsr := splitRows_f64 ht.sample hf thr idx hN.row
        set p := fun i => open Classical in decide (F64.Lt (fin (f.val i)) thr) with hp
        simp only [hsr] at ho
        by_cases he : idx.filter p = [] ∨ (idx.filter fun i => !p i) = []
        · rw [if_pos he] at ho
          exact ⟨_, ho, hcc⟩
        · rw [if_neg he] at ho
          push Not at he
          obtain ⟨lt, rt, hlt, hrt, ho⟩ := ho
          obtain ⟨lt, rfl, gl⟩ := (ih _ (hN.filter p) he.1 (hP _ _ hp0)).2 lt hlt
          obtain ⟨rt, rfl, gr⟩ := (ih _ (hN.filter fun i => !p i) he.2 (hP _ _ hp0)).2 rt hrt
          exact ⟨_, ho, hcc, ⟨f, hf, rfl⟩, gl, gr⟩

theorem fullTree_ok (L : Libm) {t : Tree} (hc : t.criterion ≠ .gini) {s : Sample ℝ} (ht : BinsOk t s) {dist : List F64} {w : ℕ → ℝ} (depth : ℕ) (idx : List ℕ)
    (hN : Node s dist w idx) (hne : idx ≠ []) :
    (∃ o, FullTree L t s dist depth idx o) ∧ ∀ o, FullTree L t s dist depth idx o → ∃ node, o = some node ∧ GoodTrain s node :=
  fullTree_grows L ht (P := fun _ => True) (fun _ _ _ => trivial) (fun _ hN hne _ f hf => featureSplit_ok L hc ht hN hne hf) depth idx hN hne trivial

theorem removeRedundant_good {s : Sample ℝ} : ∀ (node : TrainNode F64), GoodTrain s node → GoodTrain s (removeRedundant node) := by
  intro node
  induction node with
  | leaf c w l => exact fun h => h
  | branch rule l r c w ls n ihl ihr =>
    rintro ⟨h1, h2, h3, h4⟩
    unfold removeRedundant
    split
    · exact ⟨h1, h2, ihl h3, h4⟩
    · split
      · exact ⟨h1, h2, h3, ihr h4⟩
      · split
        · exact h1
        · exact ⟨h1, h2, ihl h3, ihr h4⟩

theorem ofTrain_good {s : Sample ℝ} : ∀ (node : TrainNode F64), GoodTrain s node → GoodTree s (ofTrain node) := by
  intro node
  induction node with
  | leaf c w l => exact fun h => h
  | branch rule l r c w ls n ihl ihr => exact fun ⟨_, h2, h3, h4⟩ => ⟨h2, ihl h3, ihr h4⟩

theorem confidence_good {s : Sample ℝ} (hs : SampleOk s) {i : ℕ} (hi : i < s.nSample) : ∀ (tree : TreeNode F64), GoodTree s tree →
    ∃ x : ℝ, confidence s i tree = some (fin x) ∧ |x| ≤ 1 := by
  intro tree
  induction tree with
  | leaf c => rintro ⟨x, rfl, hx⟩; exact ⟨x, rfl, hx⟩
  | branch rule l r ihl ihr =>
    rintro ⟨⟨f, hf, hfe⟩, h1, h2⟩
    obtain ⟨feat, thr⟩ := rule
    simp only at hfe
    subst hfe
    unfold confidence
    rw [goesLeft_f64 hs hf thr hi]
    cases hd : (open Classical in decide (F64.Lt (fin (f.val i)) thr)) with
    | true => exact ihl h1
    | false => exact ihr h2

open Classical in
theorem positiveRows_f64 {dist : List F64} {w : ℕ → ℝ} : ∀ (idx : List ℕ), (∀ i ∈ idx, dist[i]? = some (fin (w i))) →
    positiveRows dist idx = some (idx.filter fun i => decide (0 < w i)) := by
  intro idx
  induction idx with
  | nil => intro _; rfl
  | cons i idx ih =>
    intro h
    unfold positiveRows
    rw [h i (by simp), ih fun j hj => h j (List.mem_cons_of_mem _ hj)]
    have he : F64.Lt (fin 0) (fin (w i)) ↔ 0 < w i := Iff.rfl
    by_cases hc : 0 < w i
    · simp [hc, he]
    · simp [hc, he]

end Miniboosts.FTree
