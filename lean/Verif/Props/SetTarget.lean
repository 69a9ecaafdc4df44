import Verif.Props.Feature
import Verif.Lemmas.Sample

/-! # C108: `Sample::set_target` -/

namespace Miniboosts.Props

open Miniboosts Spec

variable {K : Type*} [Field K] [LinearOrder K] [IsStrictOrderedRing K]

omit [Field K] [LinearOrder K] [IsStrictOrderedRing K] in
theorem fill_spec {n : Nat} : ∀ (l : List (Nat × K)) (t : List K), t.length = n → (∀ p ∈ l, p.1 < n) → (l.map Prod.fst).Nodup →
    ∃ r, SparseFeature.fill l t = .ok r ∧ r.length = n ∧ (∀ p ∈ l, r[p.1]? = some p.2) ∧ ∀ i, (∀ p ∈ l, p.1 ≠ i) → r[i]? = t[i]? := by
  intro l
  induction l with
  | nil => intro t ht _ _; exact ⟨t, rfl, ht, by simp, by simp⟩
  | cons p l ih =>
    intro t ht hl hn
    rw [List.map_cons, List.nodup_cons] at hn
    obtain ⟨r, h1, h2, h3, h4⟩ := ih (t.set p.1 p.2) (by simpa using ht) (fun q hq => hl q (List.mem_cons_of_mem _ hq)) hn.2
    refine ⟨r, ?_, h2, ?_, ?_⟩
    · rw [SparseFeature.fill, if_pos (by rw [ht]; exact hl p (by simp))]; exact h1
    · intro q hq
      rcases List.mem_cons.1 hq with rfl | hq
      · rw [h4 q.1 (fun p' hp' e => hn.1 (e ▸ List.mem_map_of_mem hp')), List.getElem?_set_self (by rw [ht]; exact hl q (by simp))]
      · exact h3 q hq
    · intro i hi
      rw [h4 i fun q hq => hi q (List.mem_cons_of_mem _ hq), List.getElem?_set_ne (hi p (by simp))]

/-- The target made from a column has the value of the column in every row. -/
theorem intoTarget_spec {n : Nat} {f : Feature K} (hf : ColumnOk n f) :
    ∃ ys, f.intoTarget = .ok ys ∧ ys.length = n ∧ ∀ i < n, ∃ y, ys[i]? = some y ∧ f.index i = .ok y := by
  cases f with
  | dense f =>
    have hl : f.sample.length = n := hf
    refine ⟨f.sample, rfl, hl, fun i hi => ⟨f.sample[i], List.getElem?_eq_getElem (by omega), ?_⟩⟩
    simp only [Feature.index, DenseFeature.index]
    rw [List.getElem?_eq_getElem (by omega)]
  | sparse f =>
    have hs : SparseOk n f := hf
    obtain ⟨r, h1, h2, h3, h4⟩ := fill_spec (n := n) f.sample (List.replicate f.nSample 0) (by rw [List.length_replicate]; exact hs.1) hs.2.2 (hs.2.1.imp fun h => h.ne)
    refine ⟨r, h1, h2, fun i hi => ?_⟩
    by_cases hm : ∃ p ∈ f.sample, p.1 = i
    · obtain ⟨p, hp, rfl⟩ := hm
      exact ⟨p.2, h3 p hp, (sparse_reads_back hs p.1).1 p.2 hp⟩
    · push Not at hm
      refine ⟨0, ?_, (sparse_reads_back hs i).2 hm⟩
      rw [h4 i hm, List.getElem?_replicate, if_pos (by rw [hs.1]; exact hi)]

/-- What a sample may lack before its target is set: everything of a well-formed sample but the labels. -/
structure ColumnsOk (s : Sample K) : Prop where
  count : s.nFeature = s.features.length
  names : (s.features.map Feature.name).Nodup
  columns : ∀ f ∈ s.features, ColumnOk s.nSample f

/-- **C108**: `set_target` of an existing column, dense or sparse, gives a well-formed sample with the values of that column as labels, and
the other columns, in their order, unchanged. -/
theorem setTarget_spec {s : Sample K} (hs : ColumnsOk s) {f : Feature K} (hf : f ∈ s.features) :
    ∃ s', s.setTarget f.name = .ok s' ∧ SampleOk s' ∧ s'.nSample = s.nSample ∧
      (∀ i < s.nSample, ∃ y, s'.target[i]? = some y ∧ f.index i = .ok y) ∧
      s'.features = s.features.filter (fun g => g.name ≠ f.name) ∧
      (∀ g ∈ s.features, g.name ≠ f.name → s'.byName g.name = .ok g) ∧ s'.byName f.name = .error .unwrapNone := by
  obtain ⟨pos, hpos, rfl⟩ := List.getElem_of_mem hf
  have hinj : ∀ j, ∀ hj : j < s.features.length, s.features[j].name = s.features[pos].name → j = pos := by
    intro j hj e
    have := (List.Nodup.getElem_inj_iff hs.names (i := j) (j := pos) (hi := by simpa using hj) (hj := by simpa using hpos)).1 (by simpa using e)
    exact this
  have hfind : s.features.findIdx? (fun g => g.name == s.features[pos].name) = some pos := by
    rw [List.findIdx?_eq_some_iff_getElem]
    refine ⟨hpos, by simp, fun j hj => ?_⟩
    simp only [beq_iff_eq]
    intro e
    have := hinj j (by omega) e
    omega
  obtain ⟨ys, y1, y2, y3⟩ := intoTarget_spec (hs.columns _ hf)
  have herase : s.features.eraseIdx pos = s.features.filter (fun g => g.name ≠ s.features[pos].name) := by
    have key : ∀ (l : List (Feature K)) (nm : String) (p : Nat) (hp : p < l.length), (l.map Feature.name).Nodup → l[p].name = nm →
        l.eraseIdx p = l.filter (fun g => g.name ≠ nm) := by
      intro l nm
      induction l with
      | nil => intro p hp; simp at hp
      | cons a l ih =>
        intro p hp hn e
        rw [List.map_cons, List.nodup_cons] at hn
        cases p with
        | zero =>
          have e' : a.name = nm := e
          rw [List.eraseIdx_zero, List.tail_cons, List.filter_cons, if_neg (by simp [e']), eq_comm, List.filter_eq_self]
          intro g hg
          have : g.name ≠ nm := fun h => hn.1 (by rw [e', ← h]; exact List.mem_map_of_mem hg)
          simpa using this
        | succ p =>
          have hp' : p < l.length := by simpa using hp
          have e' : l[p].name = nm := by simpa using e
          have hne : a.name ≠ nm := fun h => hn.1 (by rw [h, ← e']; exact List.mem_map_of_mem (List.getElem_mem hp'))
          rw [List.eraseIdx_cons_succ, List.filter_cons, if_pos (by simpa using hne), ih p hp' hn.2 e']
    exact key _ _ pos hpos hs.names rfl
  have hnd : ((s.features.eraseIdx pos).map Feature.name).Nodup := hs.names.sublist ((List.eraseIdx_sublist _ _).map _)
  have hset : s.setTarget s.features[pos].name = .ok { s with features := s.features.eraseIdx pos, target := ys, nFeature := s.nFeature - 1, nameToIndex := Sample.indexNames (s.features.eraseIdx pos) } := by
    unfold Sample.setTarget
    rw [hfind]
    simp only [List.getElem?_eq_getElem hpos, y1]
    rw [if_neg (by rw [hs.count]; omega)]
  have htab := Sample.indexNames_ok hnd
  refine ⟨_, hset, ⟨?_, hnd, htab, ?_, y2⟩, rfl, y3, herase, ?_, ?_⟩
  · show s.nFeature - 1 = (s.features.eraseIdx pos).length
    rw [List.length_eraseIdx_of_lt hpos, hs.count]
  · intro g hg
    exact hs.columns g ((List.eraseIdx_sublist _ _).subset hg)
  · intro g hg hne
    refine Sample.byName_ok hnd htab ?_
    show g ∈ s.features.eraseIdx pos
    rw [herase, List.mem_filter]
    exact ⟨hg, by simpa using hne⟩
  · refine Sample.byName_missing htab ?_
    show _ ∉ (s.features.eraseIdx pos).map Feature.name
    rw [herase]
    intro h
    obtain ⟨g, hg, e⟩ := List.mem_map.1 h
    have := (List.mem_filter.1 hg).2
    simp [e] at this

omit [LinearOrder K] [IsStrictOrderedRing K] in
/-- C108: the name of no column makes `set_target` panic. -/
theorem setTarget_missing {s : Sample K} {nm : String} (h : nm ∉ s.features.map Feature.name) : s.setTarget nm = .error .unwrapNone := by
  have : s.features.findIdx? (fun g => g.name == nm) = none := by
    rw [List.findIdx?_eq_none_iff]
    intro g hg
    simp only [beq_eq_false_iff_ne]
    intro e
    exact h (e ▸ List.mem_map_of_mem hg)
  unfold Sample.setTarget
  rw [this]

/-- C108: choosing another target later drops the old one: the sample then has neither of the two columns. -/
theorem setTarget_twice {s : Sample K} (hs : ColumnsOk s) {f g : Feature K} (hf : f ∈ s.features) (hg : g ∈ s.features) (hne : g.name ≠ f.name) :
    ∃ s₁ s₂, s.setTarget f.name = .ok s₁ ∧ s₁.setTarget g.name = .ok s₂ ∧ SampleOk s₂ ∧
      (∀ i < s.nSample, ∃ y, s₂.target[i]? = some y ∧ g.index i = .ok y) ∧
      s₂.features = s.features.filter (fun h => h.name ≠ f.name ∧ h.name ≠ g.name) := by
  obtain ⟨s₁, a1, a2, a3, -, a5, -, -⟩ := setTarget_spec hs hf
  obtain ⟨s₂, b1, b2, b3, b4, b5, -, -⟩ := setTarget_spec (s := s₁) ⟨a2.count, a2.names, a2.columns⟩
    (f := g) (by rw [a5, List.mem_filter]; exact ⟨hg, by simpa using hne⟩)
  refine ⟨s₁, s₂, a1, b1, b2, by rw [← a3]; exact b4, ?_⟩
  rw [b5, a5, List.filter_filter]
  apply List.filter_congr
  intro h _
  simp [Bool.and_comm]

/-- A sample with a dense and a sparse column, the sparse one chosen as the target. -/
example : ∃ s', Sample.setTarget (K := ℚ) { nameToIndex := [("a", 0), ("y", 1)], features := [.dense ⟨"a", [5, 6, 7]⟩, .sparse ⟨"y", [(2, 1)], 3⟩], target := [], nSample := 3, nFeature := 2 } "y" = .ok s' ∧ SampleOk s' ∧ s'.target = [0, 0, 1] := by
  refine ⟨{ nameToIndex := [("a", 0)], features := [.dense ⟨"a", [5, 6, 7]⟩], target := [0, 0, 1], nSample := 3, nFeature := 1 }, by decide +kernel,
    ⟨rfl, by simp, rfl, ?_, rfl⟩, rfl⟩
  intro f hf
  simp only [List.mem_singleton] at hf
  subst hf
  rfl

example : ColumnsOk (K := ℚ) { nameToIndex := [("a", 0), ("y", 1)], features := [.dense ⟨"a", [5, 6, 7]⟩, .sparse ⟨"y", [(2, 1)], 3⟩], target := [], nSample := 3, nFeature := 2 } := by
  refine ⟨rfl, by decide, ?_⟩
  intro f hf
  simp only [List.mem_cons, List.not_mem_nil, or_false] at hf
  rcases hf with rfl | rfl
  · rfl
  · exact ⟨rfl, by decide, by decide⟩

end Miniboosts.Props
