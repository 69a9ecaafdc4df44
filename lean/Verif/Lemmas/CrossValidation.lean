import Verif.Lemmas.Sample
import Verif.Lemmas.Feature

set_option linter.unusedSectionVars false

namespace Miniboosts

open Spec

variable {K : Type*} [Field K] [LinearOrder K]

theorem Feature.index_val {n : Nat} {f : Feature K} (h : ColumnOk n f) {i : Nat} (hi : i < n) :
    f.index i = .ok (f.val i) := by
  cases f with
  | dense f =>
    have : i < f.sample.length := by rw [show f.sample.length = n from h]; exact hi
    simp [Feature.index, DenseFeature.index, Feature.val, List.getElem?_eq_getElem this, List.getD_eq_getElem?_getD]
  | sparse f => rfl

/-- The column `f` restricted to the rows `L` (given with the positions under which they are stored). -/
def Feature.pick (f : Feature K) (size : Nat) (L : List (Nat × Nat)) : Feature K :=
  match f with
  | .dense f => .dense ⟨f.name, L.map (fun p => f.sample.getD p.1 0)⟩
  | .sparse f => .sparse ⟨f.name, L.map (fun p => (p.2, f.index p.1)), size⟩

theorem Feature.pick_name (f : Feature K) (size : Nat) (L : List (Nat × Nat)) :
    (f.pick size L).name = f.name := by cases f <;> rfl

theorem Feature.pick_append (f : Feature K) (size : Nat) (L : List (Nat × Nat)) (ii i : Nat) :
    (f.pick size L).append i (f.val ii) = f.pick size (L ++ [(ii, i)]) := by
  cases f <;> simp [Feature.pick, Feature.append, Feature.val, DenseFeature.append, SparseFeature.append]

namespace Sample

theorem at'_ok {s : Sample K} (hs : SampleOk s) {i : Nat} (hi : i < s.nSample) :
    s.at' i = .ok (s.features.map (fun f => f.val i), s.target.getD i 0) := by
  unfold at'
  rw [mapAll_ok _ (fun f => f.val i) _ (fun f hf => Feature.index_val (hs.columns f hf) hi)]
  have : i < s.target.length := by rw [hs.labels]; exact hi
  simp only [List.getElem?_eq_getElem this, List.getD_eq_getElem?_getD, Option.getD_some]

/-- The part of `s` consisting of the rows `L`. -/
def part (s : Sample K) (size : Nat) (L : List (Nat × Nat)) : Sample K :=
  { nameToIndex := s.nameToIndex, features := s.features.map (fun f => f.pick size L), target := L.map (fun p => s.target.getD p.1 0), nSample := size, nFeature := s.features.length }

theorem freshColumns_ok (size : Nat) (suf pre : List (Feature K)) (d : Feature K) :
    freshColumns (pre ++ suf) size ((suf.map Feature.name).zipIdx pre.length)
        (pre.map (fun f => f.pick size []) ++ List.replicate suf.length d)
      = .ok ((pre ++ suf).map (fun f => f.pick size [])) := by
  induction suf generalizing pre with
  | nil => simp [freshColumns]
  | cons f suf ih =>
    rw [List.map_cons, List.zipIdx_cons]
    unfold freshColumns
    simp only
    rw [List.getElem?_append_right (le_refl _), Nat.sub_self]
    simp only [List.getElem?_cons_zero]
    have hset : (pre.map (fun f => f.pick size []) ++ List.replicate (f :: suf).length d).set pre.length
        (if f.isSparse = true then (Feature.sparse (SparseFeature.new f.name)).setNSample size
          else Feature.dense (DenseFeature.new f.name))
        = (pre ++ [f]).map (fun f => f.pick size []) ++ List.replicate suf.length d := by
      rw [List.set_append_right _ _ (by simp)]
      simp only [List.length_map, Nat.sub_self, List.length_cons, List.replicate_succ, List.set_cons_zero,
        List.map_append, List.map_cons, List.map_nil, List.append_assoc, List.singleton_append]
      congr 2
      cases f <;> simp [Feature.isSparse, Feature.setNSample, Feature.pick, SparseFeature.new, DenseFeature.new,
        Feature.name]
    rw [hset]
    have := ih (pre ++ [f])
    simpa using this

theorem emptyLike_ok {s : Sample K} (hs : SampleOk s) (size : Nat) :
    s.emptyLike size = .ok (s.part size []) := by
  unfold emptyLike
  have := freshColumns_ok size s.features [] (Feature.sparse (SparseFeature.new "dummy"))
  simp only [List.nil_append, List.map_nil, List.length_nil] at this
  rw [hs.table, this]
  simp only [part, hs.table, List.map_nil]

theorem updateZip_map {A B C : Type*} (f : A → B → A) (g : C → A) (h : C → B) (l : List C) :
    updateZip f (l.map g) (l.map h) = l.map (fun c => f (g c) (h c)) := by
  induction l with
  | nil => simp [updateZip]
  | cons a l ih => simp [updateZip, ih]

theorem copyRows_ok {s : Sample K} (hs : SampleOk s) (size : Nat) (rows : List (Nat × Nat))
    (hrows : ∀ p ∈ rows, p.1 < s.nSample) (L : List (Nat × Nat)) :
    s.copyRows rows (s.part size L) = .ok (s.part size (L ++ rows)) := by
  induction rows generalizing L with
  | nil => simp [copyRows]
  | cons p rows ih =>
    obtain ⟨ii, i⟩ := p
    unfold copyRows
    rw [at'_ok hs (hrows (ii, i) (by simp))]
    simp only
    have : (s.part size L).append i (s.features.map (fun f => f.val ii)) (s.target.getD ii 0)
        = s.part size (L ++ [(ii, i)]) := by
      simp only [append, part, updateZip_map, Feature.pick_append, List.map_append, List.map_cons, List.map_nil]
    rw [this, ih (fun p hp => hrows p (List.mem_cons_of_mem _ hp))]
    simp

theorem split_ok {s : Sample K} (hs : SampleOk s) {ix : List Nat} (hix : ∀ i ∈ ix, i < s.nSample)
    (hl : ix.length = s.nSample) {start stop : Nat} (h1 : start ≤ stop) (h2 : stop ≤ s.nSample) :
    s.split ix start stop = .ok (s.part (s.nSample - (stop - start)) (ix.zipIdx.take start ++ ix.zipIdx.drop stop),
      s.part (stop - start) ((ix.zipIdx.take stop).drop start)) := by
  have hz : ∀ p ∈ ix.zipIdx, p.1 < s.nSample := by
    rintro ⟨a, b⟩ hp
    exact hix a (List.mem_of_getElem? (List.mk_mem_zipIdx_iff_getElem?.mp hp))
  unfold split
  rw [if_neg (by omega), if_neg (by omega), emptyLike_ok hs, emptyLike_ok hs]
  simp only
  rw [copyRows_ok hs _ _ (fun p hp => hz p (List.mem_of_mem_take hp))]
  simp only
  rw [copyRows_ok hs _ _ (fun p hp => hz p (List.mem_of_mem_take (List.mem_of_mem_drop hp)))]
  simp only
  rw [copyRows_ok hs _ _ (fun p hp => hz p (List.mem_of_mem_take (List.mem_of_mem_drop hp)))]
  have : ix.zipIdx.take s.nSample = ix.zipIdx := List.take_of_length_le (by simp [hl])
  simp [this]

theorem split_panics {s : Sample K} {ix : List Nat} {start stop : Nat} (h : stop < start) :
    s.split ix start stop = .error .arith := by
  unfold split; rw [if_pos h]

/-- All columns are dense. -/
def AllDense (s : Sample K) : Prop := ∀ f ∈ s.features, f.isSparse = false

theorem part_ok {s : Sample K} (hs : SampleOk s) (hd : AllDense s) {size : Nat} {L : List (Nat × Nat)}
    (hL : L.length = size) : SampleOk (s.part size L) := by
  have hnames : (s.part size L).features.map Feature.name = s.features.map Feature.name := by
    simp [part, List.map_map, Function.comp_def, Feature.pick_name]
  refine ⟨by simp [part], by rw [hnames]; exact hs.names, by rw [hnames]; exact hs.table, ?_, by simp [part, hL]⟩
  intro f hf
  obtain ⟨g, hg, rfl⟩ := List.mem_map.mp hf
  cases g with
  | dense g => simp [Feature.pick, ColumnOk, part, hL]
  | sparse g => exact absurd (hd _ hg) (by simp [Feature.isSparse])

theorem part_at {s : Sample K} (hs : SampleOk s) (hd : AllDense s) {size : Nat} {L : List (Nat × Nat)}
    (hL : L.length = size) (hr : ∀ p ∈ L, p.1 < s.nSample) {k : Nat} (hk : k < size) :
    (s.part size L).at' k = s.at' (L[k]'(by omega)).1 := by
  rw [at'_ok (part_ok hs hd hL) hk, at'_ok hs (hr _ (List.getElem_mem _))]
  congr 1
  simp only [Prod.mk.injEq]
  constructor
  · simp only [part, List.map_map]
    apply List.map_congr_left
    intro f hf
    cases f with
    | dense g =>
      simp [Feature.pick, Feature.val, List.getD_eq_getElem?_getD, List.getElem?_map,
        List.getElem?_eq_getElem (show k < L.length by omega)]
    | sparse g => exact absurd (hd _ hf) (by simp [Feature.isSparse])
  · simp [part, List.getD_eq_getElem?_getD, List.getElem?_map,
        List.getElem?_eq_getElem (show k < L.length by omega)]

end Sample

end Miniboosts
