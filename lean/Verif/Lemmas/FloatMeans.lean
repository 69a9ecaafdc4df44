import Verif.Lemmas.FloatLeaf
import Verif.Spec.FloatEdge

/-! # The answers of a tree trained in `f64` are the mean labels of its leaves -/

namespace Miniboosts.FTree

open Miniboosts F64 Spec

/-- What a node knows about its rows. -/
structure Knows (s : Sample ℝ) (w : ℕ → ℝ) (idx : List ℕ) (c x l : F64) : Prop where
  ne : idx ≠ []
  vals : NodeVals s w idx c l
  weight : ∃ r, x = fin r ∧ |r - (idx.map w).sum| ≤ 1 / 10 ^ 8

/-- The nodes of the tree describe the rows that reach them. -/
def TrainRel (s : Sample ℝ) (w : ℕ → ℝ) : TrainNode F64 → List ℕ → Prop
  | .leaf c x l, idx => Knows s w idx c x l
  | .branch rule lt rt c x l _, idx => Knows s w idx c x l ∧
      ∃ p : ℕ → Bool, (∀ i ∈ idx, goesLeft rule s i = some (p i)) ∧ TrainRel s w lt (idx.filter p) ∧ TrainRel s w rt (idx.filter fun i => !p i)

theorem TrainRel.knows {s : Sample ℝ} {w : ℕ → ℝ} {node : TrainNode F64} {idx : List ℕ} (h : TrainRel s w node idx) : idx ≠ [] := by
  cases node with
  | leaf c x l => exact Knows.ne h
  | branch rule lt rt c x l n => exact h.1.ne

theorem splitRows_filter {rule : Splitter F64} {s : Sample ℝ} : ∀ (idx : List ℕ) {l r : List ℕ}, splitRows rule s idx = some (l, r) →
    (∀ i ∈ idx, goesLeft rule s i = some ((goesLeft rule s i).getD false)) ∧ l = idx.filter (fun i => (goesLeft rule s i).getD false) ∧
      r = idx.filter fun i => !(goesLeft rule s i).getD false := by
  intro idx
  induction idx with
  | nil =>
    intro l r h
    obtain ⟨rfl, rfl⟩ : ([] : List ℕ) = l ∧ ([] : List ℕ) = r := by simpa [splitRows] using h
    exact ⟨by simp, rfl, rfl⟩
  | cons i idx ih =>
    intro l r h
    unfold splitRows at h
    cases hg : goesLeft rule s i with
    | none => rw [hg] at h; cases h
    | some b =>
      rw [hg] at h
      cases hr : splitRows rule s idx with
      | none => rw [hr] at h; cases h
      | some q =>
        rw [hr] at h
        obtain ⟨l', r'⟩ := q
        obtain ⟨h1, h2, h3⟩ := ih hr
        refine ⟨fun j hj => ?_, ?_⟩
        · rcases List.mem_cons.mp hj with rfl | hj
          · rw [hg]; rfl
          · exact h1 j hj
        · simp only [Option.map_some, Option.some.injEq] at h
          cases b with
          | true =>
            simp only [if_true, Prod.mk.injEq] at h
            obtain ⟨rfl, rfl⟩ := h
            exact ⟨by rw [List.filter_cons, hg]; simp [← h2], by rw [List.filter_cons, hg]; simp [← h3]⟩
          | false =>
            simp only [Bool.false_eq_true, if_false, Prod.mk.injEq] at h
            obtain ⟨rfl, rfl⟩ := h
            exact ⟨by rw [List.filter_cons, hg]; simp [← h2], by rw [List.filter_cons, hg]; simp [← h3]⟩

theorem Binary.filter {s : Sample ℝ} {idx : List ℕ} (h : Binary s idx) (p : ℕ → Bool) : Binary s (idx.filter p) :=
  fun i hi => h i (List.mem_filter.mp hi).1

/-- A trained tree, for any criterion, describes its rows. -/
theorem fullTree_rel (L : Libm) {t : Tree} {s : Sample ℝ} (hs : SampleOk s) {dist : List F64} {w : ℕ → ℝ} :
    ∀ (depth : ℕ) (idx : List ℕ), Node s dist w idx → idx ≠ [] → Binary s idx → ∀ node, FullTree L t s dist depth idx (some node) → TrainRel s w node idx := by
  intro depth
  induction depth with
  | zero =>
    intro idx hN hne hb node h
    obtain ⟨a, c, ha, hc, h⟩ := h
    match a, c, ha, hc, h with
    | none, _, _, _, h => cases h
    | some _, none, _, _, h => cases h
    | some total, some (cf, l), ha, hc, h =>
      cases h
      exact ⟨hne, confLoss_near hs hN hne hb hc, sumAt_near hN ha⟩
  | succ depth ih =>
    intro idx hN hne hb node h
    obtain ⟨a, c, ha, hc, h⟩ := h
    match a, c, ha, hc, h with
    | none, _, _, _, h => cases h
    | some _, none, _, _, h => cases h
    | some total, some (cf, l), ha, hc, h =>
      have hk : Knows s w idx cf total l := ⟨hne, confLoss_near hs hN hne hb hc, sumAt_near hN ha⟩
      rcases h with ⟨-, h⟩ | ⟨-, b, -, h⟩
      · cases h; exact hk
      · match b, h with
        | none, h => cases h
        | some (feature, threshold), h =>
          simp only at h
          split at h
          · cases h
          · rename_i l₁ l₂ hsp
            by_cases he : l₁ = [] ∨ l₂ = []
            · rw [if_pos he] at h; cases h; exact hk
            · rw [if_neg he] at h
              push Not at he
              obtain ⟨lt, rt, hlt, hrt, h⟩ := h
              obtain ⟨h1, rfl, rfl⟩ := splitRows_filter idx hsp
              match lt, rt, hlt, hrt, h with
              | none, _, _, _, h => cases h
              | some _, none, _, _, h => cases h
              | some lt, some rt, hlt, hrt, h =>
                cases h
                exact ⟨hk, _, h1, ih _ (hN.filter _) he.1 (hb.filter _) lt hlt, ih _ (hN.filter _) he.2 (hb.filter _) rt hrt⟩

theorem removeRedundant_rel {s : Sample ℝ} {w : ℕ → ℝ} : ∀ (node : TrainNode F64) (idx : List ℕ), TrainRel s w node idx → TrainRel s w (removeRedundant node) idx := by
  intro node
  induction node with
  | leaf c x l => exact fun _ h => h
  | branch rule l r c x ls n ihl ihr =>
    rintro idx ⟨h1, p, h2, h3, h4⟩
    unfold removeRedundant
    split
    · exact ⟨h1, p, h2, ihl _ h3, h4⟩
    · split
      · exact ⟨h1, p, h2, h3, ihr _ h4⟩
      · split
        · exact h1
        · exact ⟨h1, p, h2, ihl _ h3, ihr _ h4⟩

/-- The answers of the tree are the mean labels of the rows in its leaves, up to `1e-8`. -/
def TreeRel (s : Sample ℝ) (w : ℕ → ℝ) : TreeNode F64 → List ℕ → Prop
  | .leaf c, idx => idx ≠ [] ∧ ∃ x, c = fin x ∧ |x - signedWeight s w idx / (idx.map w).sum| ≤ 1 / 10 ^ 8 ∧ |x| ≤ 1
  | .branch rule lt rt, idx => ∃ p : ℕ → Bool, (∀ i ∈ idx, goesLeft rule s i = some (p i)) ∧ TreeRel s w lt (idx.filter p) ∧ TreeRel s w rt (idx.filter fun i => !p i)

theorem ofTrain_rel {s : Sample ℝ} {w : ℕ → ℝ} : ∀ (node : TrainNode F64) (idx : List ℕ), TrainRel s w node idx → TreeRel s w (ofTrain node) idx := by
  intro node
  induction node with
  | leaf c x l => exact fun _ h => ⟨h.ne, h.vals.conf⟩
  | branch rule l r c x ls n ihl ihr => exact fun _ ⟨_, p, h2, h3, h4⟩ => ⟨p, h2, ihl _ h3, ihr _ h4⟩

theorem TreeRel.ne {s : Sample ℝ} {w : ℕ → ℝ} : ∀ {tree : TreeNode F64} {idx : List ℕ}, TreeRel s w tree idx → idx ≠ [] := by
  intro tree
  induction tree with
  | leaf c => exact fun h => h.1
  | branch rule l r ihl ihr =>
    rintro idx ⟨p, -, h, -⟩ rfl
    exact ihl h rfl

/-- The answer as a number. -/
noncomputable def ans (s : Sample ℝ) (tree : TreeNode F64) (i : ℕ) : ℝ := ((confidence s i tree).getD nan).val

open Classical in
/-- How `goesLeft` decides. -/
theorem goesLeft_valueAt {s : Sample ℝ} (hs : SampleOk s) {rule : Splitter F64} {i : ℕ} (hi : i < s.nSample) {b : Bool} (h : goesLeft rule s i = some b) :
    ∃ v, valueAt s i rule.feature = some v ∧ b = decide (F64.Lt (fin v) rule.threshold) := by
  by_cases hf : ∃ f ∈ s.features, f.name = rule.feature
  · obtain ⟨f, hf, hfe⟩ := hf
    obtain ⟨feature, thr⟩ := rule
    simp only at hfe
    subst hfe
    rw [goesLeft_f64 hs hf thr hi] at h
    refine ⟨f.val i, ?_, (Option.some.inj h).symm⟩
    unfold valueAt
    obtain ⟨g, hg⟩ : ∃ g, s.features.find? (fun g => decide (g.name = f.name)) = some g := by
      rw [← Option.isSome_iff_exists, List.find?_isSome]
      exact ⟨f, hf, by simp⟩
    rw [hg]
    have hgm := List.mem_of_find?_eq_some hg
    have hge := List.find?_some hg
    simp only [decide_eq_true_eq] at hge
    have h1 := Sample.byName_ok hs.names hs.table hgm
    have h2 := Sample.byName_ok hs.names hs.table hf
    rw [hge, h2] at h1
    cases h1
    rfl
  · exfalso
    unfold goesLeft at h
    rw [Sample.byName_missing hs.table (by simpa using hf)] at h
    cases h

/-- The rows of the leaf of a row, and the answer. -/
theorem treeRel_mates {s : Sample ℝ} (hs : SampleOk s) {w : ℕ → ℝ} : ∀ (tree : TreeNode F64) (idx : List ℕ), TreeRel s w tree idx → (∀ i ∈ idx, i < s.nSample) →
    ∀ i ∈ idx, ∃ x, confidence s i tree = some (fin x) ∧ |x| ≤ 1 ∧
      open Classical in |x - signedWeight s w (idx.filter fun j => decide (turns (valueAt s j) tree = turns (valueAt s i) tree)) /
        ((idx.filter fun j => decide (turns (valueAt s j) tree = turns (valueAt s i) tree)).map w).sum| ≤ 1 / 10 ^ 8 := by
  classical
  intro tree
  induction tree with
  | leaf c =>
    rintro idx ⟨-, x, rfl, h2, h3⟩ - i hi
    refine ⟨x, rfl, h3, ?_⟩
    simpa [turns] using h2
  | branch rule lt rt ihl ihr =>
    rintro idx ⟨p, hp, hl, hr⟩ hrow i hi
    have key : ∀ j ∈ idx, turns (valueAt s j) (.branch rule lt rt) = if p j then true :: turns (valueAt s j) lt else false :: turns (valueAt s j) rt := by
      intro j hj
      obtain ⟨v, hv1, hv2⟩ := goesLeft_valueAt hs (hrow j hj) (hp j hj)
      conv_lhs => unfold turns
      rw [hv1, hv2]
      by_cases hc : F64.Lt (fin v) rule.threshold <;> simp [hc]
    rw [key i hi]
    cases hpi : p i with
    | true =>
      obtain ⟨x, h1, h2, h3⟩ := ihl _ hl (fun j hj => hrow j (List.mem_filter.mp hj).1) i (List.mem_filter.mpr ⟨hi, hpi⟩)
      refine ⟨x, ?_, h2, ?_⟩
      · unfold confidence; rw [hp i hi, hpi]; exact h1
      · have : idx.filter (fun j => decide (turns (valueAt s j) (.branch rule lt rt) = if true = true then true :: turns (valueAt s i) lt else false :: turns (valueAt s i) rt)) =
            (idx.filter p).filter fun j => decide (turns (valueAt s j) lt = turns (valueAt s i) lt) := by
          rw [List.filter_filter]
          refine List.filter_congr fun j hj => ?_
          rw [key j hj]
          cases p j <;> simp
        rw [this]
        exact h3
    | false =>
      obtain ⟨x, h1, h2, h3⟩ := ihr _ hr (fun j hj => hrow j (List.mem_filter.mp hj).1) i (List.mem_filter.mpr ⟨hi, by simp [hpi]⟩)
      refine ⟨x, ?_, h2, ?_⟩
      · unfold confidence; rw [hp i hi, hpi]; exact h1
      · have : idx.filter (fun j => decide (turns (valueAt s j) (.branch rule lt rt) = if false = true then true :: turns (valueAt s i) lt else false :: turns (valueAt s i) rt)) =
            (idx.filter fun j => !p j).filter fun j => decide (turns (valueAt s j) rt = turns (valueAt s i) rt) := by
          rw [List.filter_filter]
          refine List.filter_congr fun j hj => ?_
          rw [key j hj]
          cases p j <;> simp
        rw [this]
        exact h3

/-! ## The edge -/

/-- The edge on some rows. -/
noncomputable def edgeOn (s : Sample ℝ) (w : ℕ → ℝ) (tree : TreeNode F64) (idx : List ℕ) : ℝ :=
  (idx.map fun i => w i * (s.target.getD i 0 * ans s tree i)).sum

theorem signed_filter (s : Sample ℝ) (w : ℕ → ℝ) (idx : List ℕ) (p : ℕ → Bool) :
    signedWeight s w (idx.filter p) + signedWeight s w (idx.filter fun i => !p i) = signedWeight s w idx := sum_filter_add p _ idx

theorem weight_filter (w : ℕ → ℝ) (idx : List ℕ) (p : ℕ → Bool) :
    ((idx.filter p).map w).sum + ((idx.filter fun i => !p i).map w).sum = (idx.map w).sum := sum_filter_add p _ idx

theorem titu {a b x y : ℝ} (hx : 0 < x) (hy : 0 < y) : (|a| + |b|) ^ 2 / (x + y) ≤ a ^ 2 / x + b ^ 2 / y := by
  rw [← sq_abs a, ← sq_abs b, div_add_div _ _ hx.ne' hy.ne', div_le_div_iff₀ (by positivity) (by positivity)]
  nlinarith [sq_nonneg (|a| * y - |b| * x), mul_pos hx hy]

theorem edgeOn_branch {s : Sample ℝ} {w : ℕ → ℝ} {rule : Splitter F64} {lt rt : TreeNode F64} {idx : List ℕ} {p : ℕ → Bool}
    (hp : ∀ i ∈ idx, goesLeft rule s i = some (p i)) :
    edgeOn s w (.branch rule lt rt) idx = edgeOn s w lt (idx.filter p) + edgeOn s w rt (idx.filter fun i => !p i) := by
  unfold edgeOn
  rw [← sum_filter_add p (fun i => w i * (s.target.getD i 0 * ans s (.branch rule lt rt) i)) idx]
  congr 1
  · congr 1
    refine List.map_congr_left fun i hi => ?_
    obtain ⟨h1, h2⟩ := List.mem_filter.mp hi
    have : ans s (.branch rule lt rt) i = ans s lt i := by
      unfold ans
      conv_lhs => unfold confidence
      rw [hp i h1, h2]
    rw [this]
  · congr 1
    refine List.map_congr_left fun i hi => ?_
    obtain ⟨h1, h2⟩ := List.mem_filter.mp hi
    have : ans s (.branch rule lt rt) i = ans s rt i := by
      unfold ans
      conv_lhs => unfold confidence
      rw [hp i h1]
      cases hpi : p i with
      | true => rw [hpi] at h2; simp at h2
      | false => rfl
    rw [this]

theorem Node.wpos {s : Sample ℝ} {dist : List F64} {w : ℕ → ℝ} {idx : List ℕ} (h : Node s dist w idx) (hne : idx ≠ []) : 0 < (idx.map w).sum := by
  have := h.sum_pos hne
  have := eta_pos
  linarith

/-- The tree's edge is at least that of the mean label. -/
theorem treeRel_edge {s : Sample ℝ} {dist : List F64} {w : ℕ → ℝ} : ∀ (tree : TreeNode F64) (idx : List ℕ), TreeRel s w tree idx → Node s dist w idx → Binary s idx →
    signedWeight s w idx ^ 2 / (idx.map w).sum - 1 / 10 ^ 8 * (idx.map w).sum ≤ edgeOn s w tree idx := by
  intro tree
  induction tree with
  | leaf c =>
    rintro idx ⟨hne, x, rfl, h2, h3⟩ hN hb
    have hW := hN.wpos hne
    have hS := abs_signedWeight hb hN.nonneg
    have e : edgeOn s w (.leaf (fin x)) idx = signedWeight s w idx * x := by
      unfold edgeOn signedWeight
      rw [← List.sum_map_mul_right]
      congr 1
      refine List.map_congr_left fun i _ => ?_
      show _ * (_ * x) = _
      ring
    rw [e]
    set S := signedWeight s w idx
    set W := (idx.map w).sum
    have e2 : S ^ 2 / W = S * (S / W) := by ring
    have e3 : S * x - S * (S / W) = S * (x - S / W) := by ring
    have e4 : |S * (x - S / W)| ≤ W * (1 / 10 ^ 8) := by
      rw [abs_mul]; exact mul_le_mul hS h2 (abs_nonneg _) hW.le
    have := neg_abs_le (S * (x - S / W))
    rw [e2]
    linarith
  | branch rule lt rt ihl ihr =>
    rintro idx ⟨p, hp, hl, hr⟩ hN hb
    have h1 := ihl _ hl (hN.filter p) (hb.filter p)
    have h2 := ihr _ hr (hN.filter _) (hb.filter _)
    rw [edgeOn_branch hp]
    have hWl := (hN.filter p).wpos hl.ne
    have hWr := (hN.filter _).wpos hr.ne
    have h3 := titu (a := signedWeight s w (idx.filter p)) (b := signedWeight s w (idx.filter fun i => !p i)) hWl hWr
    have h4 := weight_filter w idx p
    have h5 := signed_filter s w idx p
    have h6 : signedWeight s w idx ^ 2 / (idx.map w).sum ≤ (|signedWeight s w (idx.filter p)| + |signedWeight s w (idx.filter fun i => !p i)|) ^ 2 / (idx.map w).sum := by
      have hWpos := hN.wpos (by rintro rfl; exact hl.ne rfl)
      refine div_le_div_of_nonneg_right ?_ hWpos.le
      rw [sq_le_sq, abs_of_nonneg (a := |_| + |_|) (by positivity), ← h5]
      exact abs_add_le _ _
    rw [h4] at h3
    have h7 : 1 / 10 ^ 8 * ((idx.filter p).map w).sum + 1 / 10 ^ 8 * ((idx.filter fun i => !p i).map w).sum = 1 / 10 ^ 8 * (idx.map w).sum := by rw [← mul_add, h4]
    linarith

/-- The tree's edge is at least that of its first test. -/
theorem treeRel_edge_root {s : Sample ℝ} {dist : List F64} {w : ℕ → ℝ} {rule : Splitter F64} {lt rt : TreeNode F64} {idx : List ℕ} {p : ℕ → Bool}
    (hp : ∀ i ∈ idx, goesLeft rule s i = some (p i)) (hl : TreeRel s w lt (idx.filter p)) (hr : TreeRel s w rt (idx.filter fun i => !p i))
    (hN : Node s dist w idx) (hb : Binary s idx) :
    (|signedWeight s w (idx.filter p)| + |signedWeight s w (idx.filter fun i => !p i)|) ^ 2 / (idx.map w).sum - 1 / 10 ^ 8 * (idx.map w).sum ≤
      edgeOn s w (.branch rule lt rt) idx := by
  have h1 := treeRel_edge _ _ hl (hN.filter p) (hb.filter p)
  have h2 := treeRel_edge _ _ hr (hN.filter _) (hb.filter _)
  rw [edgeOn_branch hp]
  have hWl := (hN.filter p).wpos hl.ne
  have hWr := (hN.filter _).wpos hr.ne
  have h3 := titu (a := signedWeight s w (idx.filter p)) (b := signedWeight s w (idx.filter fun i => !p i)) hWl hWr
  have h4 := weight_filter w idx p
  rw [h4] at h3
  have h7 : 1 / 10 ^ 8 * ((idx.filter p).map w).sum + 1 / 10 ^ 8 * ((idx.filter fun i => !p i).map w).sum = 1 / 10 ^ 8 * (idx.map w).sum := by rw [← mul_add, h4]
  linarith

end Miniboosts.FTree
