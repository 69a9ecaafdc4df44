import Verif.Lemmas.NNGrad
import Verif.Lemmas.Gamma
import Verif.Props.Projection

/-! # The forward and the backward pass of a training step -/

namespace Miniboosts.NN

open Real Spec

/-! ## Evaluation -/

theorem affine_ok {l : Layer} (hl : ShapedLayer l) (z : List ℝ) (hz : l.ncol = z.length) : l.affine z = .ok (affineFn l z) := by
  rw [Layer.affine, if_neg (by omega)]
  congr 1
  apply List.ext_getElem
  · simp [affineFn, hl.rows, hl.bias]
  · intro i h1 h2
    have hi : i < l.nrow := by simpa [affineFn] using h2
    have hm : i < l.matrix.length := by rw [hl.rows]; exact hi
    have hb : i < l.bias.length := by rw [hl.bias]; exact hi
    have hr : (l.matrix[i]).length = z.length := by rw [hl.cols _ (List.getElem_mem _), hz]
    simp only [List.getElem_zipWith, affineFn, List.getElem_map, List.getElem_range, Miniboosts.innerProduct]
    rw [sum_zipWith (fun a b => a * b) _ _ hr, hz, List.getD_eq_getElem l.bias _ hb]
    congr 1
    apply Finset.sum_congr rfl
    intro j _
    rw [Mat.entry, List.getD_eq_getElem l.matrix _ hm]

theorem eval_ok (a : Activation) (u : List ℝ) (hu : u ≠ []) : a.eval u = .ok (actFn a u) := by
  cases a with
  | softMax η =>
    simp only [Activation.eval, Activation.softmax, actFn]
    exact Props.project_one _ (by simpa using hu)
  | _ => rfl

theorem diff_ok (a : Activation) (u : List ℝ) (hu : u ≠ []) : a.diff u = .ok (actDer a u) := by
  cases a with
  | softMax η =>
    have := eval_ok (.softMax η) u hu
    simp only [Activation.eval] at this
    simp only [Activation.diff, Activation.softmaxDiff, this, actDer]
  | _ => rfl

/-- One layer as a function. -/
noncomputable def fwd (l : Layer) (z : List ℝ) : List ℝ := actFn l.activation (affineFn l z)

theorem fwd_length (l : Layer) (z : List ℝ) : (fwd l z).length = l.nrow := by rw [fwd, act_length, affine_length]

theorem affineFn_ne {l : Layer} (hl : ShapedLayer l) (z : List ℝ) : affineFn l z ≠ [] := by
  intro h
  have := affine_length l z
  rw [h] at this
  have := hl.pos
  simp_all

theorem forward_ok {l : Layer} (hl : ShapedLayer l) (z : List ℝ) (hz : l.ncol = z.length) : l.forward z = .ok (fwd l z) := by
  rw [Layer.forward, affine_ok hl z hz]
  exact eval_ok _ _ (affineFn_ne hl z)

theorem evalLayers_ok (ls : List Layer) (z : List ℝ) (h : Shaped ls z.length) :
    NNHypothesis.evalLayers ls z = .ok (netFn ls z) := by
  induction ls generalizing z with
  | nil => rfl
  | cons l ls ih =>
    obtain ⟨h1, h2, h3⟩ := h
    rw [NNHypothesis.evalLayers, forward_ok h1 z h2]
    exact ih _ (by rw [fwd_length]; exact h3)

/-! ## The forward pass -/

/-- The inputs of the layers. -/
noncomputable def zsOf : List Layer → List ℝ → List (List ℝ)
  | [], _ => []
  | l :: ls, z => z :: zsOf ls (fwd l z)

/-- The derivatives of the activations. -/
noncomputable def dsOf : List Layer → List ℝ → List (List ℝ)
  | [], _ => []
  | l :: ls, z => actDer l.activation (affineFn l z) :: dsOf ls (fwd l z)

theorem forwardPass_ok (pre : List Layer) : ∀ (l : Layer) (z : List ℝ), Shaped (pre ++ [l]) z.length →
    NNHypothesis.forwardPass (pre ++ [l]) z = .ok (zsOf (pre ++ [l]) z, dsOf pre z, netFn (pre ++ [l]) z) := by
  induction pre with
  | nil =>
    intro l z h
    obtain ⟨h1, h2, -⟩ := h
    simp only [List.nil_append, NNHypothesis.forwardPass, affine_ok h1 z h2, Layer.nonlinear,
      eval_ok _ _ (affineFn_ne h1 z)]
    rfl
  | cons q pre ih =>
    intro l z h
    obtain ⟨h1, h2, h3⟩ := h
    have hi := ih l (fwd q z) (by rw [fwd_length]; exact h3)
    rw [List.cons_append, NNHypothesis.forwardPass, affine_ok h1 z h2]
    simp only [Layer.nonlinear, eval_ok _ _ (affineFn_ne h1 z), diff_ok _ _ (affineFn_ne h1 z)]
    have hne : ∃ a as, pre ++ [l] = a :: as := by cases pre <;> simp
    obtain ⟨a, as, e⟩ := hne
    rw [e] at hi ⊢
    have hi' : NNHypothesis.forwardPass (a :: as) (actFn q.activation (affineFn q z)) =
      .ok (zsOf (a :: as) (fwd q z), dsOf pre (fwd q z), netFn (a :: as) (fwd q z)) := hi
    simp only [hi']
    rfl

/-- The inputs of the layers for a batch: a matrix per layer, a row per example. -/
noncomputable def outsOf : List Layer → Mat → List Mat
  | [], _ => []
  | l :: ls, X => X :: outsOf ls (X.map (fwd l))

/-- The derivatives for a batch. -/
noncomputable def dersOf : List Layer → Mat → List Mat
  | [], _ => []
  | l :: ls, X => X.map (fun x => actDer l.activation (affineFn l x)) :: dersOf ls (X.map (fwd l))

theorem outsOf_snoc (ls : List Layer) (X : Mat) (x : List ℝ) :
    updateZip (fun m z => m ++ [z]) (outsOf ls X) (zsOf ls x) = outsOf ls (X ++ [x]) := by
  induction ls generalizing X x with
  | nil => rfl
  | cons l ls ih =>
    simp only [outsOf, zsOf, updateZip, ih, List.map_append, List.map_cons, List.map_nil]

theorem dersOf_snoc (ls : List Layer) (X : Mat) (x : List ℝ) :
    updateZip (fun m z => m ++ [z]) (dersOf ls X) (dsOf ls x) = dersOf ls (X ++ [x]) := by
  induction ls generalizing X x with
  | nil => rfl
  | cons l ls ih =>
    simp only [dersOf, dsOf, updateZip, ih, List.map_append, List.map_cons, List.map_nil]

theorem outsOf_nil (ls : List Layer) : outsOf ls [] = List.replicate ls.length [] := by
  induction ls with
  | nil => rfl
  | cons l ls ih => simp only [outsOf, List.map_nil, ih, List.length_cons, List.replicate_succ]

theorem dersOf_nil (ls : List Layer) : dersOf ls [] = List.replicate ls.length [] := by
  induction ls with
  | nil => rfl
  | cons l ls ih => simp only [dersOf, List.map_nil, ih, List.length_cons, List.replicate_succ]

theorem netFn_snoc (a : List Layer) (l : Layer) (x : List ℝ) : netFn (a ++ [l]) x = fwd l (netFn a x) := by
  rw [netFn_append]; rfl

theorem outsOf_append (a : List Layer) (l : Layer) (X : Mat) : outsOf (a ++ [l]) X = outsOf a X ++ [X.map (netFn a)] := by
  induction a generalizing X with
  | nil => simp [outsOf, netFn]
  | cons q a ih =>
    simp only [List.cons_append, outsOf, ih, List.map_map]
    rfl

theorem dersOf_append (a : List Layer) (l : Layer) (X : Mat) :
    dersOf (a ++ [l]) X = dersOf a X ++ [X.map fun x => actDer l.activation (affineFn l (netFn a x))] := by
  induction a generalizing X with
  | nil => simp [dersOf, netFn]
  | cons q a ih =>
    simp only [List.cons_append, dersOf, ih, List.map_map]
    rfl

/-- What a batch is read as: inputs and target vectors. -/
def Reads (sample : Sample ℝ) (dim : Nat) (i : Nat) (e : List ℝ × List ℝ) : Prop :=
  ∃ y, sample.at' i = .ok (e.1, y) ∧ Task.vectorize y dim = .ok e.2

theorem batchPass_ok (pre : List Layer) (l : Layer) (loss : NNLoss) (sample : Sample ℝ) (dim d : Nat)
    (hs : Shaped (pre ++ [l]) d) {indices : List Nat} {E : List (List ℝ × List ℝ)}
    (h : List.Forall₂ (Reads sample dim) indices E) (hE : ∀ e ∈ E, e.1.length = d) (X D : Mat) :
    NNHypothesis.batchPass (pre ++ [l]) loss sample dim indices (outsOf (pre ++ [l]) X, dersOf pre X, D) =
      .ok (outsOf (pre ++ [l]) (X ++ E.map Prod.fst), dersOf pre (X ++ E.map Prod.fst),
        D ++ E.map fun e => List.zipWith (fun p y => p - y) (netFn (pre ++ [l]) e.1) e.2) := by
  induction h generalizing X D with
  | nil => simp [NNHypothesis.batchPass]
  | @cons i e is E' hr _ ih =>
    obtain ⟨y, h1, h2⟩ := hr
    have hd : e.1.length = d := hE e (List.mem_cons_self)
    have hf := forwardPass_ok pre l e.1 (by rw [hd]; exact hs)
    have hl : ∀ p y, loss.diff p y = List.zipWith (fun p y => p - y) p y := by intro p y; cases loss <;> rfl
    simp only [NNHypothesis.batchPass, h1, hf, h2, outsOf_snoc, dersOf_snoc, hl]
    rw [ih (fun e he => hE e (List.mem_cons_of_mem _ he))]
    simp

/-! ## Matrices -/

theorem updateZip_eq_zipWith {α β : Type*} (f : α → β → α) (a : List α) (b : List β) (h : a.length = b.length) :
    updateZip f a b = List.zipWith f a b := by
  induction a generalizing b with
  | nil => cases b <;> rfl
  | cons x a ih =>
    cases b with
    | nil => simp at h
    | cons y b => simp only [updateZip, List.zipWith_cons_cons, ih b (by simpa using h)]

theorem covers_ok (m : Mat) (c rows cols : Nat) (h : ∀ r ∈ m, r.length = c) (hr : rows ≤ m.length) (hc : cols ≤ c) :
    m.covers rows cols = true := by
  simp only [Mat.covers, Bool.and_eq_true, decide_eq_true_eq, List.all_eq_true]
  exact ⟨hr, fun r hm => by rw [h r (List.mem_of_mem_take hm)]; exact hc⟩

theorem sum_range_map (f : Nat → ℝ) (n : Nat) : ((List.range n).map f).sum = ∑ k ∈ Finset.range n, f k := by
  rw [LP.sum_getD]
  simp only [List.length_map, List.length_range]
  apply Finset.sum_congr rfl
  intro k hk
  exact getD_range_map f n k (Finset.mem_range.1 hk)

theorem entry_map {α : Type*} (E : List α) (g : α → List ℝ) (k i : Nat) (hk : k < E.length) :
    Mat.entry (E.map g) k i = (g E[k]).getD i 0 := by
  rw [Mat.entry, List.getD_eq_getElem (E.map g) _ (by simpa using hk), List.getElem_map]

theorem sum_entries {α : Type*} (E : List α) (g : α → ℝ) :
    (E.map g).sum = ((List.range E.length).map fun k => if h : k < E.length then g E[k] else 0).sum := by
  congr 1
  apply List.ext_getElem
  · simp
  · intro i h1 h2
    have : i < E.length := by simpa using h1
    simp [this]

theorem product_ok {α : Type*} {E : List α} (hne : E ≠ []) (δ : α → List ℝ) {l : Layer} (hl : ShapedLayer l)
    (hδ : ∀ e ∈ E, (δ e).length = l.nrow) : Mat.product (E.map δ) l.matrix = .ok (E.map fun e => backW l (δ e)) := by
  obtain ⟨e0, E', rfl⟩ := List.exists_cons_of_ne_nil hne
  have hm : l.matrix ≠ [] := by
    intro h; have := hl.rows; rw [h] at this; have := hl.pos; simp_all
  obtain ⟨r0, m', hm'⟩ := List.exists_cons_of_ne_nil hm
  have hr0 : r0.length = l.ncol := hl.cols r0 (by rw [hm']; simp)
  have h0 : (δ e0).length = l.nrow := hδ e0 List.mem_cons_self
  have hh : l.matrix.head? = some r0 := by rw [hm']; rfl
  simp only [Mat.product, hh, List.head?_map, List.head?_cons, Option.map_some, h0, hr0]
  rw [if_neg (by rw [hl.rows]; simp), if_neg]
  · congr 1
    apply List.ext_getElem
    · simp
    · intro k h1 h2
      have hk : k < (e0 :: E').length := by simpa using h1
      simp only [List.getElem_map, List.getElem_range, backW]
      apply List.map_congr_left
      intro j _
      rw [sum_range_map]
      apply Finset.sum_congr rfl
      intro i _
      rw [entry_map _ _ _ _ hk]
  · push Not
    intro _
    refine ⟨?_, covers_ok _ _ _ _ hl.cols (by rw [hl.rows]) le_rfl⟩
    refine covers_ok _ l.nrow _ _ ?_ le_rfl le_rfl
    intro r hr
    obtain ⟨e, he, rfl⟩ := List.mem_map.1 hr
    exact hδ e he

theorem inner_ok {α : Type*} {E : List α} (hne : E ≠ []) (δ ζ : α → List ℝ) (r c : Nat)
    (hδ : ∀ e ∈ E, (δ e).length = r) (hζ : ∀ e ∈ E, (ζ e).length = c) :
    Mat.innerProduct (E.map δ) (E.map ζ) = .ok ((List.range r).map fun i => (List.range c).map fun j =>
      (E.map fun e => (δ e).getD i 0 * (ζ e).getD j 0).sum) := by
  obtain ⟨e0, E', rfl⟩ := List.exists_cons_of_ne_nil hne
  have h0 := hδ e0 List.mem_cons_self
  have h1 := hζ e0 List.mem_cons_self
  simp only [Mat.innerProduct, List.head?_map, List.head?_cons, Option.map_some, h0, h1]
  rw [if_neg (by simp), if_neg]
  · congr 1
    apply List.map_congr_left; intro i _
    apply List.map_congr_left; intro j _
    rw [sum_entries (e0 :: E')]
    congr 1
    rw [List.length_map]
    apply List.map_congr_left
    intro k hk
    have hk : k < (e0 :: E').length := List.mem_range.1 hk
    rw [dif_pos hk, entry_map _ _ _ _ hk, entry_map _ _ _ _ hk]
  · push Not
    intro _ _
    refine ⟨covers_ok _ r _ _ ?_ le_rfl le_rfl, covers_ok _ c _ _ ?_ (by simp) le_rfl⟩
    · intro x hx; obtain ⟨e, he, rfl⟩ := List.mem_map.1 hx; exact hδ e he
    · intro x hx; obtain ⟨e, he, rfl⟩ := List.mem_map.1 hx; exact hζ e he

theorem colsum_fold {α : Type*} (E : List α) (δ : α → List ℝ) (r : Nat) (hδ : ∀ e ∈ E, (δ e).length = r) (acc : List ℝ)
    (ha : acc.length = r) :
    (E.map δ).foldl (fun columns row => updateZip (fun c x => c + x) columns row) acc =
      (List.range r).map fun i => acc.getD i 0 + (E.map fun e => (δ e).getD i 0).sum := by
  induction E generalizing acc with
  | nil =>
    simp only [List.map_nil, List.foldl_nil, List.sum_nil, add_zero]
    apply List.ext_getElem
    · simp [ha]
    · intro i h1 h2; simp [List.getElem?_eq_getElem h1]
  | cons e E ih =>
    have h0 := hδ e List.mem_cons_self
    simp only [List.map_cons, List.foldl_cons]
    rw [updateZip_eq_zipWith _ _ _ (by rw [ha, h0]), ih (fun e he => hδ e (List.mem_cons_of_mem _ he)) _ (by simp [ha, h0])]
    apply List.map_congr_left
    intro i hi
    rw [getD_zipWith (fun c x => c + x) _ _ (by rw [ha, h0]) i (by rw [h0]; exact List.mem_range.1 hi), List.sum_cons]
    ring

theorem columnSum_ok {α : Type*} {E : List α} (hne : E ≠ []) (δ : α → List ℝ) (r : Nat)
    (hδ : ∀ e ∈ E, (δ e).length = r) :
    Mat.columnSum (E.map δ) = .ok ((List.range r).map fun i => (E.map fun e => (δ e).getD i 0).sum) := by
  have h0 : (E.map δ).head? = some (δ (E.head hne)) := by
    rw [List.head?_map, List.head?_eq_some_head hne]; rfl
  rw [Mat.columnSum, h0]
  simp only
  rw [hδ _ (List.head_mem hne), colsum_fold E δ r hδ _ (by simp)]
  congr 1
  apply List.map_congr_left
  intro i hi
  rw [List.getD_eq_getElem _ _ (by simpa using hi)]
  simp

theorem hadamard_ok {α : Type*} {E : List α} (hne : E ≠ []) (f g : α → List ℝ)
    (h : ∀ e ∈ E, (f e).length = (g e).length) :
    Mat.hadamard (E.map f) (E.map g) = .ok (E.map fun e => List.zipWith (fun a b => a * b) (f e) (g e)) := by
  obtain ⟨e0, E', rfl⟩ := List.exists_cons_of_ne_nil hne
  simp only [Mat.hadamard, List.head?_map, List.head?_cons, Option.map_some]
  rw [if_neg (by simp), if_neg (by rw [h e0 List.mem_cons_self]; simp), updateZip_eq_zipWith _ _ _ (by simp)]
  congr 1
  apply List.ext_getElem
  · simp
  · intro i h1 h2
    simp only [List.getElem_zipWith, List.getElem_map]
    rw [updateZip_eq_zipWith _ _ _ (h _ (List.getElem_mem _))]

/-! ## The backward pass -/

/-- The layer after the update. -/
noncomputable def stepL (rate : ℝ) (l : Layer) {α : Type*} (E : List α) (δ ζ : α → List ℝ) : Layer :=
  { l with
    matrix := (List.range l.nrow).map fun i => (List.range l.ncol).map fun j =>
      l.matrix.entry i j - rate * (E.map fun e => (δ e).getD i 0 * (ζ e).getD j 0).sum
    bias := (List.range l.nrow).map fun i => l.bias.getD i 0 - rate * (E.map fun e => (δ e).getD i 0).sum }

theorem backward_ok (rate : ℝ) {l : Layer} (hl : ShapedLayer l) {α : Type*} (E : List α) (δ ζ : α → List ℝ) :
    l.backward rate ((List.range l.nrow).map fun i => (List.range l.ncol).map fun j =>
      (E.map fun e => (δ e).getD i 0 * (ζ e).getD j 0).sum) ((List.range l.nrow).map fun i => (E.map fun e => (δ e).getD i 0).sum) =
      .ok (stepL rate l E δ ζ) := by
  have hm : l.matrix ≠ [] := by
    intro h; have := hl.rows; rw [h] at this; have := hl.pos; simp_all
  obtain ⟨r0, m', hm'⟩ := List.exists_cons_of_ne_nil hm
  have hr0 : r0.length = l.ncol := hl.cols r0 (by rw [hm']; simp)
  have hh : l.matrix.head? = some r0 := by rw [hm']; rfl
  have hr : (List.range l.nrow).head? = some 0 := by rw [List.head?_range, if_neg (by have := hl.pos; omega)]
  simp only [Layer.backward, hh, List.head?_map, hr, Option.map_some, List.length_map, List.length_range, hl.rows, hr0, hl.bias]
  rw [if_neg (by simp), if_neg (by simp), if_neg (by simp)]
  simp only [stepL]
  congr 2
  · rw [updateZip_eq_zipWith _ _ _ (by simp [hl.rows])]
    apply List.ext_getElem
    · simp [hl.rows]
    · intro i h1 h2
      have hi : i < l.matrix.length := by simp at h1; omega
      have hc : (l.matrix[i]).length = l.ncol := hl.cols _ (List.getElem_mem _)
      simp only [List.getElem_zipWith, List.getElem_map, List.getElem_range]
      rw [updateZip_eq_zipWith _ _ _ (by simp [hc])]
      apply List.ext_getElem
      · simp [hc]
      · intro j h3 h4
        have hj : j < (l.matrix[i]).length := by simp at h3; omega
        simp only [List.getElem_zipWith, List.getElem_map, List.getElem_range, Mat.entry]
        rw [List.getD_eq_getElem l.matrix _ hi, List.getD_eq_getElem _ _ hj]
  · rw [updateZip_eq_zipWith _ _ _ (by simp [hl.bias])]
    apply List.ext_getElem
    · simp [hl.bias]
    · intro i h1 h2
      have hi : i < l.bias.length := by simp at h1; omega
      simp only [List.getElem_zipWith, List.getElem_map, List.getElem_range]
      rw [List.getD_eq_getElem l.bias _ hi]

/-- The network after one step on the batch `E`. -/
noncomputable def steps (rate : ℝ) : List Layer → List (List ℝ × List ℝ) → List Layer
  | [], _ => []
  | l :: post, E =>
    stepL rate l E (fun e => deltaOf (l :: post) e.1 e.2) (fun e => e.1) :: steps rate post (E.map fun e => (fwd l e.1, e.2))

theorem steps_length (rate : ℝ) (ls : List Layer) (E : List (List ℝ × List ℝ)) : (steps rate ls E).length = ls.length := by
  induction ls generalizing E with
  | nil => rfl
  | cons l ls ih => simp [steps, ih]

theorem stepL_map (rate : ℝ) (l : Layer) {α β : Type*} (E : List α) (f : α → β) (δ ζ : β → List ℝ) :
    stepL rate l (E.map f) δ ζ = stepL rate l E (fun e => δ (f e)) (fun e => ζ (f e)) := by
  simp only [stepL, List.map_map]
  rfl

theorem steps_get (rate : ℝ) (pre : List Layer) : ∀ (l : Layer) (post : List Layer) (E : List (List ℝ × List ℝ)),
    (steps rate (pre ++ l :: post) E)[pre.length]? =
      some (stepL rate l E (fun e => deltaOf (l :: post) (netFn pre e.1) e.2) (fun e => netFn pre e.1)) := by
  induction pre with
  | nil => intro l post E; rfl
  | cons q pre ih =>
    intro l post E
    simp only [List.cons_append, steps, List.length_cons, List.getElem?_cons_succ, ih, stepL_map]
    rfl

theorem deltaOf_length (l : Layer) (post : List Layer) (z y : List ℝ) (hs : Shaped post l.nrow)
    (hy : y.length = outDim post l.nrow) : (deltaOf (l :: post) z y).length = l.nrow := by
  cases post with
  | nil =>
    simp only [outDim] at hy
    simp [deltaOf, act_length, affine_length, hy]
  | cons l' ls =>
    simp [deltaOf, actDer_length, affine_length, backW, hs.2.1]

theorem backLoop_ok (rate : ℝ) (d : Nat) (E : List (List ℝ × List ℝ)) (hne : E ≠ []) (hE : ∀ e ∈ E, e.1.length = d)
    (pre : List Layer) : ∀ (l : Layer) (post : List Layer), Shaped (pre ++ l :: post) d →
    (∀ e ∈ E, e.2.length = outDim (pre ++ l :: post) d) →
    NNHypothesis.backLoop rate (l :: pre.reverse) (outsOf (pre ++ [l]) (E.map Prod.fst)).reverse
      (dersOf pre (E.map Prod.fst)).reverse (E.map fun e => deltaOf (l :: post) (netFn pre e.1) e.2) =
      .ok ((steps rate (pre ++ l :: post) E).take (pre.length + 1)) := by
  induction pre using List.reverseRecOn with
  | nil =>
    intro l post hs hy
    obtain ⟨h1, h2, h3⟩ := hs
    have hδ : ∀ e ∈ E, (deltaOf (l :: post) e.1 e.2).length = l.nrow :=
      fun e he => deltaOf_length l post _ _ h3 (hy e he)
    simp only [List.reverse_nil, NNHypothesis.backLoop, netFn]
    rw [product_ok hne _ h1 hδ]
    simp only [List.nil_append, outsOf, List.reverse_cons, List.reverse_nil]
    rw [inner_ok hne _ Prod.fst l.nrow l.ncol hδ (fun e he => by rw [hE e he, h2])]
    simp only
    rw [columnSum_ok hne _ l.nrow hδ]
    simp only
    rw [backward_ok rate h1 E]
    simp [dersOf, steps]
  | append_singleton pre q ih =>
    intro l post hs hy
    have hassoc : pre ++ [q] ++ l :: post = pre ++ q :: l :: post := by simp
    have hs' := (shaped_append _ _ _).1 hs
    obtain ⟨hsa, h1, h2, h3⟩ := hs'
    have hod : outDim (pre ++ [q]) d = q.nrow := by rw [outDim_append]; rfl
    rw [hod] at h2
    have hlen : ∀ e ∈ E, (netFn (pre ++ [q]) e.1).length = l.ncol := fun e he => by
      rw [netFn_length _ _ d (hE e he), hod, h2]
    have hδ : ∀ e ∈ E, (deltaOf (l :: post) (netFn (pre ++ [q]) e.1) e.2).length = l.nrow :=
      fun e he => deltaOf_length l post _ _ h3 (by rw [hy e he, outDim_append]; rfl)
    rw [hassoc] at hs hy
    have hi := ih q (l :: post) hs hy
    simp only [List.reverse_append, List.reverse_cons, List.reverse_nil, List.nil_append, List.cons_append]
    rw [NNHypothesis.backLoop, product_ok hne _ h1 hδ]
    simp only
    rw [outsOf_append, List.reverse_append]
    simp only [List.reverse_cons, List.reverse_nil, List.nil_append, List.cons_append]
    rw [List.map_map, inner_ok hne _ (netFn (pre ++ [q]) ∘ Prod.fst) l.nrow l.ncol hδ hlen]
    simp only
    rw [columnSum_ok hne _ l.nrow hδ]
    simp only
    rw [backward_ok rate h1 E]
    simp only
    rw [dersOf_append, List.reverse_append]
    simp only [List.reverse_cons, List.reverse_nil, List.nil_append, List.cons_append]
    rw [List.map_map, hadamard_ok hne]
    · have hd : (E.map fun e => List.zipWith (fun a b => a * b)
          (((fun x => actDer q.activation (affineFn q (netFn pre x))) ∘ Prod.fst) e)
          (backW l (deltaOf (l :: post) (netFn (pre ++ [q]) e.1) e.2))) =
          E.map fun e => deltaOf (q :: l :: post) (netFn pre e.1) e.2 := by
        apply List.map_congr_left
        intro e _
        simp only [deltaOf, netFn_snoc, Function.comp]
        rfl
      simp only
      rw [hd, hi]
      simp only
      congr 1
      have hg := steps_get rate (pre ++ [q]) l post E
      rw [hassoc, List.length_append, List.length_singleton] at hg
      rw [hassoc, List.length_append, List.length_singleton, List.take_add_one (i := pre.length + 1), hg]
      rfl
    · intro e he
      simp only [Function.comp, actDer_length, affine_length, backW, List.length_map, List.length_range]
      exact h2.symm

theorem train_ok (f : NNHypothesis) (rate : ℝ) (loss : NNLoss) (sample : Sample ℝ) (d : Nat) (hne : f.layers ≠ [])
    (hs : Shaped f.layers d) {indices : List Nat} {E : List (List ℝ × List ℝ)}
    (h : List.Forall₂ (Reads sample (outDim f.layers d)) indices E) (hE0 : E ≠ []) (hE : ∀ e ∈ E, e.1.length = d)
    (hy : ∀ e ∈ E, e.2.length = outDim f.layers d) :
    f.train rate loss sample indices = .ok { f with layers := steps rate f.layers E } := by
  obtain ⟨task, layers⟩ := f
  simp only at hne hs h hy
  obtain ⟨pre, l, rfl⟩ : ∃ pre l, layers = pre ++ [l] := ⟨_, _, (List.dropLast_append_getLast hne).symm⟩
  have hod : outDim (pre ++ [l]) d = l.nrow := by rw [outDim_append]; rfl
  rw [hod] at h
  simp only [NNHypothesis.train, NNHypothesis.outputDim, List.getLast?_append, List.getLast?_singleton, Option.or_some, Option.or]
  rw [if_neg (by simp)]
  have hb := batchPass_ok pre l loss sample l.nrow d hs h hE [] []
  rw [outsOf_nil, dersOf_nil] at hb
  have hlen : (pre ++ [l]).length - 1 = pre.length := by simp
  rw [hlen, hb]
  simp only [List.nil_append]
  have hd : (E.map fun e => List.zipWith (fun p y => p - y) (netFn (pre ++ [l]) e.1) e.2) =
      E.map fun e => deltaOf [l] (netFn pre e.1) e.2 := by
    apply List.map_congr_left
    intro e _
    simp only [deltaOf, netFn_snoc]
    rfl
  rw [hd, List.reverse_append]
  simp only [List.reverse_cons, List.reverse_nil, List.nil_append, List.cons_append]
  rw [backLoop_ok rate d E hE0 hE pre l [] hs hy]
  simp only
  rw [List.take_of_length_le (by rw [steps_length]; simp)]

end Miniboosts.NN
