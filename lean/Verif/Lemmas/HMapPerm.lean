import Verif.Lemmas.Criterion
import Verif.Model.ParTree

/-! Helper lemmas: traversing a hash map in another order does not change what is computed from it. -/

namespace Miniboosts

section maps
variable {α β K : Type*} [DecidableEq α]

/-- Two association lists without repeated keys that represent the same map. -/
structure MapEq (m m' : List (α × β)) : Prop where
  left : (m.map Prod.fst).Nodup
  right : (m'.map Prod.fst).Nodup
  get : ∀ k, HMap.get? m k = HMap.get? m' k

theorem HMap.mem_iff_get? {m : List (α × β)} (hn : (m.map Prod.fst).Nodup) (p : α × β) : p ∈ m ↔ HMap.get? m p.1 = some p.2 :=
  ⟨fun h => HMap.get?_of_nodup hn h, fun h => HMap.get?_eq_some_mem h⟩

theorem MapEq.perm {m m' : List (α × β)} (h : MapEq m m') : m.Perm m' := by
  refine (List.perm_ext_iff_of_nodup h.left.of_map h.right.of_map).mpr fun p => ?_
  rw [HMap.mem_iff_get? h.left, HMap.mem_iff_get? h.right, h.get]

theorem mapEq_of_perm {m m' : List (α × β)} (hn : (m.map Prod.fst).Nodup) (h : m.Perm m') : MapEq m m' := by
  have hn' : (m'.map Prod.fst).Nodup := (h.map Prod.fst).nodup_iff.mp hn
  refine ⟨hn, hn', fun k => Option.ext fun v => ?_⟩
  rw [← HMap.mem_iff_get? hn (k, v), ← HMap.mem_iff_get? hn' (k, v), h.mem_iff]

theorem MapEq.refl {m : List (α × β)} (hn : (m.map Prod.fst).Nodup) : MapEq m m := ⟨hn, hn, fun _ => rfl⟩

theorem MapEq.symm {m m' : List (α × β)} (h : MapEq m m') : MapEq m' m := ⟨h.right, h.left, fun k => (h.get k).symm⟩

theorem MapEq.trans {m m' m'' : List (α × β)} (h : MapEq m m') (h' : MapEq m' m'') : MapEq m m'' :=
  ⟨h.left, h'.right, fun k => (h.get k).trans (h'.get k)⟩

theorem HMap.nodup_insert {m : List (α × β)} (hn : (m.map Prod.fst).Nodup) (k : α) (v : β) :
    ((HMap.insert m k v).map Prod.fst).Nodup := by
  by_cases h : k ∈ m.map Prod.fst
  · rwa [HMap.keys_insert_of_mem h]
  · rw [HMap.insert_of_notMem v h]
    simp only [List.map_append, List.map_cons, List.map_nil]
    exact List.nodup_append.mpr ⟨hn, by simp, by rintro a ha b hb rfl; simp at hb; subst hb; exact h ha⟩

theorem HMap.get?_addTo_eq [Field K] (m : List (α × K)) (k k' : α) (w : K) :
    HMap.get? (HMap.addTo m k w) k' = if k = k' then some ((HMap.get? m k').getD 0 + w) else HMap.get? m k' := by
  induction m with
  | nil =>
    simp only [HMap.addTo, HMap.get?]
    by_cases h : k = k' <;> simp [h]
  | cons p m ih =>
    obtain ⟨a, b⟩ := p
    unfold HMap.addTo
    by_cases h : a = k
    · subst h
      simp only [if_true]
      unfold HMap.get?
      by_cases h2 : a = k' <;> simp [h2]
    · simp only [h, if_false]
      unfold HMap.get?
      by_cases h2 : a = k'
      · subst h2; simp [Ne.symm h]
      · simp [h2, ih]

end maps

/-! ## Folding over the entries of a map in any order -/

section fold
variable {α σ : Type*}

/-- Apply the steps one after the other until one fails. -/
def stepFold (step : σ → α → Option σ) : List α → σ → Option σ
  | [], s => some s
  | a :: l, s => (step s a).bind (stepFold step l)

theorem optionRel_bind {R : σ → σ → Prop} {x y : Option σ} {f g : σ → Option σ} (h : Option.Rel R x y)
    (hf : ∀ s s', R s s' → Option.Rel R (f s) (g s')) : Option.Rel R (x.bind f) (y.bind g) := by
  cases h with
  | none => exact .none
  | some h => exact hf _ _ h

theorem optionRel_trans {R : σ → σ → Prop} (ht : ∀ a b c, R a b → R b c → R a c) {x y z : Option σ} (h : Option.Rel R x y)
    (h' : Option.Rel R y z) : Option.Rel R x z := by
  cases h with
  | none => cases h'; exact .none
  | some h => cases h' with
    | some h' => exact .some (ht _ _ _ h h')

theorem stepFold_congr {step : σ → α → Option σ} {R : σ → σ → Prop}
    (hc : ∀ a s s', R s s' → Option.Rel R (step s a) (step s' a)) (l : List α) :
    ∀ s s', R s s' → Option.Rel R (stepFold step l s) (stepFold step l s') := by
  induction l with
  | nil => exact fun s s' h => .some h
  | cons a l ih => exact fun s s' h => optionRel_bind (hc a s s' h) ih

/-- Steps that commute pairwise may be applied in any order. -/
theorem stepFold_perm {step : σ → α → Option σ} {R : σ → σ → Prop} (hs : ∀ a b, R a b → R b a) (ht : ∀ a b c, R a b → R b c → R a c)
    (hc : ∀ a s s', R s s' → Option.Rel R (step s a) (step s' a)) {P : α → α → Prop} (hP : ∀ a b, P a b → P b a)
    (hcomm : ∀ a b s, P a b → R s s → Option.Rel R ((step s a).bind fun s => step s b) ((step s b).bind fun s => step s a))
    {l l' : List α} (hp : l.Perm l') (hl : l.Pairwise P) : ∀ s s', R s s' → Option.Rel R (stepFold step l s) (stepFold step l' s') := by
  induction hp with
  | nil => exact fun s s' h => .some h
  | cons a hp ih =>
    exact fun s s' h => optionRel_bind (hc a s s' h) (ih (List.pairwise_cons.mp hl).2)
  | swap a b l =>
    intro s s' h
    have hba : P b a := (List.pairwise_cons.mp hl).1 a (by simp)
    have e1 : stepFold step (b :: a :: l) s = ((step s b).bind fun s => step s a).bind (stepFold step l) := by
      simp only [stepFold, Option.bind_assoc]
    have e2 : stepFold step (a :: b :: l) s = ((step s a).bind fun s => step s b).bind (stepFold step l) := by
      simp only [stepFold, Option.bind_assoc]
    have h1 : Option.Rel R (stepFold step (b :: a :: l) s) (stepFold step (a :: b :: l) s) := by
      rw [e1, e2]
      exact optionRel_bind (hcomm b a s hba (ht _ _ _ h (hs _ _ h))) (stepFold_congr hc l)
    exact optionRel_trans ht h1 (stepFold_congr hc _ s s' h)
  | trans hp1 hp2 ih1 ih2 =>
    intro s s' h
    exact optionRel_trans ht (ih1 hl s s (ht _ _ _ h (hs _ _ h))) (ih2 ((hp1.pairwise_iff (fun h => hP _ _ h)).mp hl) s s' h)

end fold

variable {K : Type*} [Field K] [LinearOrder K]

theorem pairwise_keys {m : LabelMap K} (hn : (m.map Prod.fst).Nodup) : m.Pairwise fun a b => a.1 ≠ b.1 := List.pairwise_map.mp hn

/-! ## The scan states -/

/-- Two scan states that differ in the order of the map entries only. -/
structure ScanEq (st st' : Criterion.ScanState K) : Prop where
  left : MapEq st.left st'.left
  right : MapEq st.right st'.right
  sum : st.leftSum = st'.leftSum
  score : st.bestScore = st'.bestScore
  threshold : st.bestThreshold = st'.bestThreshold

theorem ScanEq.symm {st st' : Criterion.ScanState K} (h : ScanEq st st') : ScanEq st' st :=
  ⟨h.left.symm, h.right.symm, h.sum.symm, h.score.symm, h.threshold.symm⟩

theorem ScanEq.trans {a b c : Criterion.ScanState K} (h : ScanEq a b) (h' : ScanEq b c) : ScanEq a c :=
  ⟨h.left.trans h'.left, h.right.trans h'.right, h.sum.trans h'.sum, h.score.trans h'.score, h.threshold.trans h'.threshold⟩

theorem mapEq_addTo {m m' : LabelMap K} (h : MapEq m m') (k : Int) (w : K) : MapEq (HMap.addTo m k w) (HMap.addTo m' k w) :=
  ⟨HMap.nodup_addTo h.left k w, HMap.nodup_addTo h.right k w, fun y => by rw [HMap.get?_addTo_eq, HMap.get?_addTo_eq, h.get]⟩

theorem mapEq_insert {m m' : LabelMap K} (h : MapEq m m') (k : Int) (w : K) : MapEq (HMap.insert m k w) (HMap.insert m' k w) :=
  ⟨HMap.nodup_insert h.left k w, HMap.nodup_insert h.right k w, fun y => by rw [HMap.get?_insert, HMap.get?_insert, h.get]⟩

theorem mapEq_remove {m m' : LabelMap K} (h : MapEq m m') (k : Int) : MapEq (HMap.remove m k) (HMap.remove m' k) :=
  ⟨HMap.nodup_remove h.left k, HMap.nodup_remove h.right k, fun y => by rw [HMap.get?_remove, HMap.get?_remove, h.get]⟩

theorem mapEq_addTo_comm {m : LabelMap K} (h : (m.map Prod.fst).Nodup) {a b : Int} (hab : a ≠ b) (v w : K) :
    MapEq (HMap.addTo (HMap.addTo m a v) b w) (HMap.addTo (HMap.addTo m b w) a v) :=
  ⟨HMap.nodup_addTo (HMap.nodup_addTo h _ _) _ _, HMap.nodup_addTo (HMap.nodup_addTo h _ _) _ _, fun y => by
    simp only [HMap.get?_addTo_eq]
    by_cases h1 : b = y
    · subst h1; simp [hab]
    · simp [h1]⟩

/-- One step of `moveEntropy`. -/
def entropyStep (st : Criterion.ScanState K) (p : Int × K) : Option (Criterion.ScanState K) :=
  (HMap.get? st.right p.1).map fun v =>
    { st with left := HMap.addTo st.left p.1 p.2, leftSum := st.leftSum + p.2, right := HMap.insert st.right p.1 (v - p.2) }

theorem moveEntropy_eq (m : LabelMap K) (st : Criterion.ScanState K) : (Criterion.moveEntropy m st).toOption = stepFold entropyStep m st := by
  induction m generalizing st with
  | nil => rfl
  | cons p m ih =>
    obtain ⟨y, w⟩ := p
    unfold Criterion.moveEntropy Criterion.subFrom
    simp only [stepFold, entropyStep]
    cases h : HMap.get? st.right y with
    | none => rfl
    | some v => simp only [Option.map_some, Option.bind_some]; rw [ih]

/-- The new value of an entry of the right-hand side: subtract, and drop what is not positive (`drop`). -/
def lower (drop : Bool) (m : LabelMap K) (y : Int) (v w : K) : LabelMap K :=
  if drop = true ∧ v - w ≤ 0 then HMap.remove (HMap.insert m y (v - w)) y else HMap.insert m y (v - w)

theorem mapEq_lower {m m' : LabelMap K} (drop : Bool) (h : MapEq m m') (y : Int) (v w : K) : MapEq (lower drop m y v w) (lower drop m' y v w) := by
  unfold lower
  split
  · exact mapEq_remove (mapEq_insert h _ _) _
  · exact mapEq_insert h _ _

theorem get?_lower (drop : Bool) (m : LabelMap K) (y : Int) (v w : K) (k : Int) : HMap.get? (lower drop m y v w) k
    = if y = k then (if drop = true ∧ v - w ≤ 0 then none else some (v - w)) else HMap.get? m k := by
  unfold lower
  split
  · rw [HMap.get?_remove, HMap.get?_insert]; split <;> rfl
  · rw [HMap.get?_insert]

theorem nodup_lower (drop : Bool) {m : LabelMap K} (h : (m.map Prod.fst).Nodup) (y : Int) (v w : K) :
    ((lower drop m y v w).map Prod.fst).Nodup := (mapEq_lower drop (MapEq.refl h) y v w).left

/-- One step of either impurity criterion. -/
def moveStep (drop : Bool) (st : Criterion.ScanState K) (p : Int × K) : Option (Criterion.ScanState K) :=
  (HMap.get? st.right p.1).map fun v =>
    { st with left := HMap.addTo st.left p.1 p.2, leftSum := st.leftSum + p.2, right := lower drop st.right p.1 v p.2 }

theorem moveEntropy_fold (m : LabelMap K) (st : Criterion.ScanState K) :
    (Criterion.moveEntropy m st).toOption = stepFold (moveStep false) m st := by
  rw [moveEntropy_eq]
  rfl

theorem moveGini_fold (m : LabelMap K) (st : Criterion.ScanState K) :
    (Criterion.moveGini m st).toOption = stepFold (moveStep true) m st := by
  induction m generalizing st with
  | nil => rfl
  | cons p m ih =>
    obtain ⟨y, w⟩ := p
    unfold Criterion.moveGini
    simp only [stepFold, moveStep]
    cases h : HMap.get? st.right y with
    | none => rfl
    | some v => simp only [Option.map_some, Option.bind_some]; rw [ih]; simp only [lower, true_and]

theorem moveStep_congr (drop : Bool) (a : Int × K) (s s' : Criterion.ScanState K) (h : ScanEq s s') :
    Option.Rel ScanEq (moveStep drop s a) (moveStep drop s' a) := by
  unfold moveStep
  rw [h.right.get]
  cases HMap.get? s'.right a.1 with
  | none => exact .none
  | some v =>
    exact .some ⟨mapEq_addTo h.left _ _, mapEq_lower drop h.right _ _ _, by simp [h.sum], h.score, h.threshold⟩

theorem moveStep_comm (drop : Bool) (a b : Int × K) (s : Criterion.ScanState K) (hab : a.1 ≠ b.1) (h : ScanEq s s) :
    Option.Rel ScanEq ((moveStep drop s a).bind fun s => moveStep drop s b) ((moveStep drop s b).bind fun s => moveStep drop s a) := by
  unfold moveStep
  cases ha : HMap.get? s.right a.1 with
  | none =>
    cases hb : HMap.get? s.right b.1 with
    | none => exact .none
    | some w =>
      simp only [Option.map_none, Option.bind_none, Option.map_some, Option.bind_some, get?_lower, hab.symm, if_false, ha]
      exact .none
  | some v =>
    cases hb : HMap.get? s.right b.1 with
    | none =>
      simp only [Option.map_none, Option.bind_none, Option.map_some, Option.bind_some, get?_lower, hab, if_false, hb]
      exact .none
    | some w =>
      simp only [Option.map_some, Option.bind_some, get?_lower, hab, hab.symm, if_false, ha, hb]
      refine .some ⟨mapEq_addTo_comm h.left.left hab _ _, ⟨nodup_lower _ (nodup_lower _ h.right.left _ _ _) _ _ _,
        nodup_lower _ (nodup_lower _ h.right.left _ _ _) _ _ _, fun k => ?_⟩, by simp only; ring, rfl, rfl⟩
      simp only [get?_lower]
      by_cases h1 : b.1 = k
      · have : ¬ a.1 = k := fun e => hab (e.trans h1.symm)
        simp [h1, this]
      · simp [h1]

theorem move_perm (drop : Bool) {m m' : LabelMap K} (hp : m.Perm m') (hn : (m.map Prod.fst).Nodup) {s s' : Criterion.ScanState K}
    (h : ScanEq s s') : Option.Rel ScanEq (stepFold (moveStep drop) m s) (stepFold (moveStep drop) m' s') :=
  stepFold_perm (fun _ _ h => h.symm) (fun _ _ _ h h' => h.trans h') (moveStep_congr drop) (fun _ _ h => h.symm)
    (fun a b s hab hs => moveStep_comm drop a b s hab hs) hp (pairwise_keys hn) s s' h

/-! ## The twoing criterion -/

/-- Two pairs of maps that differ in the order of the entries only. -/
def PairEq (st st' : LabelMap K × LabelMap K) : Prop := MapEq st.1 st'.1 ∧ MapEq st.2 st'.2

/-- The new right-hand side after moving an entry. -/
def twoingRight (left right : LabelMap K) (y : Int) (w : K) : LabelMap K :=
  if (HMap.get? left y).getD 0 + w ≤ 0 then HMap.remove (match HMap.get? right y with | none => right | some v => HMap.insert right y (v - w)) y
  else (match HMap.get? right y with | none => right | some v => HMap.insert right y (v - w))

/-- One step of `moveTwoing`. -/
def twoingStep (st : LabelMap K × LabelMap K) (p : Int × K) : Option (LabelMap K × LabelMap K) :=
  some (HMap.addTo st.1 p.1 p.2, twoingRight st.1 st.2 p.1 p.2)

theorem moveTwoing_fold (m : LabelMap K) (st : LabelMap K × LabelMap K) : some (Criterion.moveTwoing m st) = stepFold twoingStep m st := by
  induction m generalizing st with
  | nil => rfl
  | cons p m ih =>
    obtain ⟨y, w⟩ := p
    obtain ⟨l, r⟩ := st
    unfold Criterion.moveTwoing
    simp only [stepFold, twoingStep, Option.bind_some]
    rw [← ih]
    simp only [twoingRight, HMap.get?_addTo_eq, if_true, Option.getD_some]
    cases HMap.get? r y <;> rfl

theorem get?_twoingRight (left right : LabelMap K) (y : Int) (w : K) (k : Int) : HMap.get? (twoingRight left right y w) k
    = if y = k then (if (HMap.get? left k).getD 0 + w ≤ 0 then none else (HMap.get? right k).map fun v => v - w) else HMap.get? right k := by
  unfold twoingRight
  by_cases h : y = k
  · subst h
    simp only [if_true]
    split
    · rw [HMap.get?_remove]; simp
    · cases h2 : HMap.get? right y with
      | none => simp [h2]
      | some v => simp [HMap.get?_insert]
  · simp only [h, if_false]
    split
    · rw [HMap.get?_remove]
      simp only [h, if_false]
      cases h2 : HMap.get? right y with
      | none => rfl
      | some v => simp [HMap.get?_insert, h]
    · cases h2 : HMap.get? right y with
      | none => rfl
      | some v => simp [HMap.get?_insert, h]

theorem nodup_twoingRight {right : LabelMap K} (left : LabelMap K) (h : (right.map Prod.fst).Nodup) (y : Int) (w : K) :
    ((twoingRight left right y w).map Prod.fst).Nodup := by
  unfold twoingRight
  have : (((match HMap.get? right y with | none => right | some v => HMap.insert right y (v - w)) : LabelMap K).map Prod.fst).Nodup := by
    split
    · exact h
    · exact HMap.nodup_insert h _ _
  split
  · exact HMap.nodup_remove this _
  · exact this

theorem twoingStep_congr (a : Int × K) (s s' : LabelMap K × LabelMap K) (h : PairEq s s') :
    Option.Rel PairEq (twoingStep s a) (twoingStep s' a) :=
  .some ⟨mapEq_addTo h.1 _ _, nodup_twoingRight _ h.2.left _ _, nodup_twoingRight _ h.2.right _ _, fun k => by
    simp only [get?_twoingRight, h.1.get, h.2.get]⟩

theorem twoingStep_comm (a b : Int × K) (s : LabelMap K × LabelMap K) (hab : a.1 ≠ b.1) (h : PairEq s s) :
    Option.Rel PairEq ((twoingStep s a).bind fun s => twoingStep s b) ((twoingStep s b).bind fun s => twoingStep s a) := by
  simp only [twoingStep, Option.bind_some]
  refine .some ⟨mapEq_addTo_comm h.1.left hab _ _, nodup_twoingRight _ (nodup_twoingRight _ h.2.left _ _) _ _,
    nodup_twoingRight _ (nodup_twoingRight _ h.2.left _ _) _ _, fun k => ?_⟩
  simp only [get?_twoingRight, HMap.get?_addTo_eq]
  by_cases h1 : b.1 = k
  · have : ¬ a.1 = k := fun e => hab (e.trans h1.symm)
    simp [h1, this]
  · simp [h1]

theorem moveTwoing_perm {m m' : LabelMap K} (hp : m.Perm m') (hn : (m.map Prod.fst).Nodup) {s s' : LabelMap K × LabelMap K}
    (h : PairEq s s') : PairEq (Criterion.moveTwoing m s) (Criterion.moveTwoing m' s') := by
  have := stepFold_perm (R := PairEq) (P := fun a b : Int × K => a.1 ≠ b.1) (fun _ _ h => ⟨h.1.symm, h.2.symm⟩) (fun _ _ _ h h' => ⟨h.1.trans h'.1, h.2.trans h'.2⟩)
    twoingStep_congr (fun _ _ h => h.symm) (fun a b s hab hs => twoingStep_comm a b s hab hs) hp (pairwise_keys hn) s s' h
  rw [← moveTwoing_fold, ← moveTwoing_fold] at this
  cases this with
  | some h => exact h

/-! ## Collecting the weights of all bins -/

theorem collectWeights_append (l l' : List (Int × K)) (m : LabelMap K) :
    Criterion.collectWeights (l ++ l') m = Criterion.collectWeights l' (Criterion.collectWeights l m) := by
  induction l generalizing m with
  | nil => rfl
  | cons p l ih => simp only [List.cons_append, Criterion.collectWeights, ih]

theorem collectWeights_congr (l : List (Int × K)) {m m' : LabelMap K} (h : MapEq m m') :
    MapEq (Criterion.collectWeights l m) (Criterion.collectWeights l m') := by
  induction l generalizing m m' with
  | nil => exact h
  | cons p l ih => exact ih (mapEq_addTo h _ _)

theorem collectWeights_perm {l l' : List (Int × K)} (hp : l.Perm l') {m m' : LabelMap K} (h : MapEq m m') :
    MapEq (Criterion.collectWeights l m) (Criterion.collectWeights l' m') := by
  induction hp generalizing m m' with
  | nil => exact h
  | cons a hp ih => exact ih (mapEq_addTo h _ _)
  | swap a b l =>
    simp only [Criterion.collectWeights]
    refine collectWeights_congr l ?_
    by_cases hab : b.1 = a.1
    · refine ⟨HMap.nodup_addTo (HMap.nodup_addTo h.left _ _) _ _, HMap.nodup_addTo (HMap.nodup_addTo h.right _ _) _ _, fun k => ?_⟩
      simp only [HMap.get?_addTo_eq, hab, h.get]
      by_cases hk : a.1 = k
      · simp only [hk, if_true, Option.getD_some]; congr 1; ring
      · simp [hk]
    · exact (mapEq_addTo_comm h.left hab _ _).trans (mapEq_addTo (mapEq_addTo h _ _) _ _)
  | trans hp1 hp2 ih1 ih2 => exact (ih1 (MapEq.refl h.left)).trans (ih2 h)

theorem perm_flatten {l l' : List (LabelMap K)} (h : List.Forall₂ List.Perm l l') : l.flatten.Perm l'.flatten := by
  induction h with
  | nil => exact .refl _
  | cons h _ ih => exact h.append ih

end Miniboosts
