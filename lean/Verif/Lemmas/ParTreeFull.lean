import Verif.Lemmas.ParTree
import Verif.Lemmas.Tree

/-! Helper lemmas: growing a tree has one result only. -/

namespace Miniboosts

namespace Par

variable {K : Type*} [Field K] [LinearOrder K] [IsStrictOrderedRing K] [FloorRing K]

/-- The rows of a node: labels `±1`, positive weights. -/
def Binary (target dist : List K) (idx : List Nat) : Prop :=
  (∀ i ∈ idx, ∀ y, target[i]? = some y → y = 1 ∨ y = -1) ∧ ∀ i ∈ idx, ∀ d, dist[i]? = some d → 0 < d

theorem countLabels_inv {target dist : List K} {idx : List Nat} (hb : Binary target dist idx) {m m' : LabelMap K}
    (h : countLabels target dist idx m = .ok m') (hn : (m.map Prod.fst).Nodup) (hk : ∀ p ∈ m, p.1 = 1 ∨ p.1 = -1) (hp : ∀ p ∈ m, 0 < p.2) :
    (m'.map Prod.fst).Nodup ∧ (∀ p ∈ m', p.1 = 1 ∨ p.1 = -1) ∧ ∀ p ∈ m', 0 < p.2 := by
  induction idx generalizing m with
  | nil =>
    simp only [countLabels, Except.ok.injEq] at h
    subst h
    exact ⟨hn, hk, hp⟩
  | cons i is ih =>
    unfold countLabels at h
    cases hy : target[i]? with
    | none => simp [vecAt, hy] at h
    | some y =>
      cases hd : dist[i]? with
      | none => simp [vecAt, hy, hd] at h
      | some d =>
        simp only [vecAt, hy, hd] at h
        have hyy := hb.1 i (by simp) y hy
        have hlab : asI64 y = 1 ∨ asI64 y = -1 := by
          rcases hyy with rfl | rfl
          · exact .inl asI64_one
          · exact .inr asI64_neg_one
        refine ih ⟨fun j hj => hb.1 j (List.mem_cons_of_mem _ hj), fun j hj => hb.2 j (List.mem_cons_of_mem _ hj)⟩ h
          (HMap.nodup_addTo hn _ _) ?_ (HMap.mem_addTo_pos hp _ (hb.2 i (by simp) d hd))
        intro p hpm
        have hmem : p.1 ∈ (HMap.addTo m (asI64 y) d).map Prod.fst := List.mem_map_of_mem hpm
        rw [HMap.keys_addTo] at hmem
        split at hmem
        · obtain ⟨q, hq, e⟩ := List.mem_map.mp hmem
          rw [← e]; exact hk q hq
        · rcases List.mem_append.mp hmem with hmem | hmem
          · obtain ⟨q, hq, e⟩ := List.mem_map.mp hmem
            rw [← e]; exact hk q hq
          · simp only [List.mem_singleton] at hmem
            rw [hmem]; exact hlab

/-- The value of a leaf as a function of the entry chosen by `max_by`. -/
def leafValue (total : K) (q : Int × K) : K × K :=
  (if 0 < total then clamp1 ((q.1 : K) * (2 * (q.2 / total) - 1)) else clamp1 (q.1 : K), if 0 < total then total * (1 - q.2 / total) else 0)

/-- With two labels `±1` a tie is harmless. -/
theorem leafValue_tie {m : LabelMap K} (hn : (m.map Prod.fst).Nodup) (hk : ∀ p ∈ m, p.1 = 1 ∨ p.1 = -1) (hp : ∀ p ∈ m, 0 < p.2)
    {q q' : Int × K} (hq : q ∈ m) (hq' : q' ∈ m) (hm : ∀ p ∈ m, p.2 ≤ q.2) (hm' : ∀ p ∈ m, p.2 ≤ q'.2) :
    leafValue (HMap.total m) q = leafValue (HMap.total m) q' := by
  have hv : q.2 = q'.2 := le_antisymm (hm' q hq) (hm q' hq')
  by_cases he : q.1 = q'.1
  · have : q = q' := Prod.ext he hv
    rw [this]
  · -- both labels occur, with the same weight
    have htot : HMap.total m = q.2 + q'.2 := by
      have hne : q ≠ q' := fun e => he (by rw [e])
      have hperm : m.Perm [q, q'] := by
        refine (List.perm_ext_iff_of_nodup hn.of_map (by simp [hne])).mpr fun p => ⟨fun hpm => ?_, fun hpm => ?_⟩
        · have same : ∀ r ∈ m, r.1 = p.1 → p = r := fun r hr e => by
            have h1 := HMap.get?_of_nodup hn (k := p.1) (v := p.2) hpm
            have h2 := HMap.get?_of_nodup hn (k := r.1) (v := r.2) hr
            rw [e, h1] at h2
            exact Prod.ext e.symm (Option.some.inj h2)
          have : q.1 = p.1 ∨ q'.1 = p.1 := by
            rcases hk p hpm with h1 | h1 <;> rcases hk q hq with h2 | h2 <;> rcases hk q' hq' with h3 | h3 <;> rw [h1, h2, h3] <;>
              first
              | exact .inl rfl
              | exact .inr rfl
              | exact absurd (h2.trans h3.symm) he
          rcases this with h | h
          · rw [same q hq h]; simp
          · rw [same q' hq' h]; simp
        · simp only [List.mem_cons, List.not_mem_nil, or_false] at hpm
          rcases hpm with rfl | rfl
          · exact hq
          · exact hq'
      rw [total_perm hperm]
      simp [HMap.total]
    have hpos := hp q hq
    have h2 : 2 * (q.2 / HMap.total m) - 1 = 0 := by
      rw [htot, ← hv]; field_simp; ring
    have h2' : 2 * (q'.2 / HMap.total m) - 1 = 0 := by rw [← hv]; exact h2
    have ht : 0 < HMap.total m := by rw [htot]; exact add_pos hpos (hp q' hq')
    simp only [leafValue, ht, if_true, h2, h2', mul_zero, hv]

theorem maxBy_of_perm {m l l' : LabelMap K} (hn : (m.map Prod.fst).Nodup) (hk : ∀ p ∈ m, p.1 = 1 ∨ p.1 = -1) (hp : ∀ p ∈ m, 0 < p.2)
    (hl : l.Perm m) (hl' : l'.Perm m) :
    (Criterion.maxBy (fun p : Int × K => p.2) l).map (leafValue (HMap.total m))
      = (Criterion.maxBy (fun p : Int × K => p.2) l').map (leafValue (HMap.total m)) := by
  by_cases h0 : m = []
  · subst h0
    have e1 := List.perm_nil.mp hl
    have e2 := List.perm_nil.mp hl'
    rw [e1, e2]
  · have h1 : l ≠ [] := fun e => h0 (by subst e; exact List.nil_perm.mp hl)
    have h2 : l' ≠ [] := fun e => h0 (by subst e; exact List.nil_perm.mp hl')
    obtain ⟨a, ea, ha, hma⟩ := maxBy_spec (fun p : Int × K => p.2) h1
    obtain ⟨b, eb, hb, hmb⟩ := maxBy_spec (fun p : Int × K => p.2) h2
    rw [ea, eb]
    simp only [Option.map_some, Option.some.injEq]
    exact leafValue_tie hn hk hp (hl.mem_iff.mp ha) (hl'.mem_iff.mp hb) (fun p hpm => hma p (hl.mem_iff.mpr hpm))
      (fun p hpm => hmb p (hl'.mem_iff.mpr hpm))

theorem confLoss_iff {env : TreeEnv K} (horder : ∀ m, (env.order m).Perm m) {s : Sample K} {dist : List K} {idx : List Nat}
    (hb : Binary s.target dist idx) (o : Option (K × K)) : ConfLoss s dist idx o ↔ o = (confidenceAndLoss env s dist idx).toOption := by
  unfold ConfLoss confidenceAndLoss
  by_cases h0 : idx = []
  · simp only [h0, if_true]; rfl
  · simp only [h0, if_false]
    cases hc : countLabels s.target dist idx [] with
    | error e => rfl
    | ok m =>
      obtain ⟨hn, hk, hp⟩ := countLabels_inv hb hc (by simp) (by simp) (by simp)
      simp only [total_iff, exists_eq_left, Split.maxBy_eq]
      have hseq : ∀ t : Split (Int × K), t.items.Perm m →
          (Criterion.maxBy (fun p : Int × K => p.2) t.items).map (leafValue (HMap.total m))
            = (match Criterion.maxBy (fun p : Int × K => p.2) (env.order m) with
              | none => (.error .unwrapNone : Except Panic (K × K))
              | some (label, p) => .ok (leafValue (HMap.total m) (label, p))).toOption := by
        intro t ht
        rw [maxBy_of_perm hn hk hp ht (horder m)]
        cases Criterion.maxBy (fun p : Int × K => p.2) (env.order m) <;> rfl
      constructor
      · rintro ⟨t, ht, rfl⟩
        exact hseq t ht
      · rintro rfl
        exact ⟨.seq m, .refl _, (hseq (.seq m) (.refl _)).symm⟩

omit [IsStrictOrderedRing K] [FloorRing K] in
theorem splitRows_subset {rule : Splitter K} {s : Sample K} {idx l r : List Nat} (h : DecisionTree.splitRows rule s idx = .ok (l, r)) :
    (∀ i ∈ l, i ∈ idx) ∧ ∀ i ∈ r, i ∈ idx := by
  induction idx generalizing l r with
  | nil =>
    simp only [DecisionTree.splitRows, Except.ok.injEq, Prod.mk.injEq] at h
    obtain ⟨rfl, rfl⟩ := h
    simp
  | cons i is ih =>
    unfold DecisionTree.splitRows at h
    cases hg : rule.goesLeft s i with
    | error e => simp [hg] at h
    | ok b =>
      simp only [hg] at h
      cases hr : DecisionTree.splitRows rule s is with
      | error e => simp [hr, Except.map] at h
      | ok p =>
        obtain ⟨l', r'⟩ := p
        have := ih hr
        simp only [hr, Except.map, Except.ok.injEq] at h
        cases b with
        | true =>
          simp only [if_true, Prod.mk.injEq] at h
          obtain ⟨rfl, rfl⟩ := h
          refine ⟨fun j hj => ?_, fun j hj => List.mem_cons_of_mem _ (this.2 j hj)⟩
          rcases List.mem_cons.mp hj with rfl | hj
          · simp
          · exact List.mem_cons_of_mem _ (this.1 j hj)
        | false =>
          simp only [Bool.false_eq_true, if_false, Prod.mk.injEq] at h
          obtain ⟨rfl, rfl⟩ := h
          refine ⟨fun j hj => List.mem_cons_of_mem _ (this.1 j hj), fun j hj => ?_⟩
          rcases List.mem_cons.mp hj with rfl | hj
          · simp
          · exact List.mem_cons_of_mem _ (this.2 j hj)

omit [IsStrictOrderedRing K] [FloorRing K] in
theorem Binary.mono {target dist : List K} {idx idx' : List Nat} (h : Binary target dist idx) (hs : ∀ i ∈ idx', i ∈ idx) :
    Binary target dist idx' := ⟨fun i hi => h.1 i (hs i hi), fun i hi => h.2 i (hs i hi)⟩

theorem fullTree_iff {env : TreeEnv K} (horder : ∀ m, (env.order m).Perm m) (t : DecisionTree K) (s : Sample K) (dist : List K)
    (depth : Nat) : ∀ (idx : List Nat), Binary s.target dist idx → ∀ o,
      (FullTree env t s dist depth idx o ↔ o = (DecisionTree.fullTree env t s dist depth idx).toOption) := by
  induction depth with
  | zero =>
    intro idx hb o
    unfold FullTree DecisionTree.fullTree
    simp only [sumAt_iff, confLoss_iff horder hb, exists_and_left, exists_eq_left]
    cases h1 : DecisionTree.sumDist dist idx with
    | error e => simp [Except.toOption]
    | ok a =>
      cases h2 : confidenceAndLoss env s dist idx with
      | error e => simp [Except.toOption]
      | ok c => simp [Except.toOption]
  | succ depth ih =>
    intro idx hb o
    unfold FullTree DecisionTree.fullTree
    simp only [sumAt_iff, confLoss_iff horder hb, bestSplit_iff, exists_and_left, exists_eq_left]
    cases h1 : DecisionTree.sumDist dist idx with
    | error e => simp [Except.toOption]
    | ok a =>
      cases h2 : confidenceAndLoss env s dist idx with
      | error e => simp [Except.toOption]
      | ok c =>
        obtain ⟨conf, loss⟩ := c
        simp only [Except.toOption]
        split
        · rfl
        · cases h3 : Criterion.bestSplit env t.criterion t.bins s dist idx with
          | error e => simp
          | ok b =>
            obtain ⟨feature, threshold⟩ := b
            simp only
            cases h4 : DecisionTree.splitRows ⟨feature, threshold⟩ s idx with
            | error e => simp
            | ok lr =>
              obtain ⟨l, r⟩ := lr
              simp only
              split
              · rfl
              · have hsub := splitRows_subset h4
                simp only [ih l (hb.mono hsub.1), ih r (hb.mono hsub.2), exists_eq_left]
                cases DecisionTree.fullTree env t s dist depth l with
                | error e => simp [Except.toOption]
                | ok lt =>
                  cases DecisionTree.fullTree env t s dist depth r with
                  | error e => simp [Except.toOption]
                  | ok rt => simp [Except.toOption]

omit [IsStrictOrderedRing K] [FloorRing K] in
theorem positiveRows_pos {dist : List K} {l idx : List Nat} (h : DecisionTree.positiveRows dist l = .ok idx) :
    ∀ i ∈ idx, ∀ d, dist[i]? = some d → 0 < d := by
  induction l generalizing idx with
  | nil => simp only [DecisionTree.positiveRows, Except.ok.injEq] at h; subst h; simp
  | cons i is ih =>
    unfold DecisionTree.positiveRows at h
    cases hd : dist[i]? with
    | none => simp [vecAt, hd] at h
    | some d =>
      simp only [vecAt, hd] at h
      cases hr : DecisionTree.positiveRows dist is with
      | error e => simp [hr, Except.map] at h
      | ok idx' =>
        simp only [hr, Except.map, Except.ok.injEq] at h
        subst h
        intro j hj d' hd'
        split at hj
        · rcases List.mem_cons.mp hj with rfl | hj
          · rw [hd] at hd'; cases hd'; assumption
          · exact ih hr j hj d' hd'
        · exact ih hr j hj d' hd'

theorem produce_iff {env : TreeEnv K} (horder : ∀ m, (env.order m).Perm m) (t : DecisionTree K) (s : Sample K)
    (hy : ∀ y ∈ s.target, y = 1 ∨ y = -1) (dist : List K) (o : Option (TreeNode K)) :
    Produce env t s dist o ↔ o = (t.produce env s dist).toOption := by
  unfold Produce DecisionTree.produce
  cases h : DecisionTree.positiveRows dist (List.range s.nSample) with
  | error e => rfl
  | ok idx =>
    simp only
    split
    · rfl
    · have hb : Binary s.target dist idx := ⟨fun i _ y h => hy y (List.mem_of_getElem? h), positiveRows_pos h⟩
      simp only [fullTree_iff horder t s dist t.maxDepth idx hb, exists_eq_left]
      cases DecisionTree.fullTree env t s dist t.maxDepth idx <;> rfl

end Par

namespace ParReg

open Par

variable {K : Type*} [Field K] [LinearOrder K]

theorem bestSplitAt_iff (env : TreeEnv K) (lam : K) (pack : List (Bin K × K × K)) (o : Option (K × K)) :
    BestSplitAt env lam pack o ↔ o = (RegSplit.bestSplitAt env lam pack).toOption := by
  unfold BestSplitAt RegSplit.bestSplitAt
  simp only [sumOf_iff]
  constructor
  · rintro ⟨_, _, rfl, rfl, h⟩; exact h
  · intro h; exact ⟨_, _, rfl, rfl, h⟩

theorem featureSplit_iff (env : TreeEnv K) (bm : List (String × List (Bin K))) (g h : List K) (lam : K) (idx : List Nat) (f : Feature K)
    (o : Option (K × String × K)) : FeatureSplit env bm g h lam idx f o ↔ o = (RegSplit.featureSplit env bm g h lam idx f).toOption := by
  unfold FeatureSplit RegSplit.featureSplit
  cases HMap.get? bm f.name with
  | none => rfl
  | some bins =>
    simp only
    cases RegBins.pack bins idx f g h with
    | error e => rfl
    | ok pack =>
      simp only [bestSplitAt_iff, exists_eq_left]
      cases RegSplit.bestSplitAt env lam pack <;> rfl

theorem bestSplit_iff (env : TreeEnv K) (bm : List (String × List (Bin K))) (s : Sample K) (g h : List K) (idx : List Nat) (lam : K)
    (o : Option (String × K)) : BestSplit env bm s g h idx lam o ↔ o = (RegSplit.bestSplit env bm s g h idx lam).toOption := by
  unfold BestSplit RegSplit.bestSplit
  simp only [forall₂_iff (featureSplit_iff env bm g h lam idx), exists_eq_left, ← mapAll_eq]
  cases Sample.mapAll (RegSplit.featureSplit env bm g h lam idx) s.features with
  | error e => rfl
  | ok cands =>
    simp only [Except.toOption, Split.maxBy_eq]
    constructor
    · rintro ⟨t, rfl, rfl⟩
      cases Criterion.maxBy (fun p : K × String × K => p.1) t.items <;> rfl
    · rintro rfl
      refine ⟨.seq cands, rfl, ?_⟩
      simp only [Split.items]
      cases Criterion.maxBy (fun p : K × String × K => p.1) cands <;> rfl

theorem predLoss_iff (idx : List Nat) (g h : List K) (lam : K) (o : Option (K × K)) :
    PredLoss idx g h lam o ↔ o = (predictionAndLoss idx g h lam).toOption := by
  unfold PredLoss predictionAndLoss
  simp only [sumAt_iff, sumAt_eq_sumDist, exists_and_left, exists_eq_left]
  cases h1 : DecisionTree.sumDist g idx with
  | error e => simp [Except.toOption]
  | ok a =>
    cases h2 : DecisionTree.sumDist h idx with
    | error e => simp [Except.toOption]
    | ok b =>
      simp only [Except.toOption]
      split <;> rfl

theorem fullTree_iff (env : TreeEnv K) (t : RegressionTree K) (s : Sample K) (g h : List K) (depth : Nat) : ∀ (idx : List Nat) o,
    (FullTree env t s g h depth idx o ↔ o = (RegressionTree.fullTree env t s g h depth idx).toOption) := by
  induction depth with
  | zero =>
    intro idx o
    unfold FullTree RegressionTree.fullTree
    simp only [predLoss_iff, exists_eq_left]
    cases predictionAndLoss idx g h t.lambdaL2 <;> rfl
  | succ depth ih =>
    intro idx o
    unfold FullTree RegressionTree.fullTree
    simp only [predLoss_iff, bestSplit_iff, exists_eq_left]
    cases predictionAndLoss idx g h t.lambdaL2 with
    | error e => rfl
    | ok c =>
      obtain ⟨pred, loss⟩ := c
      simp only [Except.toOption]
      split
      · rfl
      · cases RegSplit.bestSplit env t.bins s g h idx t.lambdaL2 with
        | error e => rfl
        | ok b =>
          obtain ⟨feature, threshold⟩ := b
          simp only
          cases DecisionTree.splitRows ⟨feature, threshold⟩ s idx with
          | error e => rfl
          | ok lr =>
            obtain ⟨l, r⟩ := lr
            simp only
            split
            · rfl
            · simp only [ih l, ih r, exists_and_left, exists_eq_left]
              cases RegressionTree.fullTree env t s g h depth l with
              | error e => simp [Except.toOption]
              | ok lt =>
                cases RegressionTree.fullTree env t s g h depth r with
                | error e => simp [Except.toOption]
                | ok rt => simp [Except.toOption]

theorem produce_iff (env : TreeEnv K) (t : RegressionTree K) (s : Sample K) (p : List K) (o : Option (TreeNode K)) :
    Produce env t s p o ↔ o = (t.produce env s p).toOption := by
  unfold Produce RegressionTree.produce
  cases t.loss.gradient p s.target with
  | error e => rfl
  | ok g =>
    cases t.loss.hessian p s.target with
    | error e => rfl
    | ok h =>
      simp only [fullTree_iff, exists_eq_left]
      cases RegressionTree.fullTree env t s g h t.maxDepth (List.range t.nSample) <;> rfl

end ParReg

end Miniboosts
