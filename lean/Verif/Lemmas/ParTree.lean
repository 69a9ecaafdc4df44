import Verif.Lemmas.HMapPerm
import Verif.Lemmas.Rayon
import Verif.Lemmas.BestSplit

/-! Helper lemmas: the tree learners have one result only, that of the sequential model. -/

namespace Miniboosts

namespace Par

variable {α K : Type*} [Field K] [LinearOrder K]

theorem sumOf_iff (xs : List K) (r : K) : SumOf xs r ↔ r = xs.sum := by
  constructor
  · rintro ⟨t, rfl, rfl⟩; exact Split.sum_eq t
  · rintro rfl; exact ⟨.seq xs, rfl, by rw [Split.sum_eq]; rfl⟩

theorem sumDist_eq (v : List K) (idx : List Nat) :
    (DecisionTree.sumDist v idx).toOption = (allSome (idx.map fun i => v[i]?)).map List.sum := by
  induction idx with
  | nil => rfl
  | cons i is ih =>
    unfold DecisionTree.sumDist vecAt
    simp only [List.map_cons]
    cases h : v[i]? with
    | none => rfl
    | some a =>
      simp only [allSome, Option.map_map]
      cases h2 : DecisionTree.sumDist v is with
      | error e =>
        rw [h2] at ih
        cases h3 : allSome (is.map fun i => v[i]?) with
        | none => rfl
        | some l => rw [h3] at ih; cases ih
      | ok b =>
        rw [h2] at ih
        cases h3 : allSome (is.map fun i => v[i]?) with
        | none => rw [h3] at ih; cases ih
        | some l =>
          rw [h3] at ih
          simp only [Except.toOption, Option.map_some, Option.some.injEq] at ih
          simp [Except.map, Except.toOption, ih]

theorem sumAt_eq_sumDist (v : List K) (idx : List Nat) : Miniboosts.sumAt v idx = DecisionTree.sumDist v idx := by
  induction idx with
  | nil => rfl
  | cons i is ih => unfold Miniboosts.sumAt DecisionTree.sumDist; rw [ih]; cases vecAt v i <;> rfl

theorem sumAt_iff (v : List K) (idx : List Nat) (o : Option K) : SumAt v idx o ↔ o = (DecisionTree.sumDist v idx).toOption := by
  rw [sumDist_eq]
  unfold SumAt
  cases allSome (idx.map fun i => v[i]?) with
  | none => rfl
  | some xs => simp [sumOf_iff]

theorem total_perm {m m' : LabelMap K} (h : m.Perm m') : HMap.total m = HMap.total m' := (h.map Prod.snd).sum_eq

theorem total_iff (m : LabelMap K) (r : K) : Total m r ↔ r = HMap.total m := by
  constructor
  · rintro ⟨l, hl, rfl⟩; exact total_perm hl
  · rintro rfl; exact ⟨m, .refl _, rfl⟩

theorem isEmpty_perm {m m' : LabelMap K} (h : m.Perm m') : m.isEmpty = m'.isEmpty := by
  have := h.length_eq
  cases m <;> cases m' <;> simp_all

theorem entropy_iff (env : TreeEnv K) (m : LabelMap K) (r : K) : Entropy env m r ↔ r = Criterion.entropicImpurity env m := by
  unfold Entropy Criterion.entropicImpurity
  simp only [total_iff, exists_eq_left, sumOf_iff]
  split
  · rfl
  · constructor
    · rintro ⟨l, hl, rfl⟩; exact (hl.map _).sum_eq
    · rintro rfl; exact ⟨m, .refl _, rfl⟩

theorem entropy_perm (env : TreeEnv K) {m m' : LabelMap K} (h : m.Perm m') :
    Criterion.entropicImpurity env m = Criterion.entropicImpurity env m' := by
  unfold Criterion.entropicImpurity
  rw [total_perm h, isEmpty_perm h, (h.map _).sum_eq]

theorem gini_iff (m : LabelMap K) (r : K) : Gini m r ↔ r = Criterion.giniImpurity m := by
  unfold Gini Criterion.giniImpurity
  simp only [total_iff, exists_eq_left, sumOf_iff]
  split
  · rfl
  · constructor
    · rintro ⟨l, c, hl, rfl, rfl⟩; rw [(hl.map _).sum_eq]
    · rintro rfl; exact ⟨m, _, .refl _, rfl, rfl⟩

theorem gini_perm {m m' : LabelMap K} (h : m.Perm m') : Criterion.giniImpurity m = Criterion.giniImpurity m' := by
  unfold Criterion.giniImpurity
  rw [total_perm h, isEmpty_perm h, (h.map _).sum_eq]

theorem twoing_iff (labels : List Int) (l r : LabelMap K) (o : Option K) :
    Twoing labels l r o ↔ o = (Criterion.twoingScore labels l r).toOption := by
  unfold Twoing Criterion.twoingScore
  simp only [total_iff]
  constructor
  · rintro ⟨pl, pr, rfl, rfl, h⟩
    split at h
    · rw [if_pos (by assumption)]; exact h
    · rw [if_neg (by assumption)]
      split at h
      · rw [if_pos (by assumption)]
        obtain ⟨ys, hp, rfl⟩ := h
        rw [(hp.map _).sum_eq]; rfl
      · rw [if_neg (by assumption)]; exact h
  · rintro rfl
    refine ⟨_, _, rfl, rfl, ?_⟩
    split
    · rfl
    · split
      · exact ⟨labels, .refl _, rfl⟩
      · rfl

theorem twoing_congr (labels : List Int) {s s' : LabelMap K × LabelMap K} (h : PairEq s s') :
    Criterion.twoingScore labels s.1 s.2 = Criterion.twoingScore labels s'.1 s'.2 := by
  unfold Criterion.twoingScore
  simp only [total_perm h.1.perm, total_perm h.2.perm, h.1.get, h.2.get]

theorem merge_iff (total : K) (l : List (Bin K × LabelMap K)) (b : Bin K) (w : LabelMap K) (res : List (Bin K × LabelMap K)) :
    Merge total b w l res ↔ res = Bins.mergeLoop total b w l := by
  induction l generalizing b w res with
  | nil => rfl
  | cons p l ih =>
    obtain ⟨nb, nw⟩ := p
    simp only [Merge, parMap_iff, ih, Bins.mergeLoop, Bins.divide]
    constructor
    · rintro ⟨_, _, rfl, rfl, rfl⟩; rfl
    · rintro rfl; exact ⟨_, _, rfl, rfl, rfl⟩

theorem forall₂_total (pack : List (LabelMap K)) (totals : List K) : List.Forall₂ Total pack totals ↔ totals = pack.map HMap.total := by
  induction pack generalizing totals with
  | nil => simp
  | cons m pack ih =>
    cases totals with
    | nil => simp
    | cons t ts => simp [List.forall₂_cons, total_iff, ih]

theorem removeZero_iff (bins : List (Bin K)) (pack : List (LabelMap K)) (o : Option (List (Bin K × LabelMap K))) :
    RemoveZero bins pack o ↔ o = (Bins.removeZeroWeight bins pack).toOption := by
  unfold RemoveZero Bins.removeZeroWeight
  simp only [forall₂_total, sumOf_iff, parMap_iff, merge_iff]
  constructor
  · rintro ⟨_, _, rfl, rfl, h⟩
    split at h
    · rw [if_pos (by assumption)]
      cases hz : bins.zip pack with
      | nil => rw [hz] at h; exact h
      | cons p rest =>
        rw [hz] at h
        obtain ⟨b, w⟩ := p
        simp only at h ⊢
        split at h
        · rw [if_pos (by assumption)]
          cases hr : rest.filter fun p => !p.2.isEmpty with
          | nil => rw [hr] at h; exact h
          | cons q rest' =>
            rw [hr] at h
            obtain ⟨nw', res, rfl, rfl, rfl⟩ := h
            rfl
        · rw [if_neg (by assumption)]
          obtain ⟨nw', res, rfl, rfl, rfl⟩ := h
          rfl
    · rw [if_neg (by assumption)]; exact h
  · rintro rfl
    refine ⟨_, _, rfl, rfl, ?_⟩
    split
    · cases hz : bins.zip pack with
      | nil => rfl
      | cons p rest =>
        obtain ⟨b, w⟩ := p
        simp only
        split
        · cases hr : rest.filter fun p => !p.2.isEmpty with
          | nil => rfl
          | cons q rest' => exact ⟨_, _, rfl, rfl, rfl⟩
        · exact ⟨_, _, rfl, rfl, rfl⟩
    · rfl

theorem pack_iff [FloorRing K] (bins : List (Bin K)) (idx : List Nat) (f : Feature K) (y dist : List K)
    (o : Option (List (Bin K × LabelMap K))) : Pack bins idx f y dist o ↔ o = (Bins.pack bins idx f y dist).toOption := by
  unfold Pack Bins.pack
  cases Bins.packLoop bins f y dist idx (List.replicate bins.length []) with
  | error e => rfl
  | ok p => exact removeZero_iff bins p o

/-! ## The maps in a pack have no repeated keys -/

theorem packLoop_nodup [FloorRing K] {bins : List (Bin K)} {f : Feature K} {y dist : List K} {idx : List Nat}
    {packed packed' : List (LabelMap K)} (h : Bins.packLoop bins f y dist idx packed = .ok packed')
    (hn : ∀ m ∈ packed, (m.map Prod.fst).Nodup) : ∀ m ∈ packed', (m.map Prod.fst).Nodup := by
  induction idx generalizing packed with
  | nil => simp only [Bins.packLoop, Except.ok.injEq] at h; subst h; exact hn
  | cons i is ih =>
    unfold Bins.packLoop at h
    split at h
    · split at h
      · cases h
      · rename_i pos _
        cases hm : packed[pos]? with
        | none => rw [hm] at h; cases h
        | some m =>
          rw [hm] at h
          refine ih h ?_
          intro m' hm'
          rcases List.mem_or_eq_of_mem_set hm' with hm' | rfl
          · exact hn m' hm'
          · exact HMap.nodup_addTo (hn m (List.mem_of_getElem? hm)) _ _
    · cases h
    · cases h
    · cases h

theorem keys_divide (total : K) (m : LabelMap K) : (Bins.divide total m).map Prod.fst = m.map Prod.fst := by
  simp [Bins.divide, Function.comp_def]

theorem mergeLoop_nodup (total : K) {l : List (Bin K × LabelMap K)} {b : Bin K} {w : LabelMap K} (hw : (w.map Prod.fst).Nodup)
    (hl : ∀ p ∈ l, (p.2.map Prod.fst).Nodup) : ∀ p ∈ Bins.mergeLoop total b w l, (p.2.map Prod.fst).Nodup := by
  induction l generalizing b w with
  | nil => intro p hp; simp only [Bins.mergeLoop, List.mem_singleton] at hp; subst hp; exact hw
  | cons q l ih =>
    obtain ⟨nb, nw⟩ := q
    intro p hp
    simp only [Bins.mergeLoop, List.mem_cons] at hp
    rcases hp with rfl | hp
    · exact hw
    · exact ih (by rw [keys_divide]; exact hl (nb, nw) (by simp)) (fun q hq => hl q (List.mem_cons_of_mem _ hq)) p hp

theorem pack_nodup [FloorRing K] {bins : List (Bin K)} {idx : List Nat} {f : Feature K} {y dist : List K} {pack : List (Bin K × LabelMap K)}
    (h : Bins.pack bins idx f y dist = .ok pack) : ∀ p ∈ pack, (p.2.map Prod.fst).Nodup := by
  unfold Bins.pack at h
  cases hp : Bins.packLoop bins f y dist idx (List.replicate bins.length []) with
  | error e => rw [hp] at h; cases h
  | ok packed =>
    rw [hp] at h
    have hn := packLoop_nodup hp (fun m hm => by rw [List.eq_of_mem_replicate hm]; simp)
    simp only [Bins.removeZeroWeight] at h
    split at h
    · have hz : ∀ p ∈ bins.zip packed, (p.2.map Prod.fst).Nodup := fun p hp => hn _ (List.of_mem_zip hp).2
      cases hzz : bins.zip packed with
      | nil => rw [hzz] at h; cases h
      | cons q rest =>
        rw [hzz] at h hz
        obtain ⟨b, w⟩ := q
        have hf : ∀ p ∈ rest.filter fun p => !p.2.isEmpty, (p.2.map Prod.fst).Nodup := fun p hp =>
          hz p (List.mem_cons_of_mem _ (List.mem_filter.mp hp).1)
        simp only at h
        split at h
        · cases hr : rest.filter fun p => !p.2.isEmpty with
          | nil => rw [hr] at h; cases h
          | cons q rest' =>
            rw [hr] at h hf
            simp only [Except.ok.injEq] at h
            subst h
            exact mergeLoop_nodup _ (by rw [keys_divide]; exact hf q (by simp)) (fun p hp => hf p (List.mem_cons_of_mem _ hp))
        · simp only [Except.ok.injEq] at h
          subst h
          exact mergeLoop_nodup _ (by rw [keys_divide]; exact hz (b, w) (by simp)) hf
    · cases h

/-! ## The searches over one feature -/

theorem weightSum_iff (pack : List (Bin K × LabelMap K)) (r : K) : WeightSum pack r ↔ r = Criterion.weightSum pack := by
  unfold WeightSum Criterion.weightSum
  simp only [forall₂_total, exists_eq_left, List.map_map, Function.comp_def]

theorem allWeights_eq {pack : List (Bin K × LabelMap K)} {m : LabelMap K} (h : AllWeights pack m) :
    MapEq m (Criterion.allWeights pack) := by
  obtain ⟨ms, hms, rfl⟩ := h
  unfold Criterion.allWeights
  rw [List.flatMap_def]
  exact collectWeights_perm (perm_flatten hms) (MapEq.refl (by simp))

theorem allWeights_self (pack : List (Bin K × LabelMap K)) : AllWeights pack (Criterion.allWeights pack) := by
  refine ⟨pack.map Prod.snd, ?_, by rw [Criterion.allWeights, List.flatMap_def]⟩
  exact List.forall₂_same.mpr fun _ _ => .refl _

theorem impurityLoop_iff {drop : Bool} {move : LabelMap K → Criterion.ScanState K → Except Panic (Criterion.ScanState K)}
    {Imp : LabelMap K → K → Prop} {imp : LabelMap K → K}
    (hmove : ∀ m st, (move m st).toOption = stepFold (moveStep drop) m st) (hImp : ∀ m r, Imp m r ↔ r = imp m)
    (himp : ∀ m m', m.Perm m' → imp m = imp m') (ws : K) (pack : List (Bin K × LabelMap K))
    (hn : ∀ p ∈ pack, (p.2.map Prod.fst).Nodup) (o : Option (K × K)) :
    ∀ st st', ScanEq st st' → (ImpurityLoop move Imp ws pack st o ↔
      o = ((Criterion.impurityLoop move imp ws pack st').map fun st => (st.bestThreshold, st.bestScore)).toOption) := by
  induction pack with
  | nil =>
    intro st st' h
    simp only [ImpurityLoop, Criterion.impurityLoop, Except.map, Except.toOption, h.score, h.threshold]
  | cons p pack ih =>
    obtain ⟨bin, map⟩ := p
    intro st st' h
    have hmap : (map.map Prod.fst).Nodup := hn (bin, map) (by simp)
    have ih := ih fun p hp => hn p (List.mem_cons_of_mem _ hp)
    have key : ∀ map' : LabelMap K, map'.Perm map → ((match move map' st with
        | .error _ => o = none
        | .ok st =>
          ∃ il ir, Imp st.left il ∧ Imp st.right ir ∧
            let lp := st.leftSum / ws
            let rp := max (1 - lp) 0
            let score := lp * il + rp * ir
            ImpurityLoop move Imp ws pack
              (if score < st.bestScore then { st with bestScore := score, bestThreshold := bin.stop } else st) o) ↔
        o = ((Criterion.impurityLoop move imp ws ((bin, map) :: pack) st').map fun st => (st.bestThreshold, st.bestScore)).toOption) := by
      intro map' hp
      have hr := move_perm drop hp ((hp.map Prod.fst).nodup_iff.mpr hmap) h
      rw [← hmove, ← hmove] at hr
      simp only [Criterion.impurityLoop]
      cases h1 : move map' st with
      | error e =>
        rw [h1] at hr
        cases h2 : move map st' with
        | error e' => rfl
        | ok s => rw [h2] at hr; cases hr
      | ok s =>
        rw [h1] at hr
        cases h2 : move map st' with
        | error e' => rw [h2] at hr; cases hr
        | ok s' =>
          rw [h2] at hr
          cases hr with
          | some hr =>
            simp only [hImp]
            have e1 := himp _ _ hr.left.perm
            have e2 := himp _ _ hr.right.perm
            have hsc : s.leftSum / ws * imp s.left + max (1 - s.leftSum / ws) 0 * imp s.right
                = s'.leftSum / ws * imp s'.left + max (1 - s'.leftSum / ws) 0 * imp s'.right := by rw [e1, e2, hr.sum]
            have hst : ScanEq
                (if s.leftSum / ws * imp s.left + max (1 - s.leftSum / ws) 0 * imp s.right < s.bestScore then
                  { s with bestScore := s.leftSum / ws * imp s.left + max (1 - s.leftSum / ws) 0 * imp s.right, bestThreshold := bin.stop } else s)
                (if s'.leftSum / ws * imp s'.left + max (1 - s'.leftSum / ws) 0 * imp s'.right < s'.bestScore then
                  { s' with bestScore := s'.leftSum / ws * imp s'.left + max (1 - s'.leftSum / ws) 0 * imp s'.right, bestThreshold := bin.stop } else s') := by
              rw [hsc, hr.score]
              split
              · exact ⟨hr.left, hr.right, hr.sum, rfl, rfl⟩
              · exact hr
            have := ih _ _ hst
            simp only [exists_and_left, exists_eq_left]
            exact this
    simp only [ImpurityLoop]
    constructor
    · rintro ⟨map', hp, hh⟩; exact (key map' hp).mp hh
    · intro hh; exact ⟨map, .refl _, (key map (.refl _)).mpr hh⟩

theorem splitByEntropy_iff (env : TreeEnv K) (pack : List (Bin K × LabelMap K)) (hn : ∀ p ∈ pack, (p.2.map Prod.fst).Nodup)
    (o : Option (K × K)) : SplitByEntropy env pack o ↔ o = (Criterion.splitByEntropy env pack).toOption := by
  have key := fun right (hr : MapEq right (Criterion.allWeights pack)) =>
    impurityLoop_iff (drop := false) moveEntropy_fold (entropy_iff env) (fun m m' h => entropy_perm env h) (Criterion.weightSum pack) pack hn o
      ⟨[], 0, right, Criterion.entropicImpurity env right, env.fmin⟩
      ⟨[], 0, Criterion.allWeights pack, Criterion.entropicImpurity env (Criterion.allWeights pack), env.fmin⟩
      ⟨MapEq.refl (by simp), hr, rfl, entropy_perm env hr.perm, rfl⟩
  unfold SplitByEntropy Criterion.splitByEntropy
  simp only [weightSum_iff, entropy_iff]
  constructor
  · rintro ⟨_, right, _, rfl, hr, rfl, h⟩
    exact (key right (allWeights_eq hr)).mp h
  · intro h
    exact ⟨_, _, _, rfl, allWeights_self pack, rfl, (key _ (allWeights_eq (allWeights_self pack))).mpr h⟩

theorem splitByGini_iff (env : TreeEnv K) (pack : List (Bin K × LabelMap K)) (hn : ∀ p ∈ pack, (p.2.map Prod.fst).Nodup)
    (o : Option (K × K)) : SplitByGini env pack o ↔ o = (Criterion.splitByGini env pack).toOption := by
  have key := fun right (hr : MapEq right (Criterion.allWeights pack)) =>
    impurityLoop_iff (drop := true) moveGini_fold gini_iff (fun m m' h => gini_perm h) (Criterion.weightSum pack) pack hn o
      ⟨[], 0, right, Criterion.giniImpurity right, env.fmin⟩
      ⟨[], 0, Criterion.allWeights pack, Criterion.giniImpurity (Criterion.allWeights pack), env.fmin⟩
      ⟨MapEq.refl (by simp), hr, rfl, gini_perm hr.perm, rfl⟩
  unfold SplitByGini Criterion.splitByGini
  simp only [weightSum_iff, gini_iff]
  constructor
  · rintro ⟨_, right, _, rfl, hr, rfl, h⟩
    exact (key right (allWeights_eq hr)).mp h
  · intro h
    exact ⟨_, _, _, rfl, allWeights_self pack, rfl, (key _ (allWeights_eq (allWeights_self pack))).mpr h⟩

theorem signedSum_iff (m : LabelMap K) (r : K) : SignedSum m r ↔ r = Criterion.signedSum m := by
  constructor
  · rintro ⟨l, hl, rfl⟩; exact (hl.map _).sum_eq
  · rintro rfl; exact ⟨m, .refl _, rfl⟩

theorem forall₂_signedSum (pack : List (LabelMap K)) (ds : List K) : List.Forall₂ SignedSum pack ds ↔ ds = pack.map Criterion.signedSum := by
  induction pack generalizing ds with
  | nil => simp
  | cons m pack ih =>
    cases ds with
    | nil => simp
    | cons t ts => simp [List.forall₂_cons, signedSum_iff, ih]

theorem edgeLoop_iff (pack : List (Bin K × LabelMap K)) (e be bt : K) (r : K × K) :
    EdgeLoop pack e be bt r ↔ r = Criterion.edgeLoop pack e be bt := by
  induction pack generalizing e be bt with
  | nil => rfl
  | cons p pack ih =>
    obtain ⟨bin, map⟩ := p
    simp only [EdgeLoop, Criterion.edgeLoop, signedSum_iff, exists_eq_left]
    split <;> exact ih _ _ _

theorem splitByEdge_iff (env : TreeEnv K) (pack : List (Bin K × LabelMap K)) (r : K × K) :
    SplitByEdge env pack r ↔ r = Criterion.splitByEdge env pack := by
  unfold SplitByEdge Criterion.splitByEdge
  simp only [forall₂_signedSum, exists_eq_left, edgeLoop_iff, List.map_map, Function.comp_def]

theorem twoingLoop_iff (labels : List Int) (pack : List (Bin K × LabelMap K)) (hn : ∀ p ∈ pack, (p.2.map Prod.fst).Nodup)
    (o : Option (K × K)) : ∀ st st' bs bt, PairEq st st' →
      (TwoingLoop labels pack st bs bt o ↔ o = (Criterion.twoingLoop labels pack st' bs bt).toOption) := by
  induction pack with
  | nil => intro st st' bs bt h; rfl
  | cons p pack ih =>
    obtain ⟨bin, map⟩ := p
    intro st st' bs bt h
    have hmap : (map.map Prod.fst).Nodup := hn (bin, map) (by simp)
    have ih := ih fun p hp => hn p (List.mem_cons_of_mem _ hp)
    have key : ∀ map' : LabelMap K, map'.Perm map → ((match (Criterion.twoingScore labels (Criterion.moveTwoing map' st).1
          (Criterion.moveTwoing map' st).2).toOption with
        | none => o = none
        | some score =>
          if bs < score then TwoingLoop labels pack (Criterion.moveTwoing map' st) score bin.stop o
          else TwoingLoop labels pack (Criterion.moveTwoing map' st) bs bt o) ↔
        o = (Criterion.twoingLoop labels ((bin, map) :: pack) st' bs bt).toOption) := by
      intro map' hp
      have hr := moveTwoing_perm hp ((hp.map Prod.fst).nodup_iff.mpr hmap) h
      rw [twoing_congr labels hr]
      simp only [Criterion.twoingLoop]
      cases Criterion.twoingScore labels (Criterion.moveTwoing map st').1 (Criterion.moveTwoing map st').2 with
      | error e => rfl
      | ok score =>
        simp only [Except.toOption]
        split
        · exact ih _ _ _ _ hr
        · exact ih _ _ _ _ hr
    simp only [TwoingLoop, twoing_iff]
    constructor
    · rintro ⟨map', _, hp, rfl, hh⟩; exact (key map' hp).mp hh
    · intro hh; exact ⟨map, _, .refl _, rfl, (key map (.refl _)).mpr hh⟩

theorem splitBy_iff (env : TreeEnv K) (c : Criterion) (pack : List (Bin K × LabelMap K)) (hn : ∀ p ∈ pack, (p.2.map Prod.fst).Nodup)
    (o : Option (K × K)) : SplitBy env c pack o ↔ o = (Criterion.splitBy env c pack).toOption := by
  cases c with
  | entropy => exact splitByEntropy_iff env pack hn o
  | gini => exact splitByGini_iff env pack hn o
  | edge => simp [SplitBy, splitByEdge_iff, Criterion.splitBy, Except.toOption]
  | twoing =>
    have key := fun right (hr : MapEq right (Criterion.allWeights pack)) =>
      twoingLoop_iff (Criterion.labelSet pack) pack hn o ([], right) ([], Criterion.allWeights pack) 0 env.fmin ⟨MapEq.refl (by simp), hr⟩
    simp only [SplitBy, SplitByTwoing, Criterion.splitBy, Criterion.splitByTwoing]
    constructor
    · rintro ⟨right, hr, h⟩; exact (key right (allWeights_eq hr)).mp h
    · intro h; exact ⟨_, allWeights_self pack, (key _ (allWeights_eq (allWeights_self pack))).mpr h⟩

/-! ## The search over all features -/

theorem featureSplit_iff [FloorRing K] (env : TreeEnv K) (c : Criterion) (bm : List (String × List (Bin K))) (s : Sample K) (dist : List K)
    (idx : List Nat) (f : Feature K) (o : Option (K × String × K)) :
    FeatureSplit env c bm s dist idx f o ↔ o = (Criterion.featureSplit env c bm s dist idx f).toOption := by
  unfold FeatureSplit Criterion.featureSplit
  cases HMap.get? bm f.name with
  | none => rfl
  | some bins =>
    simp only [pack_iff, exists_eq_left]
    cases hp : Bins.pack bins idx f s.target dist with
    | error e => rfl
    | ok pack =>
      simp only [Except.toOption, splitBy_iff env c pack (pack_nodup hp), exists_eq_left]
      cases Criterion.splitBy env c pack <;> rfl

theorem forall₂_iff {A B : Type*} {R : A → B → Prop} {f : A → B} (h : ∀ a b, R a b ↔ b = f a) (l : List A) (l' : List B) :
    List.Forall₂ R l l' ↔ l' = l.map f := by
  induction l generalizing l' with
  | nil => simp
  | cons a l ih =>
    cases l' with
    | nil => simp
    | cons b l' => simp [List.forall₂_cons, h, ih]

theorem mapAll_eq {A : Type*} (f : Feature K → Except Panic A) (l : List (Feature K)) :
    (Sample.mapAll f l).toOption = allSome (l.map fun x => (f x).toOption) := by
  induction l with
  | nil => rfl
  | cons a l ih =>
    unfold Sample.mapAll
    simp only [List.map_cons]
    cases h : f a with
    | error e => rfl
    | ok b =>
      simp only [Except.toOption, allSome]
      simp only [Except.toOption] at ih
      rw [← ih]
      cases Sample.mapAll f l <;> rfl

theorem bestSplit_iff [FloorRing K] (env : TreeEnv K) (c : Criterion) (bm : List (String × List (Bin K))) (s : Sample K) (dist : List K)
    (idx : List Nat) (o : Option (String × K)) :
    BestSplit env c bm s dist idx o ↔ o = (Criterion.bestSplit env c bm s dist idx).toOption := by
  unfold BestSplit Criterion.bestSplit
  simp only [forall₂_iff (featureSplit_iff env c bm s dist idx), exists_eq_left, ← mapAll_eq]
  cases Sample.mapAll (Criterion.featureSplit env c bm s dist idx) s.features with
  | error e => rfl
  | ok cands =>
    simp only [Except.toOption, Split.minBy_eq, Split.maxBy_eq]
    constructor
    · rintro ⟨t, rfl, rfl⟩
      cases c <;> simp only <;> [cases Criterion.minBy (fun p : K × String × K => p.1) t.items;
        cases Criterion.maxBy (fun p : K × String × K => p.1) t.items; cases Criterion.minBy (fun p : K × String × K => p.1) t.items;
        cases Criterion.maxBy (fun p : K × String × K => p.1) t.items] <;> rfl
    · rintro rfl
      refine ⟨.seq cands, rfl, ?_⟩
      simp only [Split.items]
      cases c <;> simp only <;> [cases Criterion.minBy (fun p : K × String × K => p.1) cands;
        cases Criterion.maxBy (fun p : K × String × K => p.1) cands; cases Criterion.minBy (fun p : K × String × K => p.1) cands;
        cases Criterion.maxBy (fun p : K × String × K => p.1) cands] <;> rfl

end Par

end Miniboosts
