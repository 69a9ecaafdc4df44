import Verif.Props.TreePanic
import Verif.Props.Svmlight
import Verif.Lemmas.NaiveBayes

/-! # C97: from a file to a trained classifier -/

namespace Miniboosts.Props

open Miniboosts Real Spec

variable {env : TreeEnv ℝ} {s : Sample ℝ}

/-- Some vote of the columns of a sample with 0/1 cells, weight `w name` for each column and a bias `b` of total absolute value at most
one, has margin at least `θ` on every row. -/
def ColumnVote (s : Sample ℝ) (b : ℝ) (w : String → ℝ) (θ : ℝ) : Prop :=
  |b| + (s.features.map fun f => |w f.name|).sum ≤ 1 ∧
    ∀ i < s.nSample, θ ≤ s.target.getD i 0 * (b + (s.features.map fun f => w f.name * (2 * f.val i - 1)).sum)

theorem cut_eq_range (env : TreeEnv ℝ) (f : Feature ℝ) (n : Nat) : Bins.cut env f n =
    match Bins.cutRange n (Bins.perturb (Bins.range env f)) with
    | .error e => .error e
    | .ok [] => .error .unwrapNone
    | .ok (b :: l) => .ok (Bins.setLastStop env.fmax ({ b with start := env.fmin } :: l)) := by
  cases f <;> simp only [Bins.cut, Bins.cutDense, Bins.cutSparse, Bins.range] <;> (rcases Bins.cutRange n _ with e | (_ | ⟨b, l⟩) <;> rfl)

theorem cut_first {f : Feature ℝ} {n : Nat} (hn : 2 ≤ n) {lo hi : ℝ} (hr : Bins.range env f = (lo, hi)) (hlt : lo < hi)
    (hw : 1 / 10 ^ 9 ≤ (hi - lo) / n) {bins : List (Bin ℝ)} (h : Bins.cut env f n = .ok bins) :
    ∃ b ∈ bins, b.stop = lo + (hi - lo) / n := by
  have hp : Bins.perturb (Bins.range env f) = (lo, hi) := by
    rw [hr]; unfold Bins.perturb; rw [if_neg (by simpa using hlt.ne)]
  rw [cut_eq_range, hp] at h
  unfold Bins.cutRange at h
  rw [if_neg (by omega)] at h
  have hn0 : (2 : ℝ) ≤ n := by exact_mod_cast hn
  have hnot : ¬ |lo + (hi - lo) / (n : ℝ) - hi| < Bins.numTolerance := by
    have e : lo + (hi - lo) / (n : ℝ) - hi = -((n - 1) * ((hi - lo) / n)) := by field_simp; ring
    rw [e, abs_neg, abs_of_nonneg (by have : (0 : ℝ) < hi - lo := by linarith
                                      have : (0 : ℝ) ≤ (hi - lo) / n := by positivity
                                      nlinarith)]
    unfold Bins.numTolerance
    nlinarith
  have hc : Bins.cutLoop hi ((hi - lo) / (n : ℝ)) (n + 1) lo
      = (Bins.cutLoop hi ((hi - lo) / (n : ℝ)) n (lo + (hi - lo) / n)).map (fun bs => ⟨lo, lo + (hi - lo) / n⟩ :: bs) := by
    rw [Bins.cutLoop, if_pos hlt, if_neg hnot]
  rw [hc] at h
  cases hl : Bins.cutLoop hi ((hi - lo) / (n : ℝ)) n (lo + (hi - lo) / n) with
  | error e => rw [hl] at h; simp [Except.map] at h
  | ok bs =>
    rw [hl] at h
    simp only [Except.map] at h
    split at h
    · cases h
    · rename_i heq
      split at heq
      · simp at heq
      · cases heq
    · rename_i bb l heq
      split at heq
      · rename_i hlen
        simp only [Except.ok.injEq, List.cons.injEq] at heq
        obtain ⟨rfl, rfl⟩ := heq
        simp only [Except.ok.injEq] at h
        subst h
        cases bs with
        | nil => simp at hlen; omega
        | cons c bs =>
          exact ⟨_, by rw [Bins.setLastStop]; exact List.mem_cons_self; exact List.cons_ne_nil _ _, rfl⟩
      · cases heq

theorem build_bins {b : DecisionTreeBuilder ℝ} {t : DecisionTree ℝ} (h : b.build env = .ok t)
    (hn : (b.sample.features.map Feature.name).Nodup) {f : Feature ℝ} (hf : f ∈ b.sample.features) :
    ∃ n bins, HMap.get? b.nBins f.name = some n ∧ Bins.cut env f n = .ok bins ∧ HMap.get? t.bins f.name = some bins := by
  unfold DecisionTreeBuilder.build at h
  cases hm : Sample.mapAll (DecisionTreeBuilder.cutFeature env b) b.sample.features with
  | error e => rw [hm] at h; cases h
  | ok bins =>
    rw [hm] at h
    simp only [Except.ok.injEq] at h
    subst h
    have h2 := NB.mapAll_inv hm
    have hfst : ∀ (g : Feature ℝ) (p : String × List (Bin ℝ)), DecisionTreeBuilder.cutFeature env b g = .ok p → p.1 = g.name ∧
        ∃ n, HMap.get? b.nBins g.name = some n ∧ Bins.cut env g n = .ok p.2 := by
      intro g p hp
      unfold DecisionTreeBuilder.cutFeature at hp
      split at hp
      · cases hp
      · rename_i n hn'
        cases hc : Bins.cut env g n with
        | error e => rw [hc] at hp; cases hp
        | ok bs =>
          rw [hc] at hp
          simp only [Except.map, Except.ok.injEq] at hp
          subst hp
          exact ⟨rfl, n, hn', hc⟩
    have hnames : bins.map Prod.fst = b.sample.features.map Feature.name := by
      clear hn hf hm
      generalize b.sample.features = fs at h2
      induction h2 with
      | nil => rfl
      | cons hab _ ih => rw [List.map_cons, List.map_cons, ih, (hfst _ _ hab).1]
    have hmem : ∃ p ∈ bins, DecisionTreeBuilder.cutFeature env b f = .ok p := by
      clear hn hm hnames
      generalize b.sample.features = fs at h2 hf
      induction h2 with
      | nil => cases hf
      | cons hab _ ih =>
        rcases List.mem_cons.1 hf with rfl | hf
        · exact ⟨_, List.mem_cons_self, hab⟩
        · obtain ⟨p, hp, hq⟩ := ih hf
          exact ⟨p, List.mem_cons_of_mem _ hp, hq⟩
    obtain ⟨p, hp, hq⟩ := hmem
    obtain ⟨e1, n, e2, e3⟩ := hfst f p hq
    refine ⟨n, p.2, e2, e3, ?_⟩
    have hnd : (bins.map Prod.fst).Nodup := by rw [hnames]; exact hn
    rw [HMap.collect_of_nodup hnd]
    apply HMap.get?_of_nodup hnd
    rw [← e1]; exact hp

theorem tiles_last {a z : ℝ} {bins : List (Bin ℝ)} (h : Tiles a bins z) (haz : a < z) : ∃ b ∈ bins, b.stop = z := by
  induction bins generalizing a with
  | nil => rw [Tiles] at h; exact absurd h haz.ne
  | cons b l ih =>
    obtain ⟨h1, h2, h3⟩ := h
    cases l with
    | nil => rw [Tiles] at h3; exact ⟨b, by simp, h3⟩
    | cons c l =>
      have : b.stop < z := by
        have key : ∀ (l : List (Bin ℝ)) (a : ℝ), Tiles a l z → l ≠ [] → a < z := by
          intro l
          induction l with
          | nil => intro a _ h; exact absurd rfl h
          | cons d l ih =>
            intro a h _
            obtain ⟨-, k2, k3⟩ := h
            cases l with
            | nil => rw [Tiles] at k3; rw [← k3]; exact k2
            | cons e l => exact k2.trans (ih _ k3 (by simp))
        exact key _ _ h3 (by simp)
      obtain ⟨d, hd, he⟩ := ih h3 this
      exact ⟨d, List.mem_cons_of_mem _ hd, he⟩

theorem index_val_ok {n : Nat} {f : Feature ℝ} (hf : ColumnOk n f) {i : Nat} (hi : i < n) : f.index i = .ok (f.val i) := by
  cases f with
  | dense f =>
    have : f.sample.length = n := hf
    simp only [Feature.index, DenseFeature.index, Feature.val]
    rw [List.getElem?_eq_getElem (by omega), List.getD_eq_getElem?_getD, List.getElem?_eq_getElem (by omega)]
    rfl
  | sparse f => rfl

theorem two_distinct {n : Nat} {f : Feature ℝ} (hf : ColumnOk n f) {i j : Nat} (hi : i < n) (hj : j < n) (h0 : f.val i = 0)
    (h1 : f.val j = 1) : 2 ≤ f.distinctValueCount := by
  have two : ∀ l : List ℝ, (0 : ℝ) ∈ l → (1 : ℝ) ∈ l → 2 ≤ distinct l := by
    intro l a b
    unfold distinct
    have : ({0, 1} : Finset ℝ) ⊆ l.toFinset := by
      intro x hx
      simp only [Finset.mem_insert, Finset.mem_singleton] at hx
      rcases hx with rfl | rfl <;> simpa
    calc 2 = ({0, 1} : Finset ℝ).card := by rw [Finset.card_pair (by norm_num)]
      _ ≤ _ := Finset.card_le_card this
  cases f with
  | dense f =>
    have hl : f.sample.length = n := hf
    show 2 ≤ f.distinctValueCount
    rw [dense_distinct]
    simp only [Feature.val, List.getD_eq_getElem?_getD] at h0 h1
    rw [List.getElem?_eq_getElem (by omega)] at h0 h1
    exact two _ (h0 ▸ List.getElem_mem _) (h1 ▸ List.getElem_mem _)
  | sparse f =>
    show 2 ≤ f.distinctValueCount
    have hs : SparseOk n f := hf
    unfold SparseFeature.distinctValueCount
    rw [innerDistinct_eq]
    have val : ∀ k, (k, f.index k) ∈ f.sample ∨ ((∀ p ∈ f.sample, p.1 ≠ k) ∧ f.index k = 0) := by
      intro k
      by_cases hk : ∃ p ∈ f.sample, p.1 = k
      · obtain ⟨p, hp, rfl⟩ := hk
        have := (sparse_reads_back hs p.1).1 p.2 hp
        simp only [Feature.index, Except.ok.injEq] at this
        exact .inl (by rw [this]; exact hp)
      · push Not at hk
        have := (sparse_reads_back hs k).2 hk
        simp only [Feature.index, Except.ok.injEq] at this
        exact .inr ⟨hk, this⟩
    have h1' : (1 : ℝ) ∈ f.sample.map Prod.snd := by
      rcases val j with h | h
      · exact List.mem_map.2 ⟨_, h, h1⟩
      · have : f.index j = 1 := h1
        rw [h.2] at this; norm_num at this
    rcases val i with h | h
    · have := two _ (List.mem_map.2 ⟨_, h, h0⟩) h1'
      omega
    · have hz : f.hasZero = true := (hasZero_iff hs).2 ⟨i, hi, h.1⟩
      rw [hz, if_pos rfl]
      have : 0 < distinct (f.sample.map Prod.snd) := by
        unfold distinct
        exact Finset.card_pos.2 ⟨1, by simpa using h1'⟩
      omega

/-- The default builder puts a boundary between the zeros and the ones of a column. -/
theorem column_stump (h0 : env.fmin + 1 / 1000 < 0 ∧ 1 + 1 / 1000 < env.fmax) (hs : SampleOk s) (hr : 0 < s.nSample)
    {b : DecisionTreeBuilder ℝ} (hb : b.nBins = (DecisionTreeBuilder.new s).nBins) (hbs : b.sample = s) {t : DecisionTree ℝ}
    (ht : b.build env = .ok t) {f : Feature ℝ} (hf : f ∈ s.features) (h01 : ∀ i < s.nSample, f.val i = 0 ∨ f.val i = 1) :
    ∃ th, IsBoundary t.bins f th ∧ ∀ i < s.nSample, stump f th i = 2 * f.val i - 1 := by
  obtain ⟨n, bins, n1, n2, n3⟩ := build_bins ht (by rw [hbs]; exact hs.names) (by rw [hbs]; exact hf)
  rw [hb, (new_builder_bins hs hr hf).1] at n1
  have hn0 := (new_builder_bins hs hr hf).2
  have hn : n = min f.distinctValueCount 255 := by injection n1 with n1; exact n1.symm
  have hcol := hs.columns f hf
  have hval : ∀ v, ValueOf s.nSample f v → v = 0 ∨ v = 1 := by
    rintro v ⟨i, hi, he⟩
    rw [index_val_ok hcol hi] at he
    injection he with he
    rw [← he]; exact h01 i hi
  have hbound : ∀ v, ValueOf s.nSample f v → env.fmin + Bins.eps < v ∧ v + Bins.eps < env.fmax := by
    intro v hv
    unfold Bins.eps
    rcases hval v hv with rfl | rfl <;> constructor <;> linarith [h0.1, h0.2]
  have htiles : Tiles env.fmin bins env.fmax := by
    have hc := cut_spec (env := env) (by constructor <;> linarith [h0.1, h0.2]) hr hcol hbound (n := n) (by omega)
    by_cases hw : n = 1 ∨ Bins.numTolerance ≤ Bins.width env f n
    · obtain ⟨bs, e1, -, e3⟩ := hc.1 hw
      rw [n2] at e1
      injection e1 with e1
      rw [e1]; exact e3
    · rw [hc.2 hw] at n2; cases n2
  have hlt : env.fmin < env.fmax := by linarith [h0.1, h0.2]
  by_cases hz : ∃ i < s.nSample, f.val i = 0
  · by_cases ho : ∃ j < s.nSample, f.val j = 1
    · obtain ⟨i, hi, ei⟩ := hz
      obtain ⟨j, hj, ej⟩ := ho
      have h2 : 2 ≤ n := by rw [hn]; exact le_min (two_distinct hcol hi hj ei ej) (by norm_num)
      have h255 : n ≤ 255 := by rw [hn]; exact min_le_right _ _
      obtain ⟨r1, r2, r3⟩ := range_spec (env := env) (by constructor <;> linarith [h0.1, h0.2]) hr hcol (fun v hv => by
        have := hbound v hv; unfold Bins.eps at this; constructor <;> linarith [this.1, this.2])
      have v0 : ValueOf s.nSample f 0 := ⟨i, hi, by rw [index_val_ok hcol hi, ei]⟩
      have v1 : ValueOf s.nSample f 1 := ⟨j, hj, by rw [index_val_ok hcol hj, ej]⟩
      have hrange : Bins.range env f = (0, 1) := by
        have a1 := (r3 0 v0).1
        have a2 := (r3 1 v1).2
        rw [Prod.ext_iff]
        constructor
        · rcases hval _ r1 with h | h
          · exact h
          · rw [h] at a1; norm_num at a1
        · rcases hval _ r2 with h | h
          · rw [h] at a2; norm_num at a2
          · exact h
      have hn2 : (2 : ℝ) ≤ n := by exact_mod_cast h2
      have hn255 : (n : ℝ) ≤ 255 := by exact_mod_cast h255
      obtain ⟨c, hc, e⟩ := cut_first h2 hrange (by norm_num) (by
        rw [le_div_iff₀ (by linarith)]; norm_num; linarith) n2
      refine ⟨c.stop, ⟨bins, n3, c, hc, .inr rfl⟩, ?_⟩
      intro k hk
      have hpos : (0 : ℝ) < c.stop := by rw [e]; simp only [zero_add, sub_zero]; positivity
      have hle : c.stop ≤ 1 := by
        rw [e, zero_add, sub_zero, div_le_one (by linarith)]; linarith
      unfold stump
      rcases h01 k hk with h | h
      · rw [h, if_pos hpos]; norm_num
      · rw [h, if_neg (not_lt.2 hle)]; norm_num
    · push Not at ho
      obtain ⟨c, hc, e⟩ := tiles_last htiles hlt
      refine ⟨env.fmax, ⟨bins, n3, c, hc, .inr e.symm⟩, ?_⟩
      intro k hk
      have : f.val k = 0 := (h01 k hk).resolve_right (ho k hk)
      unfold stump
      rw [this, if_pos (by linarith [h0.2])]; norm_num
  · push Not at hz
    obtain ⟨c, hc, e⟩ := tiles_head htiles hlt
    refine ⟨env.fmin, ⟨bins, n3, c, hc, .inl e.symm⟩, ?_⟩
    intro k hk
    have : f.val k = 1 := (h01 k hk).resolve_left (hz k hk)
    unfold stump
    rw [this, if_neg (by linarith [h0.1])]; norm_num

theorem columnVote_margin (h0 : env.fmin + 1 / 1000 < 0 ∧ 1 + 1 / 1000 < env.fmax) (hs : SampleOk s) (hr : 0 < s.nSample)
    (hfe : s.features ≠ []) (h01 : ∀ f ∈ s.features, ∀ i < s.nSample, f.val i = 0 ∨ f.val i = 1)
    {b : DecisionTreeBuilder ℝ} (hb : b.nBins = (DecisionTreeBuilder.new s).nBins) (hbs : b.sample = s) {t : DecisionTree ℝ}
    (ht : b.build env = .ok t) {c θ : ℝ} {w : String → ℝ} (hv : ColumnVote s c w θ) : StumpMargin s t.bins θ := by
  have hst : ∀ f : Feature ℝ, ∃ th, f ∈ s.features → IsBoundary t.bins f th ∧ ∀ i < s.nSample, stump f th i = 2 * f.val i - 1 := by
    intro f
    by_cases hf : f ∈ s.features
    · obtain ⟨th, h⟩ := column_stump h0 hs hr hb hbs ht hf (h01 f hf)
      exact ⟨th, fun _ => h⟩
    · exact ⟨0, fun h => absurd h hf⟩
  choose th hth using hst
  obtain ⟨g, hg⟩ := List.exists_mem_of_ne_nil _ hfe
  -- the bias is a stump below every value
  have hbias : IsBoundary t.bins g env.fmin ∧ ∀ i < s.nSample, stump g env.fmin i = 1 := by
    obtain ⟨n, bins, n1, n2, n3⟩ := build_bins ht (by rw [hbs]; exact hs.names) (by rw [hbs]; exact hg)
    have hcol := hs.columns g hg
    rw [hb, (new_builder_bins hs hr hg).1] at n1
    have hn0 := (new_builder_bins hs hr hg).2
    have hn : n = min g.distinctValueCount 255 := by injection n1 with n1; exact n1.symm
    have hbound : ∀ v, ValueOf s.nSample g v → env.fmin + Bins.eps < v ∧ v + Bins.eps < env.fmax := by
      rintro v ⟨i, hi, he⟩
      rw [index_val_ok hcol hi] at he
      injection he with he
      unfold Bins.eps
      rcases h01 g hg i hi with h | h <;> rw [h] at he <;> rw [← he] <;> constructor <;> linarith [h0.1, h0.2]
    have hc := cut_spec (env := env) (by constructor <;> linarith [h0.1, h0.2]) hr hcol hbound (n := n) (by omega)
    have htiles : Tiles env.fmin bins env.fmax := by
      by_cases hw : n = 1 ∨ Bins.numTolerance ≤ Bins.width env g n
      · obtain ⟨bs, e1, -, e3⟩ := hc.1 hw
        rw [n2] at e1
        injection e1 with e1
        rw [e1]; exact e3
      · rw [hc.2 hw] at n2; cases n2
    obtain ⟨d, hd, e⟩ := tiles_head htiles (by linarith [h0.1, h0.2])
    refine ⟨⟨bins, n3, d, hd, .inl e.symm⟩, fun i hi => ?_⟩
    unfold stump
    rw [if_neg]
    rcases h01 g hg i hi with h | h <;> rw [h] <;> linarith [h0.1]
  refine ⟨(c, g, env.fmin) :: s.features.map fun f => (w f.name, f, th f), ?_, ?_, ?_⟩
  · intro p hp
    rcases List.mem_cons.1 hp with rfl | hp
    · exact ⟨hg, hbias.1⟩
    · obtain ⟨f, hf, rfl⟩ := List.mem_map.1 hp
      exact ⟨hf, (hth f hf).1⟩
  · rw [List.map_cons, List.sum_cons, List.map_map]
    exact hv.1
  · intro i hi
    rw [List.map_cons, List.sum_cons, List.map_map, hbias.2 i hi, mul_one]
    refine (hv.2 i hi).trans (le_of_eq ?_)
    congr 3
    apply List.map_congr_left
    intro f hf
    simp only [Function.comp]
    rw [(hth f hf).2 i hi]

/-- Both labels occur. -/
def BothLabels (target : List ℝ) : Prop := (1 : ℝ) ∈ target ∧ (-1 : ℝ) ∈ target

theorem both_valid (hs : SampleOk s) (hpm : ∀ y ∈ s.target, y = 1 ∨ y = -1) (hb : BothLabels s.target) :
    s.isValidBinaryInstance = .ok () := by
  rw [valid_binary_iff_partial]
  · refine ⟨hs.labels, ?_, ?_⟩
    · intro y hy
      rcases hpm y hy with h | h
      · exact ⟨1, by rw [h]; simp⟩
      · exact ⟨-1, by rw [h]; simp⟩
    · unfold distinct
      have : s.target.toFinset = {1, -1} := by
        ext y
        simp only [List.mem_toFinset, Finset.mem_insert, Finset.mem_singleton]
        constructor
        · exact hpm y
        · rintro (rfl | rfl)
          · exact hb.1
          · exact hb.2
      rw [this, Finset.card_pair (by norm_num)]
  · intro y hy _
    rcases hpm y hy with h | h
    · exact ⟨1, by rw [h]; norm_num⟩
    · exact ⟨-1, by rw [h]; norm_num⟩

/-- A sample with 0/1 columns, labels ±1, both of which occur, and a vote of the columns with margin `θ` on every row. -/
structure BoolSample (s : Sample ℝ) (θ : ℝ) : Prop where
  ok : SampleOk s
  columns : s.features ≠ []
  cells : ∀ f ∈ s.features, ∀ i < s.nSample, f.val i = 0 ∨ f.val i = 1
  labels : ∀ y ∈ s.target, y = 1 ∨ y = -1
  both : BothLabels s.target
  vote : ∃ c w, ColumnVote s c w θ

/-- On such a sample the default builder builds trees of any criterion and depth, and these trees answer every distribution. -/
theorem boolSample_ready (h0 : env.fmin + 1 / 1000 < 0 ∧ 1 + 1 / 1000 < env.fmax) (horder : ∀ m, (env.order m).Perm m) {θ : ℝ}
    (hbs : BoolSample s θ) (cr : Criterion) (hln : cr = .entropy → env.ln = log) {depth : Nat} (hdep : 0 < depth) :
    ∃ b t, ((DecisionTreeBuilder.new s).setCriterion cr).setMaxDepth depth = .ok b ∧ b.build env = .ok t ∧ t.criterion = cr ∧
      TreesOk env t s ∧ StumpMargin s t.bins θ ∧ s.isValidBinaryInstance = .ok () := by
  obtain ⟨hs, hfe, h01, hpm, hboth, c, w, hv⟩ := hbs
  have hr : 0 < s.nSample := by rw [← hs.labels]; exact List.length_pos_iff.2 (List.ne_nil_of_mem hboth.1)
  have hval : ∀ f ∈ s.features, ∀ v, ValueOf s.nSample f v → v = 0 ∨ v = 1 := by
    rintro f hf v ⟨i, hi, he⟩
    rw [index_val_ok (hs.columns f hf) hi] at he
    injection he with he
    rw [← he]; exact h01 f hf i hi
  obtain ⟨b, t, e1, e2, e3, e4, ok⟩ := default_trees_ok (s := s) (env := env) (by constructor <;> linarith [h0.1, h0.2]) horder hs hfe hr hpm
    (by
      intro f hf v hv
      rcases hval f hf v hv with rfl | rfl <;> constructor <;> linarith [h0.1, h0.2])
    (by
      intro f hf lo hi hlo
      right
      have hn0 := (new_builder_bins hs hr hf).2
      have hn255 : min f.distinctValueCount 255 ≤ 255 := min_le_right _ _
      generalize min f.distinctValueCount 255 = n at hn0 hn255
      have a : (0 : ℝ) < n := by exact_mod_cast hn0
      have a' : (n : ℝ) ≤ 255 := by exact_mod_cast hn255
      have hle : lo ≤ hi := (hlo.2.2 _ hlo.2.1).1
      unfold binWidth
      rw [le_div_iff₀ a]
      split
      · norm_num; linarith
      · rename_i hne
        have : hi - lo = 1 := by
          rcases hval f hf _ hlo.1 with h | h <;> rcases hval f hf _ hlo.2.1 with h' | h'
          · exact absurd (h.trans h'.symm) hne
          · rw [h, h']; norm_num
          · rw [h, h'] at hle; norm_num at hle
          · exact absurd (h.trans h'.symm) hne
        rw [this]; norm_num; linarith) cr hln hdep
  have hbb : b.nBins = (DecisionTreeBuilder.new s).nBins ∧ b.sample = s := by
    unfold DecisionTreeBuilder.setMaxDepth at e1
    rw [if_pos hdep] at e1
    injection e1 with e1
    rw [← e1]; exact ⟨rfl, rfl⟩
  have hm := columnVote_margin h0 hs hr hfe h01 hbb.1 hbb.2 e2 hv
  have hvalid := both_valid hs hpm hboth
  exact ⟨b, t, e1, e2, e3, ok, hm, hvalid⟩

/-- C97 for any sample: 0/1 columns, labels ±1, both of which occur, and a vote of the columns with margin `θ` on every row.  Then the
default builder builds trees of any criterion and depth, and AdaBoost with a tolerance of at most half the trees' edge `κ θ²` returns a
hypothesis that predicts the label of every row. -/
theorem boolean_sample_learned (h0 : env.fmin + 1 / 1000 < 0 ∧ 1 + 1 / 1000 < env.fmax) (horder : ∀ m, (env.order m).Perm m)
    (hs : SampleOk s) (hfe : s.features ≠ []) (h01 : ∀ f ∈ s.features, ∀ i < s.nSample, f.val i = 0 ∨ f.val i = 1)
    (hpm : ∀ y ∈ s.target, y = 1 ∨ y = -1) (hboth : BothLabels s.target) {c θ : ℝ} {w : String → ℝ} (hv : ColumnVote s c w θ)
    (hθ : 0 < θ) (cr : Criterion) (hln : cr = .entropy → env.ln = log) {depth : Nat} (hdep : 0 < depth) {τ : ℝ} (hτ : 0 < τ)
    (hτ' : τ ≤ treeFactor cr * θ ^ 2 / 2) :
    ∃ b t, ((DecisionTreeBuilder.new s).setCriterion cr).setMaxDepth depth = .ok b ∧ b.build env = .ok t ∧
      ∃ n f qs, (AdaBoost.booster s.rows).run (treeLearner env t s) n ((AdaBoost.init s.rows).setTolerance τ) = some (.ok (f, qs)) ∧
        AllAnswered env t s qs ∧ ∀ i < s.nSample, (predict (K := ℝ) f (s, i) : ℝ) = s.target.getD i 0 := by
  have hr : 0 < s.nSample := by rw [← hs.labels]; exact List.length_pos_iff.2 (List.ne_nil_of_mem hboth.1)
  obtain ⟨b, t, e1, e2, e3, ok, hm, hvalid⟩ := boolSample_ready h0 horder ⟨hs, hfe, h01, hpm, hboth, c, w, hv⟩ cr hln hdep
  refine ⟨b, t, e1, e2, ?_⟩
  have hk : 0 < treeFactor cr := by cases cr <;> simp only [treeFactor] <;> norm_num
  -- at least two rows
  have h2 : 2 ≤ s.nSample := by
    rw [← hs.labels]
    obtain ⟨i, hi, ei⟩ := List.getElem_of_mem hboth.1
    obtain ⟨j, hj, ej⟩ := List.getElem_of_mem hboth.2
    have : i ≠ j := by
      rintro rfl
      rw [ei] at ej; norm_num at ej
    omega
  have h2r : (2 : ℝ) ≤ s.nSample := by exact_mod_cast h2
  have hlog : (0.69 : ℝ) < log s.nSample := by
    have : log 2 ≤ log (s.nSample : ℝ) := log_le_log (by norm_num) h2r
    linarith [log_two_gt_d9]
  have hθ1 : θ ≤ 1 := by
    have hv2 := hv.2 0 hr
    have hb1 : |c + (s.features.map fun f => w f.name * (2 * f.val 0 - 1)).sum| ≤ 1 := by
      refine (abs_add_le _ _).trans (le_trans ?_ hv.1)
      gcongr
      have key : ∀ l : List (Feature ℝ), (∀ f ∈ l, f ∈ s.features) →
          |(l.map fun f => w f.name * (2 * f.val 0 - 1)).sum| ≤ (l.map fun f => |w f.name|).sum := by
        intro l
        induction l with
        | nil => intro _; simp
        | cons f l ih =>
          intro h
          simp only [List.map_cons, List.sum_cons]
          refine (abs_add_le _ _).trans (add_le_add ?_ (ih fun g hg => h g (List.mem_cons_of_mem _ hg)))
          rw [abs_mul]
          have : |2 * f.val 0 - 1| = 1 := by
            rcases h01 f (h f (by simp)) 0 hr with e | e <;> rw [e] <;> norm_num
          rw [this, mul_one]
      exact key _ fun f hf => hf
    have ht : |s.target.getD 0 0| = 1 := by
      have : s.target.getD 0 0 ∈ s.target := by
        rw [List.getD_eq_getElem?_getD, List.getElem?_eq_getElem (by rw [hs.labels]; exact hr)]
        exact List.getElem_mem _
      rcases hpm _ this with e | e <;> rw [e] <;> norm_num
    calc θ ≤ _ := hv2
      _ ≤ |s.target.getD 0 0 * (c + (s.features.map fun f => w f.name * (2 * f.val 0 - 1)).sum)| := le_abs_self _
      _ = _ := by rw [abs_mul, ht, one_mul]
      _ ≤ 1 := hb1
  have hk1 : treeFactor cr ≤ 1 := by cases cr <;> simp only [treeFactor] <;> norm_num
  set g := treeFactor cr * θ ^ 2 with hg
  have hg0 : 0 < g := by positivity
  have hg1 : g ≤ 1 := by
    have : θ ^ 2 ≤ 1 := by nlinarith
    nlinarith [sq_nonneg θ]
  obtain ⟨f, qs, hrun, herr, hans⟩ := adaboost_trees ok hvalid hθ hm ((AdaBoost.init s.rows).setTolerance τ) (by
    rw [e3, ← hg]
    have hl : adaboostLimit s.rows ((AdaBoost.init s.rows).setTolerance τ : AdaBoost (TreeNode ℝ)) = ⌊log s.nSample / τ ^ 2⌋₊ := by
      unfold adaboostLimit AdaBoost.setTolerance AdaBoost.init
      simp only [rows_length]
    rw [hl]
    have hf := Nat.lt_floor_add_one (log s.nSample / τ ^ 2)
    have hq : 4 * log s.nSample ≤ g ^ 2 * (log s.nSample / τ ^ 2) := by
      rw [mul_div_assoc', le_div_iff₀ (by positivity)]
      have : 4 * τ ^ 2 ≤ g ^ 2 := by nlinarith
      nlinarith
    nlinarith [sq_nonneg g])
  refine ⟨_, f, qs, hrun, hans, ?_⟩
  intro i hi
  unfold Spec.errors at herr
  rw [List.countP_eq_zero] at herr
  have := herr ((s, i), s.target.getD i 0) (List.mem_map.2 ⟨i, List.mem_range.2 hi, rfl⟩)
  simp only [ne_eq, decide_not, Bool.not_eq_true, Bool.not_eq_false', decide_eq_true_eq] at this
  exact this.symm

/-- The cell of a row in the column called `nm`. -/
def cell (names : List String) (row : List ℝ) (nm : String) : ℝ := row.getD (names.idxOf nm) 0

/-- A table that a weighted vote of its columns classifies: the target cells are ±1 and both occur, every other cell is 0 or 1, and a
vote `b + Σ w(name) (2 x - 1)` over the columns but the target, with total weight at most one, has margin at least `θ` on every row. -/
structure VoteTable (names : List String) (t : String) (vals : List (List ℝ)) (b : ℝ) (w : String → ℝ) (θ : ℝ) : Prop where
  labels : ∀ row ∈ vals, cell names row t = 1 ∨ cell names row t = -1
  positive : ∃ row ∈ vals, cell names row t = 1
  negative : ∃ row ∈ vals, cell names row t = -1
  cells : ∀ row ∈ vals, ∀ nm ∈ names.erase t, cell names row nm = 0 ∨ cell names row nm = 1
  weight : |b| + ((names.erase t).map fun nm => |w nm|).sum ≤ 1
  margin : ∀ row ∈ vals, θ ≤ cell names row t * (b + ((names.erase t).map fun nm => w nm * (2 * cell names row nm - 1)).sum)

theorem readsAs_val {names : List String} {t : String} {vals : List (List ℝ)} (hn : names.Nodup) (h : ReadsAs s names t vals)
    {f : Feature ℝ} (hf : f ∈ s.features) {i : Nat} (hi : i < vals.length) : f.val i = cell names vals[i] f.name := by
  have hns : s.nSample = vals.length := congrArg Prod.fst h.shape
  have hmem : f.name ∈ names.erase t := by rw [← h.columnNames]; exact List.mem_map_of_mem hf
  obtain ⟨hne, hnm⟩ := (hn.mem_erase_iff).1 hmem
  obtain ⟨f', e1, e2⟩ := h.lookup f.name hnm hne
  rw [Sample.byName_ok h.ok.names h.ok.table hf] at e1
  injection e1 with e1
  subst e1
  obtain ⟨x, e3, e4⟩ := e2 i vals[i] (List.getElem?_eq_getElem hi)
  rw [index_val_ok (h.ok.columns f hf) (by omega)] at e4
  injection e4 with e4
  rw [e4]; unfold cell
  rw [List.getD_eq_getElem?_getD, e3]; rfl

theorem readsAs_target {names : List String} {t : String} {vals : List (List ℝ)} (h : ReadsAs s names t vals)
    {i : Nat} (hi : i < vals.length) : s.target.getD i 0 = cell names vals[i] t := by
  unfold cell
  rw [List.getD_eq_getElem?_getD, List.getD_eq_getElem?_getD, h.target i _ (List.getElem?_eq_getElem hi)]

/-- A csv file whose table is a vote of its columns is read into such a sample, with the target cells as labels. -/
theorem csv_file_bool (parseIx : List Char → Option Nat) (parse : List Char → Option ℝ) {names : List String}
    (hcomma : ∀ nm ∈ names, ',' ∉ nm.toList) (hn : names.Nodup) {t : String} (ht : t ∈ names) (hcols : 2 ≤ names.length)
    {text : List (List (List Char))} {vals : List (List ℝ)} (h : IsTable parse names.length text vals) {b θ : ℝ} {w : String → ℝ}
    (hv : VoteTable names t vals b w θ) :
    ∃ s, SampleReader.read parseIx parse { file := some (some "csv", csvLine (names.map String.toList) :: text.map csvLine), hasHeader := true, target := some t } = .ok s ∧
      s.nSample = vals.length ∧ (∀ i, ∀ hi : i < vals.length, s.target.getD i 0 = cell names vals[i] t) ∧ BoolSample s θ := by
  obtain ⟨s, hread, hs⟩ := csv_header_keeps_cells parseIx parse hcomma hn ht h
  have hns : s.nSample = vals.length := congrArg Prod.fst hs.shape
  have htlen : s.target.length = vals.length := by rw [hs.ok.labels, hns]
  have htget : ∀ i, ∀ hi : i < vals.length, s.target[i]'(by omega) = cell names vals[i] t := by
    intro i hi
    rw [← readsAs_target hs hi, List.getD_eq_getElem?_getD, List.getElem?_eq_getElem (by omega)]; rfl
  have hfe : s.features ≠ [] := by
    intro e
    have := congrArg List.length hs.columnNames
    rw [e, List.length_erase_of_mem ht] at this
    simp at this; omega
  have hin : ∀ row ∈ vals, cell names row t ∈ s.target := by
    intro row hrow
    obtain ⟨i, hi, rfl⟩ := List.getElem_of_mem hrow
    rw [← htget i hi]; exact List.getElem_mem _
  refine ⟨s, hread, hns, fun i hi => readsAs_target hs hi, BoolSample.mk hs.ok hfe
    (by
      intro f hf i hi
      rw [hns] at hi
      rw [readsAs_val hn hs hf hi]
      exact hv.cells _ (List.getElem_mem _) _ (by rw [← hs.columnNames]; exact List.mem_map_of_mem hf))
    (by
      intro y hy
      obtain ⟨i, hi, rfl⟩ := List.getElem_of_mem hy
      rw [htget i (by omega)]; exact hv.labels _ (List.getElem_mem _))
    ⟨by obtain ⟨row, hr, e⟩ := hv.positive
        rw [← e]; exact hin row hr,
      by obtain ⟨row, hr, e⟩ := hv.negative
         rw [← e]; exact hin row hr⟩
    ⟨b, w,
    ⟨by
      have := hv.weight
      rw [← hs.columnNames, List.map_map] at this
      exact this,
      by
        intro i hi
        rw [hns] at hi
        have := hv.margin _ (List.getElem_mem hi)
        rw [← hs.columnNames, List.map_map] at this
        rw [readsAs_target hs hi]
        refine this.trans (le_of_eq ?_)
        congr 3
        apply List.map_congr_left
        intro f hf
        simp only [Function.comp]
        rw [readsAs_val hn hs hf hi]⟩⟩⟩

/-- **C97** for a csv file with a header: the table is read, the trees are built, the run returns, and the hypothesis predicts the target
cell of every row. -/
theorem csv_file_learned (parseIx : List Char → Option Nat) (parse : List Char → Option ℝ) {names : List String}
    (hcomma : ∀ nm ∈ names, ',' ∉ nm.toList) (hn : names.Nodup) {t : String} (ht : t ∈ names) (hcols : 2 ≤ names.length)
    {text : List (List (List Char))} {vals : List (List ℝ)} (h : IsTable parse names.length text vals) {b θ : ℝ} {w : String → ℝ}
    (hv : VoteTable names t vals b w θ) (hθ : 0 < θ) (h0 : env.fmin + 1 / 1000 < 0 ∧ 1 + 1 / 1000 < env.fmax)
    (horder : ∀ m, (env.order m).Perm m) (cr : Criterion) (hln : cr = .entropy → env.ln = log) {depth : Nat} (hdep : 0 < depth) {τ : ℝ}
    (hτ : 0 < τ) (hτ' : τ ≤ treeFactor cr * θ ^ 2 / 2) :
    ∃ s, SampleReader.read parseIx parse { file := some (some "csv", csvLine (names.map String.toList) :: text.map csvLine), hasHeader := true, target := some t } = .ok s ∧
      ∃ bd tr, ((DecisionTreeBuilder.new s).setCriterion cr).setMaxDepth depth = .ok bd ∧ bd.build env = .ok tr ∧
        ∃ n f qs, (AdaBoost.booster s.rows).run (treeLearner env tr s) n ((AdaBoost.init s.rows).setTolerance τ) = some (.ok (f, qs)) ∧
          AllAnswered env tr s qs ∧ ∀ i, ∀ hi : i < vals.length, (predict (K := ℝ) f (s, i) : ℝ) = cell names vals[i] t := by
  obtain ⟨s, hread, hns, htgt, hb⟩ := csv_file_bool parseIx parse hcomma hn ht hcols h hv
  refine ⟨s, hread, ?_⟩
  obtain ⟨c', w', hv'⟩ := hb.vote
  obtain ⟨bd, tr, e1, e2, n, f, qs, e3, e4, e5⟩ := boolean_sample_learned h0 horder hb.ok hb.columns hb.cells hb.labels hb.both hv' hθ cr hln
    hdep hτ hτ'
  exact ⟨bd, tr, e1, e2, n, f, qs, e3, e4, fun i hi => by rw [e5 i (by omega), htgt i hi]⟩

/-- The value that a svmlight row gives to the feature `i`: zero when the line does not mention it. -/
def svmCell (row : ℝ × List (Nat × ℝ)) (i : Nat) : ℝ := ((row.2.find? fun p => p.1 = i).map Prod.snd).getD 0

/-- The same for svmlight rows; `I` lists the feature indices that some line mentions. -/
structure VoteRows (rows : List (ℝ × List (Nat × ℝ))) (I : List Nat) (b : ℝ) (w : Nat → ℝ) (θ : ℝ) : Prop where
  labels : ∀ row ∈ rows, row.1 = 1 ∨ row.1 = -1
  positive : ∃ row ∈ rows, row.1 = 1
  negative : ∃ row ∈ rows, row.1 = -1
  nodup : I.Nodup
  nonempty : I ≠ []
  mentions : ∀ i, i ∈ I ↔ ∃ row ∈ rows, i ∈ row.2.map Prod.fst
  cells : ∀ row ∈ rows, ∀ i ∈ I, svmCell row i = 0 ∨ svmCell row i = 1
  weight : |b| + (I.map fun i => |w i|).sum ≤ 1
  margin : ∀ row ∈ rows, θ ≤ row.1 * (b + (I.map fun i => w i * (2 * svmCell row i - 1)).sum)

theorem svmCell_mentioned {row : ℝ × List (Nat × ℝ)} {i : Nat} (hi : i ∈ row.2.map Prod.fst) :
    (i, svmCell row i) ∈ row.2 := by
  obtain ⟨⟨j, x⟩, hp, rfl⟩ := List.mem_map.1 hi
  unfold svmCell
  cases hf : row.2.find? fun p => p.1 = j with
  | none =>
    have := List.find?_eq_none.1 hf _ hp
    simp at this
  | some q =>
    have h1 := List.find?_some hf
    have h2 := List.mem_of_find?_eq_some hf
    simp only [decide_eq_true_eq] at h1
    simp only [Option.map_some, Option.getD_some]
    rw [← h1]; exact h2

theorem svmCell_unmentioned {row : ℝ × List (Nat × ℝ)} {i : Nat} (hi : i ∉ row.2.map Prod.fst) : svmCell row i = 0 := by
  unfold svmCell
  rw [List.find?_eq_none.2]
  · rfl
  · intro p hp
    simp only [decide_eq_true_eq]
    rintro rfl
    exact hi (List.mem_map_of_mem hp)

/-- The columns of the sample read from svmlight rows are, in some order, the mentioned indices. -/
theorem svm_columns {rows : List (ℝ × List (Nat × ℝ))} {I : List Nat} (hs : SvmReadsAs s rows) (hI : I.Nodup)
    (hm : ∀ i, i ∈ I ↔ ∃ row ∈ rows, i ∈ row.2.map Prod.fst) :
    (s.features.map Feature.name).Perm (I.map fun i => Sample.defaultName (i + 1)) := by
  rw [List.perm_ext_iff_of_nodup hs.ok.names
    (hI.map fun a b hab => by have := Sample.defaultName_injective hab; omega)]
  intro nm
  constructor
  · intro h
    obtain ⟨f, hf, rfl⟩ := List.mem_map.1 h
    by_contra hc
    have := hs.unmentioned f.name (by
      intro i hi e
      exact hc (List.mem_map.2 ⟨i, (hm i).2 hi, e.symm⟩))
    rw [Sample.byName_ok hs.ok.names hs.ok.table hf] at this
    cases this
  · intro h
    obtain ⟨i, hi, rfl⟩ := List.mem_map.1 h
    obtain ⟨f, e, -⟩ := hs.mentioned i ((hm i).1 hi)
    by_contra hc
    rw [Sample.byName_missing hs.ok.table hc] at e
    cases e

theorem svm_val {rows : List (ℝ × List (Nat × ℝ))} (hs : SvmReadsAs s rows) {i : Nat} (hi : ∃ row ∈ rows, i ∈ row.2.map Prod.fst)
    {f : Feature ℝ} (hf : f ∈ s.features) (hfn : f.name = Sample.defaultName (i + 1)) {r : Nat} (hr : r < rows.length) :
    f.val r = svmCell rows[r] i := by
  obtain ⟨f', e1, e2⟩ := hs.mentioned i hi
  rw [← hfn, Sample.byName_ok hs.ok.names hs.ok.table hf] at e1
  injection e1 with e1
  subst e1
  have hx := index_val_ok (hs.ok.columns f hf) (i := r) (by rw [hs.nSample]; exact hr)
  obtain ⟨a, c⟩ := e2 r _ (List.getElem?_eq_getElem hr)
  by_cases hm : i ∈ rows[r].2.map Prod.fst
  · have := a _ (svmCell_mentioned hm)
    rw [hx] at this
    injection this
  · have := c hm
    rw [hx] at this
    injection this with this
    rw [this, svmCell_unmentioned hm]

/-- A svmlight file whose rows are a vote of their features is read into such a sample. -/
theorem svmlight_file_bool (parseIx : List Char → Option Nat) (parse : List Char → Option ℝ) {ext : Option String}
    (hext : ext ≠ some "csv") {texts : List (List Char × List (List Char × List Char))} {rows : List (ℝ × List (Nat × ℝ))}
    (h : List.Forall₂ (IsSvmRow parseIx parse) texts rows) (hn : ∀ row ∈ rows, (row.2.map Prod.fst).Nodup) (hasHeader : Bool)
    (target : Option String) {I : List Nat} {b θ : ℝ} {w : Nat → ℝ} (hv : VoteRows rows I b w θ) :
    ∃ s, SampleReader.read parseIx parse { file := some (ext, texts.map (fun t => svmLine t.1 t.2)), hasHeader := hasHeader, target := target } = .ok s ∧
      s.nSample = rows.length ∧ (∀ i, ∀ hi : i < rows.length, s.target.getD i 0 = rows[i].1) ∧ BoolSample s θ := by
  obtain ⟨s, hread, hs⟩ := svmlight_keeps_values parseIx parse hext h hn hasHeader target
  have hperm := svm_columns hs hv.nodup hv.mentions
  -- the weight of a name
  let ix : String → Nat := Function.invFun fun i => Sample.defaultName (i + 1)
  have hix : ∀ i, ix (Sample.defaultName (i + 1)) = i := by
    have hinj : Function.Injective fun i => Sample.defaultName (i + 1) := fun a b hab => by
      have := Sample.defaultName_injective hab; omega
    exact Function.leftInverse_invFun hinj
  have hname : ∀ f ∈ s.features, ix f.name ∈ I ∧ f.name = Sample.defaultName (ix f.name + 1) := by
    intro f hf
    obtain ⟨i, hi, e⟩ := List.mem_map.1 (hperm.subset (List.mem_map_of_mem hf))
    rw [← e, hix]; exact ⟨hi, rfl⟩
  have hval : ∀ f ∈ s.features, ∀ r, ∀ hr : r < rows.length, f.val r = svmCell rows[r] (ix f.name) := by
    intro f hf r hr
    exact svm_val hs ((hv.mentions _).1 (hname f hf).1) hf (hname f hf).2 hr
  have hsum : ∀ g : Nat → ℝ, (s.features.map fun f => g (ix f.name)).sum = (I.map g).sum := by
    intro g
    have := (hperm.map fun nm => g (ix nm)).sum_eq
    rw [List.map_map, List.map_map] at this
    refine this.trans (congrArg List.sum (List.map_congr_left fun i _ => ?_))
    simp only [Function.comp, hix]
  have htget : ∀ i, ∀ hi : i < rows.length, s.target.getD i 0 = rows[i].1 := by
    intro i hi
    rw [hs.target, List.getD_eq_getElem?_getD, List.getElem?_map, List.getElem?_eq_getElem hi]; rfl
  have hfe : s.features ≠ [] := by
    intro e
    have := hperm.length_eq
    rw [e] at this
    simp at this
    exact hv.nonempty (List.length_eq_zero_iff.1 this.symm)
  refine ⟨s, hread, hs.nSample, htget, BoolSample.mk hs.ok hfe
    (by
      intro f hf r hr
      rw [hs.nSample] at hr
      rw [hval f hf r hr]
      exact hv.cells _ (List.getElem_mem _) _ (hname f hf).1)
    (by
      intro y hy
      rw [hs.target] at hy
      obtain ⟨row, hr, rfl⟩ := List.mem_map.1 hy
      exact hv.labels row hr)
    ⟨by obtain ⟨row, hr, e⟩ := hv.positive
        rw [← e, hs.target]; exact List.mem_map_of_mem hr,
      by obtain ⟨row, hr, e⟩ := hv.negative
         rw [← e, hs.target]; exact List.mem_map_of_mem hr⟩
    ⟨b, fun nm => w (ix nm),
    ⟨by
      have := hv.weight
      rw [← hsum fun i => |w i|] at this
      exact this,
      by
        intro i hi
        rw [hs.nSample] at hi
        have := hv.margin _ (List.getElem_mem hi)
        rw [← hsum fun j => w j * (2 * svmCell rows[i] j - 1)] at this
        rw [htget i hi]
        refine this.trans (le_of_eq ?_)
        congr 3
        apply List.map_congr_left
        intro f hf
        rw [hval f hf i hi]⟩⟩⟩

/-- **C97** for a svmlight file in which no line repeats an index. -/
theorem svmlight_file_learned (parseIx : List Char → Option Nat) (parse : List Char → Option ℝ) {ext : Option String}
    (hext : ext ≠ some "csv") {texts : List (List Char × List (List Char × List Char))} {rows : List (ℝ × List (Nat × ℝ))}
    (h : List.Forall₂ (IsSvmRow parseIx parse) texts rows) (hn : ∀ row ∈ rows, (row.2.map Prod.fst).Nodup) (hasHeader : Bool)
    (target : Option String) {I : List Nat} {b θ : ℝ} {w : Nat → ℝ} (hv : VoteRows rows I b w θ) (hθ : 0 < θ)
    (h0 : env.fmin + 1 / 1000 < 0 ∧ 1 + 1 / 1000 < env.fmax) (horder : ∀ m, (env.order m).Perm m) (cr : Criterion)
    (hln : cr = .entropy → env.ln = log) {depth : Nat} (hdep : 0 < depth) {τ : ℝ} (hτ : 0 < τ) (hτ' : τ ≤ treeFactor cr * θ ^ 2 / 2) :
    ∃ s, SampleReader.read parseIx parse { file := some (ext, texts.map (fun t => svmLine t.1 t.2)), hasHeader := hasHeader, target := target } = .ok s ∧
      ∃ bd tr, ((DecisionTreeBuilder.new s).setCriterion cr).setMaxDepth depth = .ok bd ∧ bd.build env = .ok tr ∧
        ∃ n f qs, (AdaBoost.booster s.rows).run (treeLearner env tr s) n ((AdaBoost.init s.rows).setTolerance τ) = some (.ok (f, qs)) ∧
          AllAnswered env tr s qs ∧ ∀ i, ∀ hi : i < rows.length, (predict (K := ℝ) f (s, i) : ℝ) = rows[i].1 := by
  obtain ⟨s, hread, hns, htgt, hb⟩ := svmlight_file_bool parseIx parse hext h hn hasHeader target hv
  refine ⟨s, hread, ?_⟩
  obtain ⟨c', w', hv'⟩ := hb.vote
  obtain ⟨bd, tr, e1, e2, n, f, qs, e3, e4, e5⟩ := boolean_sample_learned h0 horder hb.ok hb.columns hb.cells hb.labels hb.both hv' hθ cr hln
    hdep hτ hτ'
  exact ⟨bd, tr, e1, e2, n, f, qs, e3, e4, fun i hi => by rw [e5 i (by omega), htgt i hi]⟩

/-! ## Concrete files -/

/-- A parser for the cells used below. -/
def exCells (c : List Char) : Option ℝ :=
  if c = ['0'] then some 0 else if c = ['1'] then some 1 else if c = ['-', '1'] then some (-1) else none

/-- The majority of three columns. -/
def exMajority : List (List ℝ) := [[0, 0, 1, -1], [0, 1, 1, 1], [1, 0, 0, -1], [1, 1, 0, 1], [1, 1, 1, 1]]

theorem exMajority_table : IsTable exCells 4 [[['0'], ['0'], ['1'], ['-', '1']], [['0'], ['1'], ['1'], ['1']], [['1'], ['0'], ['0'], ['-', '1']],
    [['1'], ['1'], ['0'], ['1']], [['1'], ['1'], ['1'], ['1']]] exMajority := by
  refine ⟨by decide, by simp [exCells, exMajority], by simp [exMajority]⟩

/-- The table of a majority is a vote of its columns with margin 1/3. -/
theorem exMajority_vote : VoteTable ["a", "b", "c", "y"] "y" exMajority 0 (fun _ => 1 / 3) (1 / 3) := by
  have e : (["a", "b", "c", "y"] : List String).erase "y" = ["a", "b", "c"] := by decide
  have i1 : (["a", "b", "c", "y"] : List String).idxOf "a" = 0 := by decide
  have i2 : (["a", "b", "c", "y"] : List String).idxOf "b" = 1 := by decide
  have i3 : (["a", "b", "c", "y"] : List String).idxOf "c" = 2 := by decide
  have i4 : (["a", "b", "c", "y"] : List String).idxOf "y" = 3 := by decide
  constructor
  · simp [exMajority, cell, i4]
  · exact ⟨[0, 1, 1, 1], by simp [exMajority], by simp [cell, i4]⟩
  · exact ⟨[0, 0, 1, -1], by simp [exMajority], by simp [cell, i4]⟩
  · rw [e]; simp [exMajority, cell, i1, i2, i3]
  · rw [e]; norm_num
  · rw [e]; simp [exMajority, cell, i1, i2, i3, i4]; norm_num

/-- The same rows in the svmlight format. -/
theorem exRows_vote : VoteRows [(-1, [(2, 1)]), (1, [(1, 1), (2, 1)]), (-1, [(0, 1)]), (1, [(0, 1), (1, 1)]), (1, [(0, 1), (1, 1), (2, 1)])] [0, 1, 2] 0
    (fun _ => 1 / 3) (1 / 3) := by
  constructor
  · simp
  · exact ⟨(1, [(1, 1), (2, 1)]), by simp, rfl⟩
  · exact ⟨(-1, [(2, 1)]), by simp, rfl⟩
  · decide
  · decide
  · intro i; simp [exists_or]; tauto
  · simp [svmCell]
  · norm_num
  · simp [svmCell]; norm_num

end Miniboosts.Props
