import Verif.Props.FrankWolfe

/-! # Lemmas about CERLPBoost -/

namespace Miniboosts

open Real

variable {H X : Type*} [Classifier H X ℝ]

theorem weightedConf_snoc (w : List ℝ) (hs : List H) (a : ℝ) (h : H) (hl : w.length = hs.length) (x : X) :
    weightedConf (w ++ [a]) (hs ++ [h]) x = weightedConf w hs x + a * conf h x := by
  unfold weightedConf
  rw [List.zipWith_append hl]
  simp

theorem weightedConf_abs_le (w : List ℝ) (hs : List H) (x : X) (hw : ∀ p ∈ w, 0 ≤ p) (hs1 : w.sum ≤ 1)
    (hb : ∀ h ∈ hs, |conf h x| ≤ (1 : ℝ)) : |weightedConf w hs x| ≤ 1 := by
  have key : ∀ (w : List ℝ) (hs : List H), (∀ p ∈ w, 0 ≤ p) → (∀ h ∈ hs, |conf h x| ≤ (1 : ℝ)) →
      |weightedConf w hs x| ≤ w.sum := by
    intro w
    induction w with
    | nil => intro hs _ _; simp [weightedConf]
    | cons a w ih =>
      intro hs hw hb
      match hs with
      | [] =>
        simp only [weightedConf, List.zipWith_nil_right, List.sum_nil, abs_zero]
        exact sum_nonneg' _ hw
      | h :: hs =>
        have h1 := ih hs (fun p hp => hw p (by simp [hp])) (fun k hk => hb k (by simp [hk]))
        have h2 := hb h (by simp)
        have h3 := hw a (by simp)
        simp only [weightedConf, List.zipWith_cons_cons, List.sum_cons] at h1 ⊢
        refine (abs_add_le _ _).trans ?_
        rw [abs_mul, abs_of_nonneg h3]
        have := mul_le_mul_of_nonneg_left h2 h3
        linarith
  exact (key w hs hw hb).trans hs1

/-- Building the final hypothesis from a probability vector only drops hypotheses of weight zero. -/
theorem fromSlices_prob (w : List ℝ) (hs : List H) (hl : w.length = hs.length) (hw : Spec.IsProb w) :
    ∃ f, WeightedMajority.fromSlices w hs = .ok f ∧ (∀ x : X, conf f x = weightedConf w hs x) ∧
      Spec.IsProb f.weights := by
  have hvote : ∀ (g : H → ℝ) (l : List (ℝ × H)), (∀ p ∈ l, 0 ≤ p.1) →
      ((l.filter fun p => decide (0 < p.1)).map fun p => p.1 * g p.2).sum = (l.map fun p => p.1 * g p.2).sum := by
    intro g l
    induction l with
    | nil => simp
    | cons a l ih =>
      intro h
      have ih' := ih fun p hp => h p (by simp [hp])
      by_cases h0 : 0 < a.1
      · rw [List.filter_cons_of_pos (by simpa using h0)]; simp [ih']
      · have : a.1 = 0 := le_antisymm (not_lt.1 h0) (h a (by simp))
        rw [List.filter_cons_of_neg (by simpa using h0)]; simp [ih', this]
  have hnn : ∀ p ∈ List.zip w hs, 0 ≤ p.1 := fun p hp => hw.1 _ (List.of_mem_zip hp).1
  have hsum : (((List.zip w hs).filter fun p => decide (0 < p.1)).map Prod.fst).sum = 1 := by
    have := hvote (fun _ => 1) (List.zip w hs) hnn
    simp only [mul_one] at this
    rw [show (fun p : ℝ × H => p.1) = Prod.fst from rfl] at this
    rw [this, List.map_fst_zip (by omega), hw.2]
  have hpos : ∀ p ∈ (List.zip w hs).filter fun p => decide (0 < p.1), 0 < p.1 := by
    intro p hp; simpa using (List.mem_filter.1 hp).2
  rcases fromSlices_cases w hs with ⟨h1, -⟩ | ⟨h1, h2⟩
  · rw [h1] at hsum; simp at hsum
  · refine ⟨_, h2, ?_, ?_⟩
    · intro x
      rw [(fromSlices_conf (X := X) h2 x).1, hsum, div_one, weightedConf_eq_vote]
      exact hvote (fun h => conf h x) _ hnn
    · constructor
      · intro p hp
        obtain ⟨q, hq, rfl⟩ := List.mem_map.1 hp
        exact div_nonneg (hpos q hq).le (by rw [hsum]; norm_num)
      · rw [hsum]; simp only [div_one]; exact hsum

theorem specEdge_congr {S : Examples X ℝ} (d : List ℝ) {F G : X → ℝ} (h : ∀ e ∈ S, F e.1 = G e.1) :
    Spec.edge S d F = Spec.edge S d G := by
  unfold Spec.edge
  congr 1
  apply List.map_congr_left
  intro p hp
  rw [h _ (List.of_mem_zip hp).1]

theorem isExpDist_congr {eta nu : ℝ} {S : Examples X ℝ} {F G : X → ℝ} {d : List ℝ}
    (h : ∀ e ∈ S, F e.1 = G e.1) : IsExpDist eta nu S F d ↔ IsExpDist eta nu S G d := by
  unfold IsExpDist
  rw [show (S.map fun e => e.2 * F e.1) = S.map fun e => e.2 * G e.1 from
    List.map_congr_left fun e he => by rw [h e he]]

theorem weightedEdge_eq_spec (S : Examples X ℝ) (d w : List ℝ) (hs : List H) :
    weightedEdge S d w hs = Spec.edge S d (weightedConf w hs) := by
  rw [edge_eq_inner]
  unfold weightedEdge weightedMargins innerProduct
  rw [List.zipWith_comm]

namespace CERLPBoost

/-- What holds of a CERLPBoost object after `n` rounds of a run started from `s₀`, for the classic and the
short-step strategy. -/
structure Inv (S : Examples X ℝ) (s₀ : CERLPBoost H) (n : Nat) (s : CERLPBoost H) : Prop where
  valid : checkBinary S = .ok ()
  nu : s.nu = s₀.nu
  tol : s.halfTolerance = s₀.halfTolerance
  eta : s.eta = log ((S.length : ℝ) / s₀.nu) / s₀.halfTolerance
  fwEta : s.frankWolfe.eta = s.eta
  fwType : s.frankWolfe.fwType = s₀.frankWolfe.fwType
  maxIter : s.maxIter = ⌈8 * log ((S.length : ℝ) / s₀.nu) / s₀.halfTolerance ^ 2⌉₊
  le : n ≤ s.maxIter
  len : s.weights.length = s.hypotheses.length
  zero : n = 0 → s.weights = []
  prob : 1 ≤ n → Spec.IsProb s.weights

omit [Classifier H X ℝ] in
theorem inv_start {S : Examples X ℝ} {s₀ s : CERLPBoost H} (h : preprocess S s₀ = .ok s) : Inv S s₀ 0 s := by
  unfold preprocess at h
  cases hc : checkBinary S with
  | error e => rw [hc] at h; simp at h
  | ok u =>
    rw [hc, Except.ok.injEq] at h
    subst h
    constructor <;> simp [regularizationParam, maxLoop, hc]

theorem shortStepSize_range {eta : ℝ} {a b d : List ℝ} {s : ℝ} (h : FrankWolfe.shortStepSize eta a b d = .ok s) :
    0 ≤ s ∧ s ≤ 1 := by
  unfold FrankWolfe.shortStepSize at h
  simp only [] at h
  split at h
  · split at h
    · simp at h
    · split at h
      · simp only [Except.ok.injEq] at h; subst h; norm_num
      · simp only [Except.ok.injEq] at h; subst h; norm_num
  · simp only [Except.ok.injEq] at h; subst h
    exact ⟨le_max_left _ _, max_le (by norm_num) (min_le_left _ _)⟩

variable [BEq H]

/-- The state with the new hypothesis registered. -/
theorem register {S : Examples X ℝ} {s₀ s : CERLPBoost H} {n : Nat} (hi : Inv S s₀ n s)
    (hbeq : ∀ f h : H, (f == h) = true → ∀ e ∈ S, conf f e.1 = (conf h e.1 : ℝ)) (h : H) :
    let pos := s.hypotheses.findIdx (fun f => f == h)
    let s' := if pos = s.hypotheses.length then
            { s with hypotheses := s.hypotheses ++ [h], weights := s.weights ++ [0] } else s
    s'.weights.length = s'.hypotheses.length ∧
      (∃ h', s'.hypotheses[pos]? = some h' ∧ ∀ e ∈ S, conf h' e.1 = (conf h e.1 : ℝ)) ∧
      (∀ x : X, weightedConf s'.weights s'.hypotheses x = weightedConf s.weights s.hypotheses x) ∧
      (1 ≤ n → Spec.IsProb s'.weights) ∧ (n = 0 → s'.weights = [0] ∧ pos = 0) ∧
      (∀ k ∈ s'.hypotheses, k ∈ s.hypotheses ∨ k = h) ∧
      s'.frankWolfe = s.frankWolfe ∧ s'.nu = s.nu ∧ s'.eta = s.eta ∧ s'.halfTolerance = s.halfTolerance ∧
      s'.maxIter = s.maxIter ∧
      (s'.hypotheses.length = 1 → 1 ≤ n → s' = s ∧ pos = 0) := by
  intro pos s'
  by_cases hp : pos = s.hypotheses.length
  · have hs' : s' = { s with hypotheses := s.hypotheses ++ [h], weights := s.weights ++ [0] } := if_pos hp
    rw [hs']
    refine ⟨by simp [hi.len], ⟨h, by rw [hp]; simp, fun _ _ => rfl⟩, ?_, ?_, ?_, ?_, rfl, rfl, rfl, rfl, rfl, ?_⟩
    · intro x
      simp only []
      rw [weightedConf_snoc _ _ _ _ hi.len]; ring
    · intro hn
      obtain ⟨h1, h2⟩ := hi.prob hn
      constructor
      · intro p hp
        rcases List.mem_append.1 hp with h3 | h3
        · exact h1 p h3
        · simp at h3; rw [h3]
      · simp [h2]
    · intro hn
      have h1 := hi.zero hn
      refine ⟨by simp [h1], ?_⟩
      rw [hp, ← hi.len, h1]; rfl
    · intro k hk
      rcases List.mem_append.1 hk with h3 | h3
      · exact Or.inl h3
      · exact Or.inr (by simpa using h3)
    · intro h1 hn
      have h2 : s.hypotheses.length = 0 := by simpa using h1
      have h3 := hi.prob hn
      rw [← hi.len, List.length_eq_zero_iff] at h2
      rw [h2] at h3
      have := h3.2
      simp at this
  · have hs' : s' = s := if_neg hp
    rw [hs']
    have hlt : pos < s.hypotheses.length := by
      rcases lt_or_eq_of_le (List.findIdx_le_length (p := fun f => f == h) (xs := s.hypotheses)) with h1 | h1
      · exact h1
      · exact absurd h1 hp
    refine ⟨hi.len, ⟨s.hypotheses[pos], by simp [hlt], ?_⟩, fun _ => rfl, hi.prob, ?_, fun k hk => Or.inl hk,
      rfl, rfl, rfl, rfl, rfl, ?_⟩
    · exact hbeq _ _ (List.findIdx_getElem (w := hlt))
    · intro hn
      exfalso
      have h1 := hi.zero hn
      rw [← hi.len, h1] at hlt
      simp at hlt
    · intro h1 _
      exact ⟨rfl, by omega⟩

theorem boost_cases {S : Examples X ℝ} {s₀ s : CERLPBoost H} {n : Nat} (hi : Inv S s₀ n s)
    (htype : s₀.frankWolfe.fwType = .classic ∨ s₀.frankWolfe.fwType = .shortStep)
    (htol : 0 < s₀.halfTolerance) (hnu : 1 ≤ s₀.nu) (hnu' : s₀.nu ≤ S.length)
    (hbeq : ∀ f h : H, (f == h) = true → ∀ e ∈ S, conf f e.1 = (conf h e.1 : ℝ)) (wl : WeakLearner ℝ H) :
    (s.maxIter = n ∧ boost S s wl (n + 1) = .ok { state := s, flow := .brk n, queries := [] }) ∨
    ∃ d, n < s.maxIter ∧ IsExpDist s.eta s₀.nu S (weightedConf s.weights s.hypotheses) d ∧
      ((Spec.edge S d (conf (wl (n + 1) d)) - Spec.edge S d (weightedConf s.weights s.hypotheses) ≤
          s₀.halfTolerance ∧
        boost S s wl (n + 1) = .ok { state := { s with dist := d, terminated := n + 1 }, flow := .brk (n + 1), queries := [d] }) ∨
      (s₀.halfTolerance <
          Spec.edge S d (conf (wl (n + 1) d)) - Spec.edge S d (weightedConf s.weights s.hypotheses) ∧
        ∃ s', boost S s wl (n + 1) = .ok { state := s', flow := .cont, queries := [d] } ∧
          Inv S s₀ (n + 1) s' ∧ s'.eta = s.eta ∧
          (∀ k ∈ s'.hypotheses, k ∈ s.hypotheses ∨ k = wl (n + 1) d) ∧
          ∃ σ c, 0 ≤ σ ∧ σ ≤ 1 ∧
            (∀ e ∈ S, weightedConf s'.weights s'.hypotheses e.1 =
              (1 - σ) * weightedConf s.weights s.hypotheses e.1 + σ * conf (wl (n + 1) d) e.1) ∧
            (∀ p ∈ S, |p.2 * conf (wl (n + 1) d) p.1 - p.2 * weightedConf s.weights s.hypotheses p.1| ≤ c) ∧
            ((∀ p ∈ S, |p.2 * conf (wl (n + 1) d) p.1 - p.2 * weightedConf s.weights s.hypotheses p.1| ≤ 2) →
              2 / ((n : ℝ) + 2) * (Spec.edge S d (conf (wl (n + 1) d)) -
                Spec.edge S d (weightedConf s.weights s.hypotheses)) - 2 * (2 / ((n : ℝ) + 2)) ^ 2 * s.eta ≤
              σ * (Spec.edge S d (conf (wl (n + 1) d)) -
                Spec.edge S d (weightedConf s.weights s.hypotheses)) - σ ^ 2 * (s.eta * c ^ 2) / 2))) := by
  have hle := hi.le
  by_cases hmax : s.maxIter < n + 1
  · left
    have hn : s.maxIter = n := by omega
    refine ⟨hn, ?_⟩
    unfold boost
    rw [if_pos hmax, hn]
  right
  obtain ⟨d, hd⟩ := exists_expDist s.eta s₀.nu S (weightedConf s.weights s.hypotheses) hnu hnu'
  refine ⟨d, by omega, hd, ?_⟩
  have hd' : expDistribution s.eta s.nu S s.weights s.hypotheses = .ok d := by
    rw [hi.nu]; exact (expDistribution_iff _ _ _ _ _ _).2 hd
  have hetapos : 0 < s.eta := by
    rw [hi.eta]
    apply div_pos _ htol
    by_contra h0
    have h1 : s.maxIter = 0 := by
      rw [hi.maxIter, Nat.ceil_eq_zero]
      apply div_nonpos_of_nonpos_of_nonneg
      · linarith
      · positivity
    omega
  have hdl := hd.capped.1
  have he1 : edge S d (wl (n + 1) d) = Spec.edge S d (conf (wl (n + 1) d)) := edge_eq_spec _ _ _
  have he2 := weightedEdge_eq_spec S d s.weights s.hypotheses
  set h := wl (n + 1) d with hh
  set F := weightedConf (X := X) s.weights s.hypotheses with hF
  set G := Spec.edge S d (conf h) - Spec.edge S d F with hG
  have hb : boost S s wl (n + 1) = if G ≤ s.halfTolerance then
      .ok { state := { s with dist := d, terminated := n + 1 }, flow := .brk (n + 1), queries := [d] }
    else
      let pos := s.hypotheses.findIdx (fun f => f == h)
      let s' := if pos = s.hypotheses.length then
          { s with hypotheses := s.hypotheses ++ [h], weights := s.weights ++ [0] } else s
      match s'.frankWolfe.nextIterate (n + 1) S d s'.hypotheses pos s'.weights with
      | .error e => .error e
      | .ok weights => .ok { state := { s' with weights := weights, dist := d }, flow := .cont, queries := [d] } := by
    unfold boost
    rw [if_neg hmax, hd']
    simp only []
    rw [← hh, he1, he2, ← hG]
    by_cases h1 : G ≤ s.halfTolerance
    · rw [if_pos h1, if_pos h1]
    · rw [if_neg h1, if_neg h1]
      by_cases h2 : s.hypotheses.findIdx (fun f => f == h) = s.hypotheses.length
      · simp only [if_pos h2]; rfl
      · simp only [if_neg h2]; rfl
  rw [hb]
  by_cases h1 : G ≤ s₀.halfTolerance
  · left
    exact ⟨h1, by rw [if_pos (hi.tol ▸ h1)]⟩
  right
  refine ⟨not_le.1 h1, ?_⟩
  rw [if_neg (by rw [hi.tol]; exact h1)]
  obtain ⟨r1, ⟨h', r2, r2'⟩, r3, r4, r5, r6, r7, r8, r9, r10, r11, r12⟩ := register hi hbeq h
  simp only []
  set pos := s.hypotheses.findIdx (fun f => f == h) with hpos
  set s' := if pos = s.hypotheses.length then
    { s with hypotheses := s.hypotheses ++ [h], weights := s.weights ++ [0] } else s with hs'
  have hposlt : pos < s'.hypotheses.length := (List.getElem?_eq_some_iff.1 r2).1
  -- any interior point will do
  have fin : ∀ (σ c : ℝ), 0 ≤ σ → σ ≤ 1 → (n = 0 → σ = 1) →
      s'.frankWolfe.nextIterate (n + 1) S d s'.hypotheses pos s'.weights =
        .ok (s'.weights.mapIdx fun j b => b + σ * (if j = pos then 1 - b else -b)) →
      (∀ p ∈ S, |p.2 * conf h p.1 - p.2 * F p.1| ≤ c) →
      ((∀ p ∈ S, |p.2 * conf h p.1 - p.2 * F p.1| ≤ 2) →
        2 / ((n : ℝ) + 2) * G - 2 * (2 / ((n : ℝ) + 2)) ^ 2 * s.eta ≤ σ * G - σ ^ 2 * (s.eta * c ^ 2) / 2) →
      ∃ s₂, (match s'.frankWolfe.nextIterate (n + 1) S d s'.hypotheses pos s'.weights with
      | .error e => (.error e : Except Panic (BoostOut (CERLPBoost H) ℝ))
      | .ok weights => .ok { state := { s' with weights := weights, dist := d }, flow := .cont, queries := [d] }) =
        .ok { state := s₂, flow := .cont, queries := [d] } ∧ Inv S s₀ (n + 1) s₂ ∧ s₂.eta = s.eta ∧
        (∀ k ∈ s₂.hypotheses, k ∈ s.hypotheses ∨ k = h) ∧
        ∃ σ c, 0 ≤ σ ∧ σ ≤ 1 ∧ (∀ e ∈ S, weightedConf s₂.weights s₂.hypotheses e.1 =
              (1 - σ) * F e.1 + σ * conf h e.1) ∧
          (∀ p ∈ S, |p.2 * conf h p.1 - p.2 * F p.1| ≤ c) ∧
          ((∀ p ∈ S, |p.2 * conf h p.1 - p.2 * F p.1| ≤ 2) →
            2 / ((n : ℝ) + 2) * G - 2 * (2 / ((n : ℝ) + 2)) ^ 2 * s.eta ≤
              σ * G - σ ^ 2 * (s.eta * c ^ 2) / 2) := by
    intro σ c h0 h1 hn0 hni hc hq
    rw [hni]
    have hprob : Spec.IsProb (s'.weights.mapIdx fun j b => b + σ * (if j = pos then 1 - b else -b)) := by
      rcases Nat.eq_zero_or_pos n with h3 | h3
      · obtain ⟨h4, h5⟩ := r5 h3
        rw [h4, h5, hn0 h3]
        constructor <;> simp
      · exact (interior_prob (r4 h3) (by omega) (interiorPoint_eq h0 h1 pos s'.weights)).1
    refine ⟨_, rfl, ?_, r9, r6, σ, c, h0, h1, ?_, hc, hq⟩
    · constructor
      · exact hi.valid
      · exact r8.trans hi.nu
      · exact r10.trans hi.tol
      · exact r9.trans hi.eta
      · simp only [r7, r9]; exact hi.fwEta
      · simp only [r7]; exact hi.fwType
      · exact r11.trans hi.maxIter
      · simp only [r11]; omega
      · simp [r1]
      · intro h; omega
      · intro _; exact hprob
    · intro e he
      simp only []
      rw [interior_conf σ s'.weights s'.hypotheses pos h' r1 r2, r3, r2' e he]
  have hclassic : 2 / (((n + 1 : ℕ) : ℝ) + 1) = 2 / ((n : ℝ) + 2) := by push_cast; ring_nf
  have hn2 : (0 : ℝ) < (n : ℝ) + 2 := by positivity
  have hs0 : (0 : ℝ) ≤ 2 / ((n : ℝ) + 2) := by positivity
  have hs1 : 2 / ((n : ℝ) + 2) ≤ 1 := by
    rw [div_le_one hn2]
    have : (0 : ℝ) ≤ n := Nat.cast_nonneg n
    linarith
  obtain ⟨hm1, hm2, -⟩ := Props.foldl_max_spec (S.map fun p => |p.2 * conf h p.1 - p.2 * F p.1|) 2
  have hbound : ∃ c, (∀ p ∈ S, |p.2 * conf h p.1 - p.2 * F p.1| ≤ c) ∧
      ((∀ p ∈ S, |p.2 * conf h p.1 - p.2 * F p.1| ≤ 2) → c = 2) := by
    by_cases h2 : ∀ p ∈ S, |p.2 * conf h p.1 - p.2 * F p.1| ≤ 2
    · exact ⟨2, h2, fun _ => rfl⟩
    · exact ⟨_, fun p hp => hm2 _ (List.mem_map.2 ⟨p, hp, rfl⟩), fun h3 => absurd h3 h2⟩
  obtain ⟨c₀, hc₀, hc₀'⟩ := hbound
  rcases htype with ht | ht
  · refine fin (2 / ((n : ℝ) + 2)) c₀ hs0 hs1 (by rintro rfl; norm_num) ?_ hc₀ ?_
    · unfold FrankWolfe.nextIterate
      rw [if_pos hposlt, r7, hi.fwType, ht]
      simp only [FrankWolfe.classic, hclassic]
      exact interiorPoint_eq hs0 hs1 _ _
    · intro h2
      rw [hc₀' h2]
      apply le_of_eq; ring
  · have hni : s'.frankWolfe.nextIterate (n + 1) S d s'.hypotheses pos s'.weights =
        s'.frankWolfe.shortStep S d s'.hypotheses pos s'.weights := by
      unfold FrankWolfe.nextIterate
      rw [if_pos hposlt, r7, hi.fwType, ht]
    rcases Nat.eq_zero_or_pos n with hn | hn
    · obtain ⟨h4, h5⟩ := r5 hn
      refine fin 1 c₀ (by norm_num) le_rfl (fun _ => rfl) ?_ hc₀ ?_
      · rw [hni]
        unfold FrankWolfe.shortStep
        rw [if_pos (by rw [← r1, h4]; rfl), h4, h5]
        simp
      · intro h2
        rw [hc₀' h2, hn]
        norm_num
        linarith
    · have hne : s'.hypotheses.length ≠ 1 := by
        intro h0
        obtain ⟨h2, h3⟩ := r12 h0 hn
        rw [h2, h3] at r2
        rw [h2] at h0 r1
        have hw := hi.prob hn
        match hwe : s.weights, hse : s.hypotheses with
        | [a], [k] =>
          rw [hwe] at hw
          have ha : a = 1 := by simpa using hw.2
          rw [hse] at r2
          simp at r2
          have : G = 0 := by
            rw [hG, sub_eq_zero]
            apply specEdge_congr
            intro e he
            rw [hF, hwe, hse, ← r2' e he, ← r2, ha]
            simp [weightedConf]
          rw [this] at h1
          exact h1 htol.le
        | [], _ => rw [hwe] at hw; have := hw.2; simp at this
        | _ :: _ :: _, _ => rw [hwe] at r1; simp at r1; omega
        | [_], [] => rw [hse] at h0; simp at h0
        | [_], _ :: _ :: _ => rw [hse] at h0; simp at h0
      obtain ⟨s₁, c₁, q1, q2, q3, q4, q5, ⟨p, hp, q6⟩, q7⟩ := Props.shortStepSize_optimal s.eta hetapos S F (conf h) d hdl
        (by linarith [not_le.1 h1])
      refine fin s₁ c₁ q2 q3 (by omega) ?_ q5 ?_
      · rw [hni]
        unfold FrankWolfe.shortStep
        rw [if_neg hne, r2]
        simp only []
        have e1 : margins S h' = S.map fun e => e.2 * conf h e.1 := by
          unfold margins
          apply List.map_congr_left
          intro e he; rw [r2' e he]
        have e2 : weightedMargins S s'.weights s'.hypotheses = S.map fun e => e.2 * F e.1 := by
          unfold weightedMargins
          apply List.map_congr_left
          intro e he; rw [r3]
        rw [e1, e2, r7, hi.fwEta, q1]
        exact interiorPoint_eq q2 q3 _ _
      · intro h2
        refine le_trans ?_ (q7 (2 / ((n : ℝ) + 2)) hs0 hs1)
        have hc2 : c₁ ≤ 2 := by rw [q6]; exact h2 p hp
        have : c₁ ^ 2 ≤ 4 := by nlinarith
        have : (2 / ((n : ℝ) + 2)) ^ 2 * (s.eta * c₁ ^ 2) ≤ (2 / ((n : ℝ) + 2)) ^ 2 * (s.eta * 4) :=
          mul_le_mul_of_nonneg_left (mul_le_mul_of_nonneg_left this hetapos.le) (sq_nonneg _)
        linarith

end CERLPBoost

end Miniboosts
