import Verif.Lemmas.FrankWolfeTotal
import Verif.Lemmas.MLPBoost
import Verif.Lemmas.ERLPBoost

/-! # MLPBoost with the strategies other than the default one -/

namespace Miniboosts

open Real

variable {H X : Type*} [Classifier H X ℝ]

/-- A step of the classic, short-step or line-search strategy answers, and keeps the weights a probability vector; so does a blended
pairwise step towards a hypothesis of weight zero. -/
theorem step_prob (fw : FrankWolfe) (heta : 0 < fw.eta) {S : Examples X ℝ}
    (h1 : 1 ≤ fw.nu) (h2 : fw.nu ≤ S.length) {d w : List ℝ} {hs : List H} {pos : Nat} {h : H} {n : Nat} (hn : 1 ≤ n)
    (ht : fw.fwType ≠ .blendedPairwise ∨ (w[pos]? = some 0 ∧ ∀ k ∈ hs, |edge S d k| ≤ 1))
    (hdl : d.length = S.length) (hw : Spec.IsProb w) (hl : w.length = hs.length) (hpos : hs[pos]? = some h)
    (hG : 0 < Spec.edge S d (conf h) - Spec.edge S d (weightedConf w hs)) :
    ∃ w', fw.nextIterate (n + 1) S d hs pos w = .ok w' ∧ Spec.IsProb w' ∧ w'.length = hs.length := by
  have hposlt : pos < hs.length := (List.getElem?_eq_some_iff.1 hpos).1
  cases hf : fw.fwType with
  | blendedPairwise =>
    obtain ⟨hz, hb⟩ := ht.resolve_left (fun h => h hf)
    obtain ⟨w', a, -, -, -⟩ := blendedPairwise_total fw S d hs pos w h h1 h2 ⟨hw.1, hw.2.le⟩ hl hpos hb (by
      rw [weightedEdge_eq_spec, edge_eq_spec]; linarith)
    obtain ⟨b, c⟩ := Props.blendedPairwise_simplex_partial fw S d hs pos w w' hw hl hz a
    refine ⟨w', ?_, b, by omega⟩
    unfold FrankWolfe.nextIterate
    rw [if_pos hposlt, hf]; exact a
  | lineSearch =>
    obtain ⟨w', a, -, -, -⟩ := lineSearch_total fw S hs pos w h1 h2 ⟨hw.1, hw.2.le⟩ (by omega)
    have h3 : fw.nextIterate (n + 1) S d hs pos w = .ok w' := by
      unfold FrankWolfe.nextIterate
      rw [if_pos hposlt, hf]; exact a
    obtain ⟨b, c⟩ := Props.nextIterate_simplex fw (by rw [hf]; decide) _ S d hs pos w w' hw hl h3
    exact ⟨w', h3, b, by omega⟩
  | classic =>
    obtain ⟨w', a, b, c, -⟩ := fw_step (Or.inl hf) heta hn hdl hw hl hpos hG
    exact ⟨w', a, b, c⟩
  | shortStep =>
    obtain ⟨w', a, b, c, -⟩ := fw_step (Or.inr hf) heta hn hdl hw hl hpos hG
    exact ⟨w', a, b, c⟩

namespace MLPBoost

variable [BEq H]

/-- What one call of `boost` does, with any strategy whose steps keep the weights a probability vector. -/
theorem boost_cases_any {S : Examples X ℝ} {s₀ s : MLPBoost H} {wl : WeakLearner ℝ H} {n : Nat} {qs : List (List ℝ)}
    (hi : Inv S s₀ wl n qs s) {solver : Solver ℝ} (hsolver : solver.Correct) (noise : Nat → Nat → ℝ)
    (hfnu : s.primary.nu = s₀.nu) 
    (htype : s₀.primary.fwType ≠ .blendedPairwise ∨ ((∀ d, ∀ f ∈ s.hypotheses, (f == wl (n + 1) d) = false) ∧
      (∀ d, ∀ e ∈ S, |e.2 * conf (wl (n + 1) d) e.1| ≤ (1 : ℝ)) ∧ ∀ f ∈ s.hypotheses, ∀ e ∈ S, |e.2 * conf f e.1| ≤ (1 : ℝ)))
    (htol : 0 < s₀.halfTolerance) (hnu : 1 ≤ s₀.nu) (hnu' : s₀.nu ≤ S.length)
    (hbeq : ∀ f h : H, (f == h) = true → ∀ e ∈ S, conf f e.1 = (conf h e.1 : ℝ)) :
    (s.maxIter = n ∧ boost solver noise S s wl (n + 1) = .ok { state := s, flow := .brk n, queries := [] }) ∨
    ∃ d, n < s.maxIter ∧ 0 < s.eta ∧ IsExpDist s.eta s₀.nu S (weightedConf s.weights s.hypotheses) d ∧
      ((n = 0 ∧ ∃ s', boost solver noise S s wl (n + 1) = .ok { state := s', flow := .cont, queries := [d] } ∧
          Inv S s₀ wl (n + 1) (qs ++ [d]) s' ∧ s'.eta = s.eta ∧ s'.hypotheses = [wl 1 d] ∧ s'.weights = [1] ∧ s'.primary.nu = s₀.nu) ∨
       (1 ≤ n ∧ bestEdge S wl (qs ++ [d]) - pot s.eta S (weightedConf s.weights s.hypotheses) d / s.eta ≤
            s₀.halfTolerance ∧
          ∃ s', boost solver noise S s wl (n + 1) = .ok { state := s', flow := .brk (n + 1), queries := [d] } ∧
            s'.weights = s.weights ∧ s'.hypotheses = s.hypotheses) ∨
       (1 ≤ n ∧ s₀.halfTolerance <
            bestEdge S wl (qs ++ [d]) - pot s.eta S (weightedConf s.weights s.hypotheses) d / s.eta ∧
        ∃ s', boost solver noise S s wl (n + 1) = .ok { state := s', flow := .cont, queries := [d] } ∧
          Inv S s₀ wl (n + 1) (qs ++ [d]) s' ∧ s'.eta = s.eta ∧
          (∀ k ∈ s'.hypotheses, k ∈ s.hypotheses ∨ k = wl (n + 1) d) ∧ s'.primary.nu = s₀.nu)) := by
  have hle := hi.le
  by_cases hmax : s.maxIter < n + 1
  · left
    have hn : s.maxIter = n := by omega
    refine ⟨hn, ?_⟩
    unfold boost
    rw [if_pos hmax, hn]
  right
  obtain ⟨d, hd⟩ := exists_expDist s.eta s₀.nu S (weightedConf s.weights s.hypotheses) hnu hnu'
  have hetapos : 0 < s.eta := by
    rw [hi.eta]
    apply div_pos _ htol
    by_contra h0
    have h1 : s.maxIter = 0 := by
      rw [hi.maxIter, Nat.ceil_eq_zero]
      apply div_nonpos_of_nonpos_of_nonneg
      · linarith
      · positivity
    omega
  refine ⟨d, by omega, hetapos, hd, ?_⟩
  have hd' : expDistribution s.eta s.nu S s.weights s.hypotheses = .ok d := by
    rw [hi.nu]; exact (expDistribution_iff _ _ _ _ _ _).2 hd
  have hdl := hd.capped.1
  have hS : S ≠ [] := by
    rintro rfl
    simp at hnu'
    linarith
  obtain ⟨m, hsec, hm, hmw⟩ := hi.sec
  have hg : min s.gamma (edge S d (wl (n + 1) d)) = bestEdge S wl (qs ++ [d]) := by
    rw [bestEdge_snoc, hi.qlen, hi.gamma, edge_eq_spec]
  have hv : objval S s.eta s.nu s.hypotheses s.weights =
      .ok (pot s.eta S (weightedConf s.weights s.hypotheses) d / s.eta) := by
    rw [hi.nu]; exact objval_ok hd hetapos
  rcases Nat.eq_zero_or_pos n with hn | hn
  · left
    refine ⟨hn, ?_⟩
    subst hn
    have hhs := hi.zero rfl
    have hws : s.weights = [] := by
      have := hi.len; rw [hhs] at this; simpa using this
    obtain ⟨m', h1, h2, h3, h4, -⟩ := hm.update hsolver noise hS hnu (wl 1 d)
    refine ⟨{ s with gamma := bestEdge S wl (qs ++ [d]), hypotheses := [wl 1 d], weights := [1], secondary := some m' },
      ?_, ?_, rfl, rfl, rfl, hfnu⟩
    · unfold boost
      rw [if_neg hmax, hd']
      simp only [hsec, Nat.zero_add] at hg ⊢
      rw [h1, hg, hhs, hws]
      rfl
    · rw [hhs] at h2 h3
      constructor
      · exact hi.valid
      · exact hi.nu
      · exact hi.tol
      · exact hi.eta
      · exact hi.fwEta
      · exact hi.fwType
      · exact hi.maxIter
      · simp only []; omega
      · simp [hi.qlen]
      · rfl
      · intro h; omega
      · intro _; constructor <;> simp
      · rfl
      · simp
      · exact ⟨m', rfl, h2, fun _ => ⟨h3, h4⟩⟩
  right
  set h := wl (n + 1) d with hh
  set F := weightedConf (X := X) s.weights s.hypotheses with hF
  set γ := bestEdge S wl (qs ++ [d]) with hγ
  set v := pot s.eta S F d / s.eta with hvdef
  have hb : boost solver noise S s wl (n + 1) = if γ - v ≤ s.halfTolerance then
      .ok { state := { s with gamma := γ, terminated := n + 1 }, flow := .brk (n + 1), queries := [d] }
    else
      let pos := s.hypotheses.findIdx (fun f => f == h)
      let new := decide (pos = s.hypotheses.length)
      let hs := if new then s.hypotheses ++ [h] else s.hypotheses
      let ws := if new then s.weights ++ [0] else s.weights
      match s.primary.nextIterate (n + 1) S d hs pos ws with
      | .error e => .error e
      | .ok prim =>
        match m.update solver noise S (if new then some h else none) with
        | .error e => .error e
        | .ok (m, seco) =>
          match betterWeight S s.eta s.nu hs prim seco with
          | .error e => .error e
          | .ok w =>
            match checkCappedSimplex w 1 with
            | .error e => .error e
            | .ok () =>
              .ok { state := { s with gamma := γ, hypotheses := hs, weights := w, secondary := some m }
                    flow := .cont, queries := [d] } := by
    conv_lhs => unfold boost
    rw [if_neg hmax, hd']
    simp only [hsec]
    rw [if_neg (by omega), ← hh, hg, hv]
    simp only [hsec]
    rfl
  rw [hb]
  by_cases h1 : γ - v ≤ s₀.halfTolerance
  · left
    exact ⟨hn, h1, { s with gamma := γ, terminated := n + 1 }, by rw [hi.tol]; exact if_pos h1, rfl, rfl⟩
  right
  refine ⟨hn, not_le.1 h1, ?_⟩
  rw [if_neg (by rw [hi.tol]; exact h1)]
  simp only []
  have hGpos : 0 < Spec.edge S d (conf h) - Spec.edge S d F := by
    have e1 : γ ≤ Spec.edge S d (conf h) := by
      rw [hγ, bestEdge_snoc, hi.qlen]; exact min_le_right _ _
    have e2 : Spec.edge S d F ≤ v := by
      rw [hvdef, le_div_iff₀ hetapos, mul_comm]; exact edge_le_pot hd
    linarith [not_le.1 h1]
  have hprob := hi.prob hn
  obtain ⟨hml, hmp⟩ := hmw hn
  -- both branches: the candidates are probability vectors for the registered hypotheses
  have fin : ∀ (hs : List H) (ws : List ℝ) (pos : Nat) (h' : H) (m' : MLP.LPModel), hs[pos]? = some h' →
      (∀ e ∈ S, conf h' e.1 = (conf h e.1 : ℝ)) → Spec.IsProb ws → ws.length = hs.length →
      (∀ x : X, weightedConf ws hs x = F x) → (hs.Pairwise fun f h => (f == h) = false) →
      MLP.Holds m' S hs s₀.nu s.eta → m'.weights.length = hs.length → Spec.IsProb m'.weights →
      (∀ k ∈ hs, k ∈ s.hypotheses ∨ k = h) →
      (s₀.primary.fwType ≠ .blendedPairwise ∨ ws[pos]? = some 0) →
      ∃ s', (match s.primary.nextIterate (n + 1) S d hs pos ws with
      | .error e => (.error e : Except Panic (BoostOut (MLPBoost H) ℝ))
      | .ok prim =>
        match (.ok (m', m'.weights) : Except Panic (MLP.LPModel × List ℝ)) with
        | .error e => .error e
        | .ok (m, seco) =>
          match betterWeight S s.eta s.nu hs prim seco with
          | .error e => .error e
          | .ok w =>
            match checkCappedSimplex w 1 with
            | .error e => .error e
            | .ok () =>
              .ok { state := { s with gamma := γ, hypotheses := hs, weights := w, secondary := some m }
                    flow := .cont, queries := [d] }) = .ok { state := s', flow := .cont, queries := [d] } ∧
          Inv S s₀ wl (n + 1) (qs ++ [d]) s' ∧ s'.eta = s.eta ∧
          (∀ k ∈ s'.hypotheses, k ∈ s.hypotheses ∨ k = h) ∧ s'.primary.nu = s₀.nu := by
    intro hs ws pos h' m' hp hconf hwp hwl hwF hnd hm' hml' hmp' hmem hfree
    have eF : Spec.edge S d (weightedConf (X := X) ws hs) = Spec.edge S d F :=
      specEdge_congr d fun e _ => hwF e.1
    have eh : Spec.edge S d (conf h' : X → ℝ) = Spec.edge S d (conf h) := specEdge_congr d hconf
    obtain ⟨prim, p1, p2, p3⟩ := step_prob s.primary (by rw [hi.fwEta]; exact hetapos)
      (by rw [hfnu]; exact hnu) (by rw [hfnu]; exact hnu') hn (by
        rw [hi.fwType]
        rcases hfree with h0 | h0
        · exact .inl h0
        · rcases htype with h2 | ⟨-, h3, h4⟩
          · exact .inl h2
          · refine .inr ⟨h0, fun k hk => ?_⟩
            rw [edge_eq_spec]
            have hdp : Spec.IsProb d := ⟨fun p hp => (hd.capped.2.2.1.1 p hp).le, hd.capped.2.2.1.2⟩
            rcases hmem k hk with h5 | h5
            · exact abs_le.2 (ERLP.edge_bounds hdl hdp (conf k) (h4 k h5))
            · exact abs_le.2 (ERLP.edge_bounds hdl hdp (conf k) (by rw [h5]; exact h3 d))) hdl hwp hwl hp (by rw [eF, eh]; exact hGpos)
    obtain ⟨w, b1, b2, b3⟩ := betterWeight_ok hetapos hnu hnu' hs prim m'.weights
    have hw : Spec.IsProb w ∧ w.length = hs.length := by
      rcases b2 with rfl | rfl
      · exact ⟨p2, p3⟩
      · exact ⟨hmp', hml'⟩
    rw [p1]
    simp only []
    rw [show betterWeight S s.eta s.nu hs prim m'.weights = .ok w by rw [hi.nu]; exact b1]
    simp only []
    rw [checkSimplex_prob hw.1]
    refine ⟨_, rfl, ?_, rfl, hmem, hfnu⟩
    · constructor
      · exact hi.valid
      · exact hi.nu
      · exact hi.tol
      · exact hi.eta
      · exact hi.fwEta
      · exact hi.fwType
      · exact hi.maxIter
      · simp only []; omega
      · simp [hi.qlen]
      · exact hw.2
      · intro h; omega
      · intro _; exact hw.1
      · rfl
      · exact hnd
      · exact ⟨m', rfl, hm', fun _ => ⟨hml', hmp'⟩⟩
  by_cases hp : s.hypotheses.findIdx (fun f => f == h) = s.hypotheses.length
  · obtain ⟨m', u1, u2, u3, u4, -⟩ := hm.update hsolver noise hS hnu h
    simp only [hp, decide_true, if_true, u1]
    apply fin (s.hypotheses ++ [h]) (s.weights ++ [0]) _ h m' (by simp) (fun _ _ => rfl)
    · constructor
      · intro p hp
        rcases List.mem_append.1 hp with h3 | h3
        · exact hprob.1 p h3
        · simp at h3; rw [h3]
      · simp [hprob.2]
    · simp [hi.len]
    · intro x; rw [weightedConf_snoc _ _ _ _ hi.len]; ring
    · rw [List.pairwise_append]
      refine ⟨hi.nodup, by simp, ?_⟩
      intro a ha b hb
      simp at hb; subst hb
      have := List.findIdx_eq_length.1 hp a ha
      simpa using this
    · exact u2
    · exact u3
    · exact u4
    · intro k hk
      rcases List.mem_append.1 hk with h3 | h3
      · exact Or.inl h3
      · exact Or.inr (by simpa using h3)
    · right
      rw [← hi.len]; simp
  · have hlt : s.hypotheses.findIdx (fun f => f == h) < s.hypotheses.length := by
      rcases lt_or_eq_of_le (List.findIdx_le_length (p := fun f => f == h) (xs := s.hypotheses)) with h1 | h1
      · exact h1
      · exact absurd h1 hp
    simp only [hp, decide_false, Bool.false_eq_true, if_false]
    exact fin s.hypotheses s.weights _ (s.hypotheses[s.hypotheses.findIdx (fun f => f == h)]) m (by simp [hlt])
      (hbeq _ _ (List.findIdx_getElem (w := hlt))) hprob hi.len (fun _ => rfl) hi.nodup hm hml hmp (fun k hk => Or.inl hk)
      (htype.imp_right fun h2 => absurd (List.findIdx_eq_length.2 fun x hx => by simp [hh, h2.1 d x hx]) hp)

end MLPBoost

end Miniboosts
