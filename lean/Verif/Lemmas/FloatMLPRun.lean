import Verif.Lemmas.FloatMLPEntropy
import Verif.Spec.FloatMLP

/-! # MLPBoost in `f64`: the rounds of a run that returns -/

namespace Miniboosts

namespace MLPBoostF

open F64 CERLPBoostF

variable {H X : Type*}

/-- The regularisation parameter and the limit of the iterations. -/
theorem setup (L : Libm) {S : Examples X ℝ} (hS : GoodSample S) {s : MLPBoostF H} {h ν : ℝ} (hp : MLPBoostF.GoodParams S s h ν) :
    ∃ (η : ℝ) (M : ℕ), preprocess L S s = .ok { s with nSample := S.length, eta := fin η, lpWeights := [], maxIter := M, terminated := M, hypotheses := [], weights := [], gamma := fin 1 } ∧
      1 / 100 ≤ η ∧ η ≤ 9000 ∧ Real.log (S.length / ν) / η ≤ h + 1 / 10 ^ 8 ∧ M ≤ 25 * 10 ^ 6 ∧ 8 * Real.log (S.length / ν) / h ^ 2 - 1 / 1000 ≤ M ∧ (M : ℝ) ≤ 8 * Real.log (S.length / ν) / h ^ 2 + 1001 / 1000 := by
  set c : CERLPBoostF H := { dist := [], eta := fin 0, halfTolerance := s.halfTolerance, nu := s.nu, fwType := .classic, weights := [], hypotheses := [], maxIter := 0, terminated := 0 } with hc
  obtain ⟨η, M, p1, p2⟩ := setup_cap L hS (s := c) (h := h) (ν := ν) ⟨hp.tol, hp.lo, hp.hi, hp.nu, hp.one_le, hp.le, .inl rfl⟩
  refine ⟨η, M, ?_, p2⟩
  unfold CERLPBoostF.preprocess at p1
  rw [hS.valid] at p1
  simp only [regularizationParam, CERLPBoostF.maxLoop, List.length_replicate, hc, Except.ok.injEq, CERLPBoostF.mk.injEq] at p1
  obtain ⟨-, e1, -, -, -, -, -, e2, -⟩ := p1
  unfold preprocess
  rw [hS.valid]
  simp only [maxLoop, e1, e2]

/-- The state after `n` rounds. -/
structure Inv [Classifier H X F64] (S : Examples X ℝ) (wl : WeakLearner F64 H) (h ν η : ℝ) (M n : ℕ) (V : List (ℝ × H)) (s : MLPBoostF H) : Prop where
  weights : s.weights = V.map fun v => fin v.1
  hyps : s.hypotheses = V.map Prod.snd
  eta : s.eta = fin η
  nu : s.nu = fin ν
  tol : s.halfTolerance = fin h
  lim : s.maxIter = M
  len : V.length ≤ n
  pos : ∀ v ∈ V, 0 ≤ v.1
  ok : ∀ v ∈ V, ConfOk S v.2
  first : n = 0 → V = []
  sum : n ≠ 0 → |(V.map Prod.fst).sum - 1| ≤ 2 / 10 ^ 5
  lp : n ≠ 0 → s.lpWeights.length = s.hypotheses.length
  gamma : ∃ g : ℝ, s.gamma = fin g ∧ |g| ≤ 2 ∧ (n = 0 → g = 1) ∧ (n ≠ 0 → ∀ ρ : ℝ, (∀ it d, NearCapped ν S.length d → ρ ≤ exactEdge S d (wl it d)) → ρ - 2 / 10 ^ 5 ≤ g)

theorem minNum_fin (a b : ℝ) : minNum (fin a) (fin b) = fin (min a b) := by
  classical
  unfold minNum
  rw [if_neg (by simp), if_neg (by simp)]
  by_cases h : a ≤ b
  · rw [if_pos (show Le (fin a) (fin b) from h), min_eq_left h]
  · rw [if_neg (show ¬ Le (fin a) (fin b) from h), min_eq_right (le_of_not_ge h)]

theorem nextIterate_length [Classifier H X F64] {other : FWType → Nat → List F64 → List H → Nat → List F64 → Except Panic (List F64)}
    (hother : ∀ t n d hs pos ws r, other t n d hs pos ws = .ok r → r.length = ws.length) {S : Examples X ℝ} {t : FWType} {η : F64} {n : ℕ} {d : List F64} {hs : List H} {pos : ℕ} {ws r : List F64}
    (hl : ws.length = hs.length) (h : nextIterate other t η n S d hs pos ws = .ok r) : r.length = hs.length := by
  have hip : ∀ x, F64.interiorPoint x pos ws = .ok r → r.length = hs.length := by
    intro x hx
    unfold F64.interiorPoint at hx
    split at hx
    · rw [Except.ok.injEq] at hx
      rw [← hx, List.length_mapIdx, hl]
    · cases hx
  unfold nextIterate at h
  split at h
  · cases h
  · split at h
    · exact hip _ h
    · split at h
      · rename_i h1
        rw [Except.ok.injEq] at h
        rw [← h, h1]
        rfl
      · exact hip _ h
    · rw [hother _ _ _ _ _ _ _ h, hl]

/-- The smoothed objective in `f64`, if it is computed. -/
theorem objval_near [Classifier H X F64] (L : Libm) {S : Examples X ℝ} (hS : GoodSample S) {V : List (ℝ × H)} (hV : ∀ v ∈ V, 0 ≤ v.1 ∧ ConfOk S v.2) (hs : (V.map Prod.fst).sum ≤ 1 + 2 / 10 ^ 5)
    (hl : V.length ≤ 3 * 10 ^ 7) {η ν : ℝ} (h1 : 1 / 100 ≤ η) (h2 : η ≤ 9000) (hν1 : 1 ≤ ν) (hν2 : ν ≤ 10 ^ 5) {r : F64}
    (h : objval L S (fin η) (fin ν) (V.map Prod.snd) (V.map fun v => fin v.1) = .ok r) :
    ∃ v : ℝ, r = fin v ∧ |v| ≤ 10 ^ 6 ∧ (∃ d, NearCapped ν S.length d ∧ F64.expDistributionFromMargins L (fin η) (fin ν) (F64.weightedMargins S (V.map fun v => fin v.1) (V.map Prod.snd)) = .ok d) ∧
      (∃ (xs : List ℝ) (a : X × ℝ → ℝ), xs.length = S.length ∧ |xs.sum - 1| ≤ 11 / 10 ^ 6 ∧ (∀ x ∈ xs, 0 ≤ x) ∧ (∀ e ∈ S, |a e - e.2 * voteAt V e.1| ≤ 1 / 10 ^ 7) ∧
        |v - ((List.zipWith (fun x e => x * a e) xs S).sum + (xlogs xs + Real.log S.length) / η)| ≤ 2 / 10 ^ 4) ∧
      ∀ q : List ℝ, q.length = S.length → Spec.IsCapped ν q →
        v - Real.log (S.length / ν) / η - 15 / 10 ^ 5 - 83 / 10 ^ 5 / η ≤ (List.zipWith (fun x e => x * (e.2 * voteAt V e.1)) q S).sum := by
  have hu := u_small
  have hu0 := u_pos
  have hηu := eta_le_u
  have hη0 : 0 < η := by linarith
  have hne : S ≠ [] := by intro h; have := hS.two; rw [h] at this; simp at this
  unfold objval at h
  split at h
  · cases h
  · rename_i dist hdist
    obtain ⟨xs, p, a, a1, x1, x2, x3, x4, a2, x5, x6, x7⟩ := dist_cap_loose L hS.labels hS.few hV hs hl h1 h2 hν1 hν2 hdist
    subst x1
    rw [Except.ok.injEq] at h
    have hx0 : ∀ x ∈ xs, 0 ≤ x := fun x hx => (x3 x hx).1
    have x4' := abs_le.mp x4
    have hxs : xs.sum ≤ 3 / 2 := by linarith
    have hx2 : ∀ x ∈ xs, x ≤ 2 := by
      intro x hx
      refine (x3 x hx).2.trans ?_
      rw [div_le_iff₀ (by linarith)]
      norm_num
      linarith
    obtain ⟨eo, o1, -, o3⟩ := edgeOf_near (S := S) (f := a) (fun e he => (a2 e he).2.trans (by norm_num)) x2 hx0 hxs hS.few
    have hxne : xs ≠ [] := by rw [← List.length_pos_iff, x2]; exact List.length_pos_iff.2 hne
    obtain ⟨en, n1, n2, n3⟩ := entropyFromUni_near L hxne (by rw [x2]; exact hS.few) (fun x hx => ⟨hx0 x hx, hx2 x hx, x7 x hx⟩) hxs
    rw [x2] at n2
    have o3' := abs_le.mp o3
    set sa := (List.zipWith (fun x e => x * a e) xs S).sum with hsa
    have hsab : |sa| ≤ 2 := by
      have := zipSum_close a (fun _ => 0) (101 / 100) S xs (fun e he => by rw [sub_zero]; exact (a2 e he).2) hx0 x2
      rw [zipSum_zero, sub_zero] at this
      refine this.trans ?_
      nlinarith
    have hsab' := abs_le.mp hsab
    have n2' := abs_le.mp n2
    have hq : |en / η| ≤ 2 * 10 ^ 5 := by
      rw [abs_div, abs_of_pos hη0, div_le_iff₀ hη0]
      nlinarith
    have hq' := abs_le.mp hq
    have hdiv : div (fin en) (fin η) = fin (F64.round (en / η)) := by
      simp only [div, if_neg hη0.ne']
      exact rnd_small (hq.trans (by norm_num))
    have r1 : |F64.round (en / η) - en / η| ≤ 1 / 10 ^ 9 := by
      refine (round_err _).trans ?_
      calc u * |en / η| + F64.eta ≤ (1 / 9000000000000000) * (2 * 10 ^ 5) + 1 / 9000000000000000 := by gcongr; linarith
        _ ≤ _ := by norm_num
    have r1' := abs_le.mp r1
    have hsum : |eo + F64.round (en / η)| ≤ 3 * 10 ^ 5 := by rw [abs_le]; constructor <;> (norm_num at *; linarith)
    have r2 : |F64.round (eo + F64.round (en / η)) - (eo + F64.round (en / η))| ≤ 1 / 10 ^ 9 := by
      refine (round_err _).trans ?_
      calc u * |eo + F64.round (en / η)| + F64.eta ≤ (1 / 9000000000000000) * (3 * 10 ^ 5) + 1 / 9000000000000000 := by gcongr; linarith
        _ ≤ _ := by norm_num
    have r2' := abs_le.mp r2
    have hsum' := abs_le.mp hsum
    have hr : r = fin (F64.round (eo + F64.round (en / η))) := by
      rw [← h, a1, o1, n1, hdiv]
      exact rnd_small (hsum.trans (by norm_num))
    have hent : |en / η - (xlogs xs + Real.log S.length) / η| ≤ 1 / 10 ^ 4 := by
      rw [← sub_div, abs_div, abs_of_pos hη0, div_le_iff₀ hη0]
      refine n2.trans ?_
      nlinarith
    have hent' := abs_le.mp hent
    refine ⟨_, hr, ?_, ⟨xs.map fin, ⟨xs, rfl, x2, x3, x4, x7⟩, hdist⟩, ⟨xs, a, x2, x4, hx0, fun e he => (a2 e he).1, ?_⟩, ?_⟩
    · rw [abs_le]; constructor <;> (norm_num at *; linarith)
    · rw [abs_le]; constructor <;> (norm_num at *; linarith)
    · intro q q1 q2
      have m := capped_margin_ent hne hS.few (fun e he => (a2 e he).2) h1 h2 hν1 x2 (fun x hx => ⟨hx0 x hx, hx2 x hx⟩) x5 x6 q1 q2
      have k := abs_le.mp (zipSum_close a (fun e => e.2 * voteAt V e.1) (1 / 10 ^ 7) S q (fun e he => (a2 e he).1) (fun x hx => (q2.1 x hx).1) q1)
      rw [q2.2, mul_one] at k
      have : (1 : ℝ) / 10 ^ 7 + 4 / 10 ^ 5 + 1 / 10 ^ 4 + 3 / 10 ^ 9 ≤ 15 / 10 ^ 5 := by norm_num
      rw [← hsa] at m
      linarith [m, k.1, k.2, hent'.2, r1'.2, r2'.2, o3'.2]

/-- The vote picked by the booster has the right length. -/
theorem better_length [Classifier H X F64] {L : Libm} {S : Examples X ℝ} {η ν : F64} {hs : List H} {w1 w2 w : List F64} {k : ℕ} (h1 : w1.length = k) (h2 : w2.length = k)
    (h : betterWeight L S η ν hs w1 w2 = .ok w) : w.length = k := by
  unfold betterWeight at h
  split at h
  · cases h
  · split at h
    · cases h
    · rw [Except.ok.injEq] at h
      rw [← h]
      split <;> assumption

/-- A round, if it is computed. -/
theorem round_mlp [Classifier H X F64] [BEq H] (L : Libm) {other : FWType → Nat → List F64 → List H → Nat → List F64 → Except Panic (List F64)}
    (hother : ∀ t n d hs pos ws r, other t n d hs pos ws = .ok r → r.length = ws.length) {lp : Lp H} (hlp : ∀ η c hs r, lp η c hs = .ok r → r.length = hs.length)
    {S : Examples X ℝ} (hS : GoodSample S) {h ν : ℝ} (hlo : 2 / 1000 ≤ h) (hhi : h ≤ 1 / 2) (hν1 : 1 ≤ ν) (hνle : ν ≤ 99 / 100 * S.length) {wl : WeakLearner F64 H}
    (hwl : ∀ it d, NearCapped ν S.length d → ConfOk S (wl it d)) {η : ℝ} (h1 : 1 / 100 ≤ η) (h2 : η ≤ 9000)
    (hη : Real.log (S.length / ν) / η ≤ h + 1 / 10 ^ 8) {M : ℕ} (hM : M ≤ 25 * 10 ^ 6) {n : ℕ} {V : List (ℝ × H)} {s : MLPBoostF H} (i : Inv S wl h ν η M n V s) (hnM : n ≤ M) {out}
    (hb : boost L other lp S s wl (n + 1) = .ok out) :
    (n = M ∧ out.flow ≠ .cont ∧ out.state = s ∧ out.queries = []) ∨ (n < M ∧ ∃ d, NearCapped ν S.length d ∧ out.queries = [d] ∧
      ((n ≠ 0 ∧ out.flow ≠ .cont ∧ out.state.weights = s.weights ∧ out.state.hypotheses = s.hypotheses ∧
          ∀ ρ : ℝ, (∀ it d, NearCapped ν S.length d → ρ ≤ exactEdge S d (wl it d)) → ∀ q : List ℝ, q.length = S.length → Spec.IsCapped ν q →
            ρ - 2 * h - 18 / 10 ^ 5 - 83 / 10 ^ 5 / η ≤ (List.zipWith (fun x e => x * (e.2 * voteAt V e.1)) q S).sum) ∨
        (out.flow = .cont ∧ ∃ V', Inv S wl h ν η M (n + 1) V' out.state))) := by
  classical
  have hu := u_small
  have hu0 := u_pos
  have hηu := eta_le_u
  have hN : (S.length : ℝ) ≤ 10 ^ 5 := by exact_mod_cast hS.few
  have hν2 : ν ≤ 10 ^ 5 := by linarith
  have hlen : V.length ≤ 25 * 10 ^ 6 := by have := i.len; omega
  have hs1 : (V.map Prod.fst).sum ≤ 1 + 2 / 10 ^ 5 := by
    by_cases h0 : n = 0
    · rw [i.first h0]; simp; positivity
    · have := (abs_le.mp (i.sum h0)).2; linarith
  have hV : ∀ v ∈ V, 0 ≤ v.1 ∧ ConfOk S v.2 := fun v hv => ⟨i.pos v hv, i.ok v hv⟩
  have hne : S ≠ [] := by intro h; have := hS.two; rw [h] at this; simp at this
  obtain ⟨g, g1, g2, g3, g4⟩ := i.gamma
  unfold boost at hb
  split at hb
  · rename_i hlt
    rw [i.lim] at hlt
    rw [Except.ok.injEq] at hb
    subst hb
    exact .inl ⟨by omega, by simp, rfl, rfl⟩
  · rename_i hlt
    rw [i.lim] at hlt
    right
    refine ⟨by omega, ?_⟩
    split at hb
    · cases hb
    · rename_i dist hdist
      rw [i.eta, i.nu, i.weights, i.hyps] at hdist
      obtain ⟨xs, p, a, a1, x1, x2, x3, x4, a2, x5, x6, x7⟩ := dist_cap_loose L hS.labels hS.few hV hs1 (by omega) h1 h2 hν1 hν2 hdist
      subst x1
      have hd : NearCapped ν S.length (xs.map fin) := ⟨xs, rfl, x2, x3, x4, x7⟩
      have hx0 : ∀ x ∈ xs, 0 ≤ x := fun x hx => (x3 x hx).1
      have x4' := abs_le.mp x4
      have hxs : xs.sum ≤ 3 / 2 := by linarith
      dsimp only at hb
      set f := wl (n + 1) (xs.map fin) with hf
      have hfc : ConfOk S f := hwl (n + 1) _ hd
      refine ⟨xs.map fin, hd, ?_⟩
      obtain ⟨b, b1, b2⟩ := margins_near hS.labels hfc
      obtain ⟨en, n1, -, n3⟩ := edgeOf_near (S := S) (f := b) (fun e he => (b2 e he).2.trans (by norm_num)) x2 hx0 hxs hS.few
      have n3' := abs_le.mp n3
      set sb := (List.zipWith (fun x e => x * b e) xs S).sum with hsb
      have hsbb : |sb| ≤ 1 + 11 / 10 ^ 6 := by
        have := zipSum_close b (fun _ => 0) 1 S xs (fun e he => by rw [sub_zero]; exact (b2 e he).2) hx0 x2
        rw [zipSum_zero, sub_zero] at this
        refine this.trans ?_
        linarith
      have hsbb' := abs_le.mp hsbb
      have hedge : |sb - exactEdge S (xs.map fin) f| ≤ 1 / 10 ^ 10 := by
        rw [exactEdge_map]
        refine (zipSum_close b (fun e => e.2 * (conf f e.1).val) (2 * u) S xs (fun e he => (b2 e he).1) hx0 x2).trans ?_
        calc 2 * u * xs.sum ≤ 2 * (1 / 9000000000000000) * (3 / 2) := by gcongr; exact List.sum_nonneg hx0
          _ ≤ _ := by norm_num
      have hedge' := abs_le.mp hedge
      have hgnew : minNum s.gamma (edgeOf (F64.margins S f) (xs.map fin)) = fin (min g en) := by rw [g1, b1, n1, minNum_fin]
      have g2' := abs_le.mp g2
      have hen : |en| ≤ 2 := by rw [abs_le]; constructor <;> (norm_num at *; linarith)
      have hen' := abs_le.mp hen
      have hgb : |min g en| ≤ 2 := by rw [abs_le]; exact ⟨le_min g2'.1 hen'.1, (min_le_left _ _).trans g2'.2⟩
      have hgρ : ∀ ρ : ℝ, (∀ it d, NearCapped ν S.length d → ρ ≤ exactEdge S d (wl it d)) → ρ - 2 / 10 ^ 5 ≤ min g en := by
        intro ρ hρ
        have hρe := hρ (n + 1) _ hd
        rw [← hf] at hρe
        refine le_min ?_ (by norm_num at *; linarith)
        by_cases h0 : n = 0
        · rw [g3 h0]; norm_num at *; linarith
        · exact g4 h0 ρ hρ
      rw [hgnew] at hb
      have hgam : ∃ g' : ℝ, fin (min g en) = fin g' ∧ |g'| ≤ 2 ∧ (n + 1 = 0 → g' = 1) ∧
          (n + 1 ≠ 0 → ∀ ρ : ℝ, (∀ it d, NearCapped ν S.length d → ρ ≤ exactEdge S d (wl it d)) → ρ - 2 / 10 ^ 5 ≤ g') := ⟨_, rfl, hgb, by omega, fun _ => hgρ⟩
      split at hb
      · rename_i hfirst
        have h0 : n = 0 := by omega
        split at hb
        · cases hb
        · rename_i seco hseco
          rw [Except.ok.injEq] at hb
          subst hb
          have hV0 := i.first h0
          have hw0 : s.weights = [] := by rw [i.weights, hV0]; rfl
          have hh0 : s.hypotheses = [] := by rw [i.hyps, hV0]; rfl
          refine ⟨rfl, .inr ⟨rfl, [(1, f)], ?_⟩⟩
          refine ⟨by rw [hw0]; rfl, by rw [hh0]; rfl, i.eta, i.nu, i.tol, i.lim, by simp, by simp, by simpa using hfc, by omega, fun _ => by norm_num, fun _ => hlp _ _ _ _ hseco, hgam⟩
      · rename_i hfirst
        have h0 : n ≠ 0 := by omega
        split at hb
        · cases hb
        · rename_i v hv
          rw [i.eta, i.nu, i.hyps, i.weights] at hv
          obtain ⟨v, rfl, v2, -, -, v3⟩ := objval_near L hS hV hs1 (by omega) h1 h2 hν1 hν2 hv
          split at hb
          · rename_i hle
            rw [Except.ok.injEq] at hb
            subst hb
            refine ⟨rfl, .inl ⟨h0, by simp, rfl, rfl, ?_⟩⟩
            intro ρ hρ q q1 q2
            have h7 := hgρ ρ hρ
            generalize min g en = G at hle hgb h7
            have hgb' := abs_le.mp hgb
            have v2' := abs_le.mp v2
            have hb5 : |G + -v| ≤ 2 * 10 ^ 6 := by rw [abs_le]; constructor <;> linarith
            have hsub : sub (fin (G)) (fin v) = fin (F64.round (G + -v)) := rnd_small (hb5.trans (by norm_num))
            have hgr : |F64.round (G + -v) - (G + -v)| ≤ 1 / 10 ^ 9 := by
              refine (round_err _).trans ?_
              calc u * |G + -v| + F64.eta ≤ (1 / 9000000000000000) * (2 * 10 ^ 6) + 1 / 9000000000000000 := by gcongr; linarith
                _ ≤ _ := by norm_num
            have hgr' := abs_le.mp hgr
            rw [hsub, i.tol] at hle
            have hle' : F64.round (G + -v) ≤ h := hle
            have h6 := v3 q q1 q2
            have : (2 : ℝ) / 10 ^ 5 + 1 / 10 ^ 8 + 15 / 10 ^ 5 + 1 / 10 ^ 9 ≤ 18 / 10 ^ 5 := by norm_num
            linarith [hgr'.1]
          · have hwl' : s.weights.length = s.hypotheses.length := by rw [i.weights, i.hyps, List.length_map, List.length_map]
            set pos := s.hypotheses.findIdx (fun g => g == f) with hpos
            set hs := (if pos = s.hypotheses.length then s.hypotheses ++ [f] else s.hypotheses) with hhs
            have hlen' : (if pos = s.hypotheses.length then s.weights ++ [fin 0] else s.weights).length = hs.length := by
              rw [hhs]; split <;> simp [hwl']
            have hhs2 : hs.length ≤ n + 1 := by
              have h3 : s.hypotheses.length ≤ n := by rw [i.hyps, List.length_map]; exact i.len
              rw [hhs]; split
              · simp; omega
              · omega
            have hhs3 : ∀ k ∈ hs, ConfOk S k := by
              have h3 : ∀ k ∈ s.hypotheses, ConfOk S k := by
                rw [i.hyps]
                intro k hk
                obtain ⟨v, hv, rfl⟩ := List.mem_map.mp hk
                exact i.ok v hv
              intro k hk
              rw [hhs] at hk
              split at hk
              · rcases List.mem_append.mp hk with hk | hk
                · exact h3 k hk
                · rw [List.mem_singleton] at hk; subst hk; exact hfc
              · exact h3 k hk
            split at hb
            · cases hb
            · rename_i prim hprim
              have l1 := nextIterate_length hother hlen' hprim
              split at hb
              · cases hb
              · rename_i seco hseco
                have l2 : seco.length = hs.length := by
                  split at hseco
                  · exact hlp _ _ _ _ hseco
                  · rename_i hnew
                    rw [Except.ok.injEq] at hseco
                    rw [← hseco, i.lp h0, hhs, if_neg hnew]
                split at hb
                · cases hb
                · rename_i w hw
                  have l3 := better_length l1 l2 hw
                  split at hb
                  · cases hb
                  · rename_i hchk
                    obtain ⟨ws, w1, w2, w3⟩ := check_weights (by omega) hchk
                    rw [Except.ok.injEq] at hb
                    subst hb
                    have l4 : ws.length = hs.length := by rw [← l3, w1, List.length_map]
                    have z1 : (List.zip ws hs).map Prod.fst = ws := List.map_fst_zip (by omega)
                    have z2 : (List.zip ws hs).map Prod.snd = hs := List.map_snd_zip (by omega)
                    refine ⟨rfl, .inr ⟨rfl, List.zip ws hs, ?_⟩⟩
                    refine ⟨?_, z2.symm, i.eta, i.nu, i.tol, i.lim, by simp; omega, fun v hv => (w2 v.1 (List.of_mem_zip hv).1).1, fun v hv => hhs3 v.2 (List.of_mem_zip hv).2, by omega,
                      fun _ => by rw [z1]; exact w3, fun _ => l2, hgam⟩
                    change w = _
                    rw [w1]
                    conv_lhs => rw [← z1]
                    rw [List.map_map]
                    rfl

/-- Between the rounds of a run. -/
theorem reach_mlp [Classifier H X F64] [BEq H] (L : Libm) {other : FWType → Nat → List F64 → List H → Nat → List F64 → Except Panic (List F64)}
    (hother : ∀ t n d hs pos ws r, other t n d hs pos ws = .ok r → r.length = ws.length) {lp : Lp H} (hlp : ∀ η c hs r, lp η c hs = .ok r → r.length = hs.length)
    {S : Examples X ℝ} (hS : GoodSample S) {s : MLPBoostF H} {h ν : ℝ} (hp : MLPBoostF.GoodParams S s h ν) {wl : WeakLearner F64 H} (hwl : ∀ it d, NearCapped ν S.length d → ConfOk S (wl it d))
    {η : ℝ} (h1 : 1 / 100 ≤ η) (h2 : η ≤ 9000) (hη : Real.log (S.length / ν) / η ≤ h + 1 / 10 ^ 8) {M : ℕ} (hM : M ≤ 25 * 10 ^ 6)
    (hpre : preprocess L S s = .ok { s with nSample := S.length, eta := fin η, lpWeights := [], maxIter := M, terminated := M, hypotheses := [], weights := [], gamma := fin 1 })
    {n qs s₁} (hr : (booster L other lp S).Reachable wl s n qs s₁) : n ≤ M ∧ qs.length = n ∧ (∀ q ∈ qs, NearCapped ν S.length q) ∧ ∃ V, Inv S wl h ν η M n V s₁ := by
  induction hr with
  | start h0 =>
    have h0' : preprocess L S s = _ := h0
    rw [hpre, Except.ok.injEq] at h0'
    subst h0'
    exact ⟨by omega, rfl, by simp, [], rfl, rfl, rfl, hp.nu, hp.tol, rfl, le_rfl, by simp, by simp, fun _ => rfl, fun h => absurd rfl h, fun h => absurd rfl h,
      1, rfl, by norm_num, fun _ => rfl, fun h => absurd rfl h⟩
  | step _ hb hc ih =>
    obtain ⟨i1, i2, i3, V, i4⟩ := ih
    rcases round_mlp L hother hlp hS hp.lo hp.hi hp.one_le hp.le hwl h1 h2 hη hM i4 i1 hb with ⟨-, h3, -⟩ | ⟨h3, d, d1, d2, ⟨-, h4, -⟩ | ⟨-, V', h4⟩⟩
    · exact absurd hc h3
    · exact absurd hc h4
    · refine ⟨h3, by rw [d2]; simp [i2], ?_, V', h4⟩
      intro q hq
      rw [d2] at hq
      rcases List.mem_append.mp hq with h | h
      · exact i3 q h
      · rw [List.mem_singleton] at h; subst h; exact d1

end MLPBoostF

end Miniboosts
