import Verif.Lemmas.FloatCERLPCapRun

/-! # CERLPBoost in `f64` with a cap: the rounds of a run that returns -/

namespace Miniboosts

namespace CERLPBoostF

open F64

variable {H X : Type*}

theorem round_cap_le {ν : ℝ} (h1 : 1 ≤ ν) (h2 : ν ≤ 10 ^ 5) : F64.round (1 / ν) ≤ (1 + 1 / 10 ^ 15) / ν := by
  have hu := u_small
  have hη := eta_tiny
  have hν : 0 < ν := by linarith
  have h3 := (abs_le.mp (round_err (1 / ν))).2
  rw [abs_of_pos (by positivity)] at h3
  rw [le_div_iff₀ hν]
  have h4 : (F64.round (1 / ν) - 1 / ν) * ν ≤ (u * (1 / ν) + F64.eta) * ν := mul_le_mul_of_nonneg_right h3 hν.le
  have h5 : (F64.round (1 / ν) - 1 / ν) * ν = F64.round (1 / ν) * ν - 1 := by field_simp
  have h6 : (u * (1 / ν) + F64.eta) * ν = u + F64.eta * ν := by field_simp
  have h7 : F64.eta * ν ≤ 1 / 10 ^ 60 * 10 ^ 5 := mul_le_mul hη h2 hν.le (by norm_num)
  have h8 : (1 : ℝ) / 10 ^ 60 * 10 ^ 5 + 1 / 9000000000000000 ≤ 1 / 10 ^ 15 := by norm_num
  linarith

/-- The weights of a round, if they are computed. -/
theorem dist_cap [Classifier H X F64] (L : Libm) {S : Examples X ℝ} (hS : ∀ e ∈ S, e.2 = 1 ∨ e.2 = -1) (hn : S.length ≤ 10 ^ 5)
    {V : List (ℝ × H)} (hV : ∀ v ∈ V, 0 ≤ v.1 ∧ ConfOk S v.2) (hs : (V.map Prod.fst).sum ≤ 1 + 1 / 10 ^ 6) (hl : V.length ≤ 3 * 10 ^ 7) {η ν : ℝ} (h1 : 1 / 100 ≤ η) (h2 : η ≤ 9000)
    (hν1 : 1 ≤ ν) (hν2 : ν ≤ 10 ^ 5) {r : List F64}
    (h : F64.expDistributionFromMargins L (fin η) (fin ν) (F64.weightedMargins S (V.map fun v => fin v.1) (V.map Prod.snd)) = .ok r) :
    ∃ (xs p : List ℝ) (a : X × ℝ → ℝ), F64.weightedMargins S (V.map fun v => fin v.1) (V.map Prod.snd) = S.map (fun e => fin (a e)) ∧ r = xs.map fin ∧
      xs.length = S.length ∧ (∀ x ∈ xs, 0 ≤ x ∧ x ≤ (1 + 1 / 10 ^ 15) / ν) ∧ |xs.sum - 1| ≤ 11 / 10 ^ 6 ∧ (∀ e ∈ S, |a e - e.2 * voteAt V e.1| ≤ 1 / 10 ^ 7 ∧ |a e| ≤ 101 / 100) ∧
      Spec.IsEntropyProjection ν (S.map fun e => F64.round (-η * a e)) p ∧ Spec.dist1 xs p ≤ 3 / 10 ^ 5 ∧ ∀ x ∈ xs, F64.Rep x := by
  obtain ⟨a, a1, a2⟩ := weightedMargins_near hS hV (by norm_num at hs ⊢; linarith) (by omega)
  have hlr : (V.length : ℝ) ≤ 3 * 10 ^ 7 := by exact_mod_cast hl
  have herr : (2 : ℝ) / 10 ^ 15 * (V.length + 4) ≤ 1 / 10 ^ 7 := by
    calc (2 : ℝ) / 10 ^ 15 * (V.length + 4) ≤ 2 / 10 ^ 15 * (3 * 10 ^ 7 + 4) := by gcongr
      _ ≤ _ := by norm_num
  have hb : ∀ e ∈ S, |a e| ≤ 101 / 100 := by
    intro e he
    have h3 := abs_le.mp ((a2 e he).2.trans herr)
    have h4 : |e.2 * voteAt V e.1| ≤ 1 + 1 / 10 ^ 6 := by rw [pm_abs (hS e he)]; exact (voteAt_abs hV e he).trans hs
    have h5 := abs_le.mp h4
    rw [abs_le]; constructor <;> linarith
  have hlog : ∀ e ∈ S, |-η * a e| ≤ 9500 := by
    intro e he
    rw [abs_mul, abs_neg, abs_of_pos (by linarith)]
    have := hb e he
    calc η * |a e| ≤ 9000 * (101 / 100) := by gcongr
      _ ≤ _ := by norm_num
  have hu := u_small
  have hu0 := u_pos
  have hη := eta_le_u
  have hlog' : ∀ e ∈ S, |F64.round (-η * a e)| ≤ 10 ^ 4 := by
    intro e he
    have h3 := round_err (-η * a e)
    have h4 : u * |-η * a e| ≤ u * 9500 := mul_le_mul_of_nonneg_left (hlog e he) hu0.le
    have h5 := abs_le.mp (h3.trans (add_le_add h4 le_rfl))
    have h6 := abs_le.mp (hlog e he)
    rw [abs_le]; constructor <;> linarith
  have hpc : F64.projectCapped L (fin ν) ((S.map fun e => F64.round (-η * a e)).map fin) = .ok r := by
    rw [← h, a1]
    unfold F64.expDistributionFromMargins
    rw [List.map_map, List.map_map]
    congr 1
    refine List.map_congr_left fun e he => ?_
    change _ = rnd (-η * a e)
    rw [rnd_small ((hlog e he).trans (by norm_num))]
    rfl
  obtain ⟨xs, x1, x2, x3, p, p1, p2, p3⟩ := Props.project_f64_sound L ν (S.map fun e => F64.round (-η * a e)) (by simpa using hn)
    (by intro x hx; obtain ⟨e, he, rfl⟩ := List.mem_map.mp hx; exact hlog' e he) hpc
  refine ⟨xs, p, a, a1, x1, ?_, fun x hx => ⟨(x2 x hx).1, (x2 x hx).2.trans (round_cap_le hν1 hν2)⟩, x3, fun e he => ⟨(a2 e he).2.trans herr, hb e he⟩, p1, p3, ?_⟩
  · rw [p2, p1.1, List.length_map]
  · rw [x1] at hpc
    exact projected_double L ν (by intro x hx; obtain ⟨e, he, rfl⟩ := List.mem_map.mp hx; exact rep_round _) hpc

/-- The step of a round, if it is computed. -/
theorem nextIterate_shape [Classifier H X F64] (other : FWType → Nat → List F64 → List H → Nat → List F64 → Except Panic (List F64)) {S : Examples X ℝ} {t : FWType}
    (ht : t = .classic ∨ t = .shortStep) {η : F64} {n : ℕ} (hn : n ≤ 25 * 10 ^ 6) {d : List F64}
    (A : List (ℝ × H)) (v : ℝ × H) (B : List (ℝ × H)) (hrep : ∀ w ∈ A ++ v :: B, F64.Rep w.1 ∧ 0 ≤ w.1) (hlen : (A ++ v :: B).length ≤ n + 1)
    (hsum : (n = 0 ∧ A = [] ∧ B = [] ∧ v.1 = 0) ∨ (n ≠ 0 ∧ |((A ++ v :: B).map Prod.fst).sum - 1| ≤ 14 * u * n)) {ws : List F64}
    (h : nextIterate other t η (n + 1) S d ((A ++ v :: B).map Prod.snd) A.length ((A ++ v :: B).map fun w => fin w.1) = .ok ws) :
    ∃ V' : List (ℝ × H), ws = (V'.map fun w => fin w.1) ∧ V'.map Prod.snd = (A ++ v :: B).map Prod.snd ∧ (∀ w ∈ V', F64.Rep w.1 ∧ 0 ≤ w.1) ∧ |(V'.map Prod.fst).sum - 1| ≤ 14 * u * (n + 1 : ℕ) := by
  have hu := u_small
  have hu0 := u_pos
  have hnr : (n : ℝ) ≤ 25 * 10 ^ 6 := by exact_mod_cast hn
  have hn0 : (0 : ℝ) ≤ n := Nat.cast_nonneg n
  have hbig : 14 * u * (n : ℝ) ≤ 1 / 10 ^ 6 := by
    calc 14 * u * (n : ℝ) ≤ 14 * (1 / 9000000000000000) * (25 * 10 ^ 6) := by gcongr
      _ ≤ _ := by norm_num
  have hs32 : ((A ++ v :: B).map Prod.fst).sum ≤ 3 / 2 := by
    rcases hsum with ⟨-, rfl, rfl, hv⟩ | ⟨-, hv⟩
    · simp [hv]; norm_num
    · have := (abs_le.mp hv).2; linarith
  have hget : ((A ++ v :: B).map Prod.snd)[A.length]? = some v.2 := by simp
  have main : ∀ x : F64, F64.interiorPoint x A.length ((A ++ v :: B).map fun w => fin w.1) = .ok ws → (n = 0 → x = fin 1) →
      ∃ V' : List (ℝ × H), ws = (V'.map fun w => fin w.1) ∧ V'.map Prod.snd = (A ++ v :: B).map Prod.snd ∧ (∀ w ∈ V', F64.Rep w.1 ∧ 0 ≤ w.1) ∧ |(V'.map Prod.fst).sum - 1| ≤ 14 * u * (n + 1 : ℕ) := by
    intro x hx h1
    obtain ⟨r, rfl, hr0, hr1⟩ := interior_shape hx
    obtain ⟨V', e1, e2, e3, e4⟩ := step_weights hr0 hr1 A v B hrep hs32 (by omega)
    rw [e1, Except.ok.injEq] at hx
    refine ⟨V', hx.symm, e2, e3, ?_⟩
    rcases hsum with ⟨rfl, rfl, rfl, h⟩ | ⟨-, h⟩
    · have hone : r = 1 := by have := h1 rfl; rwa [fin.injEq] at this
      rw [hone] at e4
      simp only [sub_self, zero_mul, zero_add] at e4
      simpa using e4
    · set W₁ := ((A ++ v :: B).map Prod.fst).sum with hW₁
      have h5 : |(1 - r) * W₁ + r - 1| ≤ 14 * u * n := by
        rw [show (1 - r) * W₁ + r - 1 = (1 - r) * (W₁ - 1) by ring, abs_mul, abs_of_nonneg (by linarith)]
        calc (1 - r) * |W₁ - 1| ≤ 1 * (14 * u * n) := mul_le_mul (by linarith) h (abs_nonneg _) (by norm_num)
          _ = _ := one_mul _
      have := abs_sub_le (V'.map Prod.fst).sum ((1 - r) * W₁ + r) 1
      push_cast
      linarith
  unfold nextIterate at h
  rw [hget] at h
  rcases ht with rfl | rfl
  · refine main _ h ?_
    rintro rfl
    rw [rnd_nat_long (by omega)]
    simp only [div]
    norm_num
    rw [rnd_small (by norm_num), round_of_rep rep_one]
  · simp only at h
    by_cases hl1 : ((A ++ v :: B).map Prod.snd).length = 1
    · rw [if_pos hl1, Except.ok.injEq] at h
      refine ⟨[(1, v.2)], by rw [← h]; simp, ?_, ?_, ?_⟩
      · rw [List.length_map] at hl1
        have h3 : A = [] ∧ B = [] := by
          simp at hl1
          constructor <;> apply List.length_eq_zero_iff.mp <;> omega
        simp [h3.1, h3.2]
      · intro w hw; simp at hw; subst hw; exact ⟨rep_one, by norm_num⟩
      · simp; positivity
    · rw [if_neg hl1] at h
      refine main _ h ?_
      rintro rfl
      exfalso
      rcases hsum with ⟨-, rfl, rfl, -⟩ | ⟨h, -⟩
      · simp at hl1
      · exact h rfl

set_option maxHeartbeats 800000 in
/-- One round, if it returns. -/
theorem round_cap [Classifier H X F64] [BEq H] (L : Libm) (other : FWType → Nat → List F64 → List H → Nat → List F64 → Except Panic (List F64))
    {S : Examples X ℝ} (hS : GoodSample S) {s₀ : CERLPBoostF H} {h ν : ℝ} (hp : CappedParams S s₀ h ν) {wl : WeakLearner F64 H} (hwl : ∀ it d, NearCapped ν S.length d → ConfOk S (wl it d))
    {η : ℝ} (h1 : 1 / 100 ≤ η) (h2 : η ≤ 9000)
    (hη : Real.log (S.length / ν) / η ≤ h + 1 / 10 ^ 8) {M : ℕ} (hM : M ≤ 25 * 10 ^ 6) {n : ℕ} {V : List (ℝ × H)} {s : CERLPBoostF H} (i : Inv S s₀ η M n V s) (hnM : n ≤ M) {out}
    (hb : boost L other S s wl (n + 1) = .ok out) :
    (n = M ∧ out.flow ≠ .cont ∧ out.state = s ∧ out.queries = []) ∨ (n < M ∧ ∃ d, NearCapped ν S.length d ∧ out.queries = [d] ∧
      ((out.flow ≠ .cont ∧ out.state.weights = s.weights ∧ out.state.hypotheses = s.hypotheses ∧
          ∀ q : List ℝ, q.length = S.length → Spec.IsCapped ν q → exactEdge S d (wl (n + 1) d) - 2 * h - 5 / 10 ^ 5 ≤ (List.zipWith (fun x e => x * (e.2 * voteAt V e.1)) q S).sum) ∨
        (out.flow = .cont ∧ ∃ V', Inv S s₀ η M (n + 1) V' out.state))) := by
  classical
  have hu := u_small
  have hu0 := u_pos
  have hlo := hp.lo
  have hhi := hp.hi
  have hν1 := hp.one_le
  have hN : (S.length : ℝ) ≤ 10 ^ 5 := by exact_mod_cast hS.few
  have hν2 : ν ≤ 10 ^ 5 := by have := hp.le; linarith
  have hlen : V.length ≤ 25 * 10 ^ 6 := by have := i.len; omega
  obtain ⟨hs1, hs2⟩ := i.sum_le (by omega)
  have hV : ∀ v ∈ V, 0 ≤ v.1 ∧ ConfOk S v.2 := fun v hv => ⟨(i.rep v hv).2, i.ok v hv⟩
  have hne : S ≠ [] := by intro h; have := hS.two; rw [h] at this; simp at this
  unfold boost at hb
  split at hb
  · rename_i hlt
    rw [i.lim] at hlt
    rw [Except.ok.injEq] at hb
    subst hb
    exact .inl ⟨by omega, by simp, rfl, rfl⟩
  · rename_i hlt
    rw [i.lim] at hlt
    right
    refine ⟨by omega, ?_⟩
    split at hb
    · cases hb
    · rename_i dist hdist
      rw [i.eta, i.nu, hp.nu, i.weights, i.hyps] at hdist
      obtain ⟨xs, p, a, a1, x1, x2, x3, x4, a2, x5, x6, x7⟩ := dist_cap L hS.labels hS.few hV hs1 (by omega) h1 h2 hν1 hν2 hdist
      subst x1
      have hd : NearCapped ν S.length (xs.map fin) := ⟨xs, rfl, x2, x3, x4, x7⟩
      have hx0 : ∀ x ∈ xs, 0 ≤ x := fun x hx => (x3 x hx).1
      have x4' := abs_le.mp x4
      have hxs : xs.sum ≤ 3 / 2 := by linarith
      dsimp only at hb
      set f := wl (n + 1) (xs.map fin) with hf
      have hfc : ConfOk S f := hwl (n + 1) _ hd
      refine ⟨xs.map fin, hd, ?_⟩
      split at hb
      · rename_i hle
        rw [Except.ok.injEq] at hb
        subst hb
        refine ⟨rfl, .inl ⟨by simp, rfl, rfl, ?_⟩⟩
        obtain ⟨b, b1, b2⟩ := margins_near hS.labels hfc
        obtain ⟨en, n1, n2, n3⟩ := edgeOf_near (S := S) (f := b) (fun e he => (b2 e he).2.trans (by norm_num)) x2 hx0 hxs hS.few
        obtain ⟨eo, o1, o2, o3⟩ := edgeOf_near (S := S) (f := a) (fun e he => (a2 e he).2.trans (by norm_num)) x2 hx0 hxs hS.few
        have n3' := abs_le.mp n3
        have o3' := abs_le.mp o3
        set sb := (List.zipWith (fun x e => x * b e) xs S).sum with hsb
        set sa := (List.zipWith (fun x e => x * a e) xs S).sum with hsa
        have hsab : |sa| ≤ 2 := by
          have := zipSum_close a (fun _ => 0) (101 / 100) S xs (fun e he => by rw [sub_zero]; exact (a2 e he).2) hx0 x2
          rw [zipSum_zero, sub_zero] at this
          refine this.trans ?_
          nlinarith
        have hsbb : |sb| ≤ 2 := by
          have := zipSum_close b (fun _ => 0) 1 S xs (fun e he => by rw [sub_zero]; exact (b2 e he).2) hx0 x2
          rw [zipSum_zero, sub_zero] at this
          refine this.trans ?_
          linarith
        have hsab' := abs_le.mp hsab
        have hsbb' := abs_le.mp hsbb
        have hgapb : |en + -eo| ≤ 5 := by rw [abs_le]; constructor <;> linarith
        have hgap : sub (edgeOf (F64.margins S f) (xs.map fin)) (edgeOf (F64.weightedMargins S s.weights s.hypotheses) (xs.map fin)) = fin (F64.round (en + -eo)) := by
          rw [i.weights, i.hyps, a1, b1, n1, o1]
          exact rnd_small (hgapb.trans (by norm_num))
        have hgr : |F64.round (en + -eo) - (en + -eo)| ≤ 1 / 10 ^ 10 := by
          refine (round_err _).trans ?_
          have := eta_le_u
          calc u * |en + -eo| + F64.eta ≤ (1 / 9000000000000000) * 5 + 1 / 9000000000000000 := by gcongr; linarith
            _ ≤ _ := by norm_num
        have hgr' := abs_le.mp hgr
        have hedge : |sb - exactEdge S (xs.map fin) f| ≤ 1 / 10 ^ 10 := by
          rw [exactEdge_map]
          refine (zipSum_close b (fun e => e.2 * (conf f e.1).val) (2 * u) S xs (fun e he => (b2 e he).1) hx0 x2).trans ?_
          calc 2 * u * xs.sum ≤ 2 * (1 / 9000000000000000) * (3 / 2) := by gcongr; exact List.sum_nonneg hx0
            _ ≤ _ := by norm_num
        have hedge' := abs_le.mp hedge
        rw [hgap, i.tol, hp.tol] at hle
        have hle' : F64.round (en + -eo) ≤ h := hle
        intro q q1 q2
        have m := capped_margin hne (fun e he => (a2 e he).2) h1 h2 (by linarith) x2 x5 x6 q1 q2
        have k := abs_le.mp (zipSum_close a (fun e => e.2 * voteAt V e.1) (1 / 10 ^ 7) S q (fun e he => (a2 e he).1) (fun x hx => (q2.1 x hx).1) q1)
        rw [q2.2, mul_one] at k
        have : (1 : ℝ) / 10 ^ 7 + 4 / 10 ^ 5 + 2 / 10 ^ 9 + 2 / 10 ^ 10 + 1 / 10 ^ 8 ≤ 5 / 10 ^ 5 := by norm_num
        linarith [m, k.1, k.2, hgr'.1, n3'.1, o3'.2, hedge'.1, hedge'.2]
      · have key : ∃ (A : List (ℝ × H)) (v : ℝ × H) (B : List (ℝ × H)), s.hypotheses.findIdx (fun g => g == f) = A.length ∧
            (if s.hypotheses.findIdx (fun g => g == f) = s.hypotheses.length then s.hypotheses ++ [f] else s.hypotheses) = (A ++ v :: B).map Prod.snd ∧
            (if s.hypotheses.findIdx (fun g => g == f) = s.hypotheses.length then s.weights ++ [fin 0] else s.weights) = ((A ++ v :: B).map fun w => fin w.1) ∧
            (∀ w ∈ A ++ v :: B, F64.Rep w.1 ∧ 0 ≤ w.1) ∧ (∀ w ∈ A ++ v :: B, ConfOk S w.2) ∧ (A ++ v :: B).length ≤ n + 1 ∧
            ((A ++ v :: B).map Prod.fst).sum = (V.map Prod.fst).sum ∧ (V = [] → A = [] ∧ B = [] ∧ v.1 = 0) := by
          by_cases hpos : s.hypotheses.findIdx (fun g => g == f) = s.hypotheses.length
          · rw [if_pos hpos, if_pos hpos, i.hyps, i.weights]
            rw [i.hyps, List.length_map] at hpos
            refine ⟨V, (0, f), [], hpos, by simp, by simp, ?_, ?_, by simpa using i.len, by simp, fun h => ⟨h, rfl, rfl⟩⟩
            · intro w hw
              rcases List.mem_append.mp hw with h | h
              · exact i.rep w h
              · simp only [List.mem_singleton] at h; subst h; exact ⟨rep_zero, le_rfl⟩
            · intro w hw
              rcases List.mem_append.mp hw with h | h
              · exact i.ok w h
              · simp only [List.mem_singleton] at h; subst h; exact hfc
          · rw [if_neg hpos, if_neg hpos, i.hyps, i.weights]
            rw [i.hyps] at hpos
            have hlt : (V.map Prod.snd).findIdx (fun g => g == f) < (V.map Prod.snd).length := lt_of_le_of_ne List.findIdx_le_length hpos
            set k := (V.map Prod.snd).findIdx (fun g => g == f) with hk
            have hlt' : k < V.length := by rwa [List.length_map] at hlt
            have hsplit : V.take k ++ V[k] :: V.drop (k + 1) = V := by
              rw [← List.drop_eq_getElem_cons hlt', List.take_append_drop]
            refine ⟨V.take k, V[k], V.drop (k + 1), by rw [List.length_take]; omega, by rw [hsplit], by rw [hsplit], by rw [hsplit]; exact i.rep, by rw [hsplit]; exact i.ok,
              by rw [hsplit]; have := i.len; omega, by rw [hsplit], ?_⟩
            intro h
            rw [h] at hlt'
            simp at hlt'
        obtain ⟨A, v, B, k1, k2, k3, k4, k5, k6, k7, k8⟩ := key
        rw [k2, k3, k1, i.steps, i.eta] at hb
        split at hb
        · cases hb
        · rename_i ws hws
          obtain ⟨V', v1, v2, v3, v4⟩ := nextIterate_shape other hp.steps (by omega : n ≤ 25 * 10 ^ 6) A v B k4 k6 (by
            by_cases h0 : n = 0
            · left; exact ⟨h0, k8 (i.first h0)⟩
            · right; exact ⟨h0, by rw [k7]; exact i.sum h0⟩) hws
          rw [Except.ok.injEq] at hb
          subst hb
          refine ⟨rfl, .inr ⟨rfl, V', ?_⟩⟩
          have hl' : V'.length = (A ++ v :: B).length := by
            have := congrArg List.length v2
            simpa using this
          refine ⟨v1, v2.symm, rfl, i.nu, i.tol, rfl, i.lim, by omega, v3, ?_, fun h => by omega, fun _ => v4⟩
          intro w hw
          have h3 : w.2 ∈ (A ++ v :: B).map Prod.snd := by rw [← v2]; exact List.mem_map_of_mem hw
          obtain ⟨w', hw', h4⟩ := List.mem_map.mp h3
          rw [← h4]
          exact k5 w' hw'

/-- Between the rounds of a run. -/
theorem reach_cap [Classifier H X F64] [BEq H] (L : Libm) (other : FWType → Nat → List F64 → List H → Nat → List F64 → Except Panic (List F64))
    {S : Examples X ℝ} (hS : GoodSample S) {s : CERLPBoostF H} {h ν : ℝ} (hp : CappedParams S s h ν) {wl : WeakLearner F64 H} (hwl : ∀ it d, NearCapped ν S.length d → ConfOk S (wl it d))
    {η : ℝ} (h1 : 1 / 100 ≤ η) (h2 : η ≤ 9000) (hη : Real.log (S.length / ν) / η ≤ h + 1 / 10 ^ 8) {M : ℕ} (hM : M ≤ 25 * 10 ^ 6)
    (hpre : preprocess L S s = .ok { s with dist := List.replicate S.length (div (fin 1) (rnd (S.length : ℝ))), eta := fin η, maxIter := M, terminated := M, weights := [], hypotheses := [] })
    {n qs s₁} (hr : (booster L other S).Reachable wl s n qs s₁) : n ≤ M ∧ qs.length = n ∧ (∀ q ∈ qs, NearCapped ν S.length q) ∧ ∃ V, Inv S s η M n V s₁ := by
  induction hr with
  | start h0 =>
    have h0' : preprocess L S s = _ := h0
    rw [hpre, Except.ok.injEq] at h0'
    subst h0'
    exact ⟨by omega, rfl, by simp, [], rfl, rfl, rfl, rfl, rfl, rfl, rfl, le_rfl, by simp, by simp, fun _ => rfl, fun h => absurd rfl h⟩
  | step _ hb hc ih =>
    obtain ⟨i1, i2, i3, V, i4⟩ := ih
    rcases round_cap L other hS hp hwl h1 h2 hη hM i4 i1 hb with ⟨-, h3, -⟩ | ⟨h3, d, d1, d2, ⟨h4, -⟩ | ⟨-, V', h4⟩⟩
    · exact absurd hc h3
    · exact absurd hc h4
    · refine ⟨h3, by rw [d2]; simp [i2], ?_, V', h4⟩
      intro q hq
      rw [d2] at hq
      rcases List.mem_append.mp hq with h | h
      · exact i3 q h
      · rw [List.mem_singleton] at h; subst h; exact d1

end CERLPBoostF

end Miniboosts
