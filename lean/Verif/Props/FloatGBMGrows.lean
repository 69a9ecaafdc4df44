import Verif.Lemmas.FloatGBMGrows
import Verif.Props.FloatGBM

/-! # Gradient boosting with the squared loss overshoots in `f64` (C123) -/

namespace Miniboosts.Props

open Miniboosts F64 Spec

variable {H X : Type*} [Regressor H X F64]

/-- Induction over the rounds; what is said about a distribution may depend on the round. -/
theorem ParBooster.loop_inv_at {σ K H O : Type*} (B : ParBooster σ K H O) (wl : WeakLearner K H) (I : Nat → σ → Prop) (P : Nat → List K → Prop) (M : Nat)
    (step : ∀ s it r, I it s → it ≤ M → B.boost s wl it r → ∃ s' q, r = .ok ⟨s', .cont, [q]⟩ ∧ P it q ∧ I (it + 1) s')
    (stop : ∀ s r, I (M + 1) s → B.boost s wl (M + 1) r → r = .ok ⟨s, .brk M, []⟩) {s : σ} {it : Nat} {r} (h : B.Loop wl s it r) :
    I it s → it ≤ M + 1 → ∃ s' qs, r = .ok (s', qs) ∧ (∀ i d, qs[i]? = some d → P (it + i) d) ∧ I (M + 1) s' ∧ qs.length = M + 1 - it := by
  induction h with
  | @panic s it e h =>
    intro hI hit
    by_cases hlt : it ≤ M
    · obtain ⟨s', q, h', -⟩ := step s it _ hI hlt h
      cases h'
    · obtain rfl : it = M + 1 := by omega
      cases stop s _ hI h
  | @stop s it out k h hf =>
    intro hI hit
    by_cases hlt : it ≤ M
    · obtain ⟨s', q, h', -⟩ := step s it _ hI hlt h
      cases h'
      cases hf
    · obtain rfl : it = M + 1 := by omega
      cases stop s _ hI h
      exact ⟨_, _, rfl, by simp, hI, by simp⟩
  | @next s it out r h hf hr ih =>
    intro hI hit
    by_cases hlt : it ≤ M
    · obtain ⟨s', q, h', hP, hI'⟩ := step s it _ hI hlt h
      cases h'
      obtain ⟨s'', qs, rfl, hq, hI'', hl⟩ := ih hI' (by omega)
      refine ⟨s'', q :: qs, rfl, ?_, hI'', by simp only [List.length_cons, hl]; omega⟩
      intro i d hd
      cases i with
      | zero => simp only [List.getElem?_cons_zero, Option.some.injEq] at hd; subst hd; exact hP
      | succ i =>
        rw [List.getElem?_cons_succ] at hd
        have := hq i d hd
        rwa [show it + (i + 1) = it + 1 + i by ring]
    · obtain rfl : it = M + 1 := by omega
      cases stop s _ hI h
      cases hf

/-- The state after `n` rounds. -/
structure GrowInv (N : ℕ) (Y : ℝ) (n : ℕ) (s : GBMF H) : Prop where
  loss : s.loss = .L2
  max : s.maxIter = 100
  weights : ∃ cs : List ℝ, s.weights = cs.map fin ∧ cs.length = n ∧ ∀ c ∈ cs, F64.Rep c ∧ 0 < c ∧ c ≤ 2 * 10 ^ 16
  hyps : s.hypotheses.length = n
  preds : ∃ q E : ℕ → ℝ, s.predictions = (List.range N).map (fun i => fin (q i)) ∧
    (∀ i < N, F64.Rep (q i) ∧ 0 ≤ E i ∧ |q i - E i| ≤ (4 / 10 ^ 9 + n / 10 ^ 12) * E i + n / 10 ^ 58) ∧ ((List.range N).map E).sum = n * Y

theorem range_getD {l : List ℝ} {N : ℕ} (h : l.length = N) : (List.range N).map (fun i => l.getD i 0) = l := by
  apply List.ext_getElem
  · simp [h]
  · intro i h1 h2
    simp only [List.getElem_map, List.getElem_range]
    rw [List.getD_eq_getElem?_getD, List.getElem?_eq_getElem h2]
    rfl

theorem grow_step {S : Examples X ℝ} (hS : PositiveTotal (S.map Prod.snd)) (hN : S.length ≤ 10 ^ 5) {wl : WeakLearner F64 H}
    (hwl : ∀ it d, ∃ ps, PositiveTotal ps ∧ (S.map fun e => Regressor.pred (wl it d) e.1) = ps.map fin) {n : ℕ} (hn : n < 100) {s : GBMF H}
    (hI : GrowInv S.length (S.map Prod.snd).sum n s) {r} (hb : GBMF.Boost S s wl (n + 1) r) :
    ∃ s', r = .ok ⟨s', .cont, [s.predictions]⟩ ∧ GrowInv S.length (S.map Prod.snd).sum (n + 1) s' := by
  obtain ⟨hl, hmax, ⟨cs, hcs, hcl, hcb⟩, hh, q, E, hp, hq, hE⟩ := hI
  obtain ⟨ps, hps, hpe⟩ := hwl (n + 1) s.predictions
  have hpl : ps.length = S.length := by have := congrArg List.length hpe; simpa using this.symm
  set Y := (S.map Prod.snd).sum with hY
  set P := ps.sum with hP
  obtain ⟨hY1, y, hy, hy1, hy2⟩ := total_near hS (by simpa using hN)
  obtain ⟨hP1, p, hps', hp1, hp2⟩ := total_near hps (by omega)
  obtain ⟨hp0, c, hc, hcr, hc1, hc2, hc3, hc4⟩ := coef_near hS.2 hY1 hps.2 hP1 ⟨hy1, hy2⟩ ⟨hp1, hp2⟩
  have hbest := l2_search_ok hy hps' (fun e => hp0 (F64.fin.inj e))
  rw [hc] at hbest
  unfold GBMF.Boost at hb
  rw [if_neg (by omega)] at hb
  simp only [hl, hpe, hbest] at hb
  rw [if_neg (fun e => hc3.ne' (F64.fin.inj e))] at hb
  obtain ⟨new, hnew, rfl⟩ := hb
  refine ⟨_, rfl, ⟨rfl, hmax, ⟨cs ++ [c], by simp [hcs], by simp [hcl], ?_⟩, by simp [hh], ?_⟩⟩
  · intro x hx
    rcases List.mem_append.mp hx with h | h
    · exact hcb x h
    · rw [List.mem_singleton] at h; subst h; exact ⟨hcr, hc3, hc4⟩
  · have hP0 : 0 < P := by linarith [hps.2]
    have hY0 : 0 < Y := by linarith [hS.2]
    set R := Y / P with hR
    have hR0 : 0 ≤ R := by positivity
    have hpi : ∀ i < S.length, 0 ≤ ps.getD i 0 ∧ ps.getD i 0 ≤ P := by
      intro i hi
      have hm : ps.getD i 0 ∈ ps := by
        rw [List.getD_eq_getElem?_getD, List.getElem?_eq_getElem (by omega)]; exact List.getElem_mem _
      exact ⟨(hps.1 _ hm).2.1, List.single_le_sum (fun x hx => (hps.1 x hx).2.1) _ hm⟩
    have hEi : ∀ i < S.length, E i ≤ 10 ^ 18 := by
      intro i hi
      have : E i ≤ ((List.range S.length).map E).sum := List.single_le_sum (by
        intro x hx
        obtain ⟨j, hj, rfl⟩ := List.mem_map.mp hx
        exact (hq j (by simpa using hj)).2.1) _ (List.mem_map.mpr ⟨i, by simpa using hi, rfl⟩)
      have hn' : (n : ℝ) ≤ 100 := by exact_mod_cast hn.le
      rw [hE] at this
      nlinarith
    have hstep : ∀ i, ∃ q', i < S.length → add (fin (q i)) (mul (fin c) (fin (ps.getD i 0))) = fin q' ∧ F64.Rep q' ∧
        |q' - (E i + R * ps.getD i 0)| ≤ (4 / 10 ^ 9 + (n + 1 : ℕ) / 10 ^ 12) * (E i + R * ps.getD i 0) + (n + 1 : ℕ) / 10 ^ 58 := by
      intro i
      by_cases hi : i < S.length
      · obtain ⟨h1, h2, h3⟩ := hq i hi
        obtain ⟨q', hq'⟩ := gbm_step_near hn.le (hpi i hi).1 hR0 ⟨hc1, hc2⟩ (by
          have : R * ps.getD i 0 ≤ R * P := mul_le_mul_of_nonneg_left (hpi i hi).2 hR0
          have e : R * P = Y := by rw [hR]; field_simp
          linarith) h2 (hEi i hi) h1 h3
        exact ⟨q', fun _ => hq'⟩
      · exact ⟨0, fun h => absurd h hi⟩
    choose q' hq' using hstep
    refine ⟨q', fun i => E i + R * ps.getD i 0, ?_, ?_, ?_⟩
    · rw [(parUpdate_iff _ _ _ _).mp hnew, hp]
      have e : ps.map fin = (List.range S.length).map fun i => fin (ps.getD i 0) := by
        conv_lhs => rw [← range_getD hpl]
        rw [List.map_map]; rfl
      rw [e, updateZip_eq_zipWith _ _ _ (by simp), List.zipWith_map, List.zipWith_self]
      refine List.map_congr_left fun i hi => ?_
      exact (hq' i (by simpa using hi)).1
    · intro i hi
      obtain ⟨h1, h2, h3⟩ := hq i hi
      exact ⟨(hq' i hi).2.1, add_nonneg h2 (mul_nonneg hR0 (hpi i hi).1), (hq' i hi).2.2⟩
    · rw [List.sum_map_add, hE, List.sum_map_mul_left, range_getD hpl, ← hP, hR]
      push_cast
      field_simp

theorem grow_query {N : ℕ} {Y : ℝ} (hN : N ≤ 10 ^ 5) (hY : 1 / 10 ≤ Y) {n : ℕ} (hn : n ≤ 100) {s : GBMF H} (hI : GrowInv N Y n s) :
    ∃ xs : List ℝ, s.predictions = xs.map fin ∧ xs.length = N ∧ |xs.sum - n * Y| ≤ 1 / 10 ^ 8 * (n * Y) := by
  obtain ⟨q, E, hp, hq, hE⟩ := hI.preds
  refine ⟨(List.range N).map q, by rw [hp, List.map_map]; rfl, by simp, ?_⟩
  have hgen : ∀ l : List ℕ, (∀ i ∈ l, i < N) → |(l.map q).sum - (l.map E).sum| ≤ (4 / 10 ^ 9 + n / 10 ^ 12) * (l.map E).sum + l.length * (n / 10 ^ 58) := by
    intro l
    induction l with
    | nil => intro _; simp
    | cons i l ih =>
      intro h
      have h1 := (hq i (h i (by simp))).2.2
      have h2 := ih fun j hj => h j (List.mem_cons_of_mem _ hj)
      simp only [List.map_cons, List.sum_cons, List.length_cons]
      push_cast
      have h3 := abs_add_le (q i - E i) ((l.map q).sum - (l.map E).sum)
      rw [show q i + (l.map q).sum - (E i + (l.map E).sum) = q i - E i + ((l.map q).sum - (l.map E).sum) by ring]
      nlinarith
  have h := hgen (List.range N) (by simp)
  rw [hE, List.length_range] at h
  refine h.trans ?_
  have hn' : (n : ℝ) ≤ 100 := by exact_mod_cast hn
  have hn0 : (0 : ℝ) ≤ n := Nat.cast_nonneg n
  have hN' : (N : ℝ) ≤ 10 ^ 5 := by exact_mod_cast hN
  have hN0 : (0 : ℝ) ≤ N := Nat.cast_nonneg N
  have hnY : 0 ≤ n * Y := by positivity
  have h1 : (4 / 10 ^ 9 + (n : ℝ) / 10 ^ 12) * (n * Y) ≤ 5 / 10 ^ 9 * (n * Y) := by
    apply mul_le_mul_of_nonneg_right _ hnY
    have : (n : ℝ) / 10 ^ 12 ≤ 100 / 10 ^ 12 := by gcongr
    linarith
  have h2 : (N : ℝ) * (n / 10 ^ 58) ≤ 1 / 10 ^ 52 * (n * Y) := by
    have : (N : ℝ) * (n / 10 ^ 58) ≤ 10 ^ 5 * (n / 10 ^ 58) := by gcongr
    nlinarith
  linarith

theorem positive_weights_ok {cs : List ℝ} {hs : List H} (hl : cs.length = hs.length) (hne : cs ≠ []) (hb : ∀ c ∈ cs, F64.Rep c ∧ 0 < c ∧ c ≤ 2 * 10 ^ 16) (hn : cs.length ≤ 100) :
    ∃ f, fromSlices (cs.map fin) hs = .ok f ∧ f.weights.length = cs.length ∧ f.hypotheses = hs := by
  classical
  have hkept : ((cs.map fin).zip hs).filter (fun p => decide (Lt (fin 0) p.1)) = (cs.map fin).zip hs := by
    rw [List.filter_eq_self]
    intro p hp
    obtain ⟨c, hc, e⟩ := List.mem_map.mp (List.of_mem_zip (a := p.1) (b := p.2) hp).1
    rw [← e]
    simpa using (show Lt (fin 0) (fin c) from (hb c hc).2.1)
  have hsum : cs.sum ≤ 10 ^ 19 := by
    have h1 := List.sum_le_card_nsmul cs (2 * 10 ^ 16) fun c hc => (hb c hc).2.2
    rw [nsmul_eq_mul] at h1
    have h2 : (cs.length : ℝ) ≤ 100 := by exact_mod_cast hn
    nlinarith
  obtain ⟨z, h1, -, h3⟩ := foldl_near0 cs (fun c hc => ⟨(hb c hc).2.1.le, (hb c hc).1⟩) hsum (by omega)
  have hpos : 0 < cs.sum := List.sum_pos _ (fun c hc => (hb c hc).2.1) hne
  have hz : 0 < z := h3.pos hpos
  have habs : (cs.map fin).map F64.abs = cs.map fin := by
    rw [List.map_map]
    refine List.map_congr_left fun c hc => ?_
    show fin |c| = fin c
    rw [abs_of_pos (hb c hc).2.1]
  have hfst : ((cs.map fin).zip hs).map Prod.fst = cs.map fin := List.map_fst_zip (by simp [hl])
  have hsnd : ((cs.map fin).zip hs).map Prod.snd = hs := List.map_snd_zip (by simp [hl])
  have hnorm : F64.normalize (cs.map fin) = .ok ((cs.map fin).map fun a => div a (fin z)) := by
    unfold F64.normalize
    dsimp only
    rw [habs, h1, if_neg fun e => hz.ne' (F64.fin.inj e)]
  refine ⟨⟨(cs.map fin).map fun a => div a (fin z), hs⟩, ?_, by simp, rfl⟩
  have : fromSlices (cs.map fin) hs = (F64.normalize ((((cs.map fin).zip hs).filter fun p => decide (Lt (fin 0) p.1)).map Prod.fst)).map fun ws =>
      { weights := ws, hypotheses := (((cs.map fin).zip hs).filter fun p => decide (Lt (fin 0) p.1)).map Prod.snd } := by
    unfold fromSlices
    dsimp only
  rw [this, hkept, hfst, hsnd, hnorm]
  rfl

/-- C123: gradient boosting with the squared loss in `f64`, at most `10⁵` examples, targets non-negative, of at most `10¹⁰` and with a total of at least one
tenth, and any weak learner whose predictors' outputs are such lists: the run makes all 100 rounds and returns all 100 predictors, and the predictions
handed to the learner in round `i + 1` sum to `i` times the total of the targets, up to a relative error of `10⁻⁸`; so for `i ≥ 2` their squared error is at
least `((i - 1 - i / 10⁸) * total)² / number of examples`. -/
theorem gbm_f64_overshoots (S : Examples X ℝ) (hS : PositiveTotal (S.map Prod.snd)) (hN : S.length ≤ 10 ^ 5) (wl : WeakLearner F64 H)
    (hwl : ∀ it d, ∃ ps, PositiveTotal ps ∧ (S.map fun e => Regressor.pred (wl it d) e.1) = ps.map fin) (r)
    (hr : (GBMF.booster S).Runs wl (GBMF.init S .L2) r) :
    ∃ f qs, r = .ok (f, qs) ∧ f.weights.length = 100 ∧ f.hypotheses.length = 100 ∧ qs.length = 100 ∧
      ∀ (i : ℕ) (q : List F64), qs[i]? = some q → ∃ xs : List ℝ, q = xs.map fin ∧ xs.length = S.length ∧
        |xs.sum - i * (S.map Prod.snd).sum| ≤ 1 / 10 ^ 8 * (i * (S.map Prod.snd).sum) ∧
        (2 ≤ i → (((i : ℝ) - 1 - i / 10 ^ 8) * (S.map Prod.snd).sum) ^ 2 ≤ S.length * (List.zipWith (fun x y => (x - y) ^ 2) xs (S.map Prod.snd)).sum) := by
  set Y := (S.map Prod.snd).sum with hY
  have hY0 : 0 < Y := by linarith [hS.2]
  have main : ∀ {s₀ : GBMF H} {r}, (GBMF.booster S).preprocess (GBMF.init S .L2) wl = .ok s₀ → (GBMF.booster S).Loop wl s₀ 1 r →
      ∃ s' qs, r = .ok (s', qs) ∧ GrowInv S.length Y 100 s' ∧ qs.length = 100 ∧
        ∀ (i : ℕ) (q : List F64), qs[i]? = some q → ∃ xs : List ℝ, q = xs.map fin ∧ xs.length = S.length ∧ |xs.sum - i * Y| ≤ 1 / 10 ^ 8 * (i * Y) := by
    intro s₀ r hp hl
    obtain rfl : gbmStart S = s₀ := Except.ok.inj hp
    obtain ⟨s', qs, h1, h2, ⟨n, hn, hI⟩, h4⟩ := ParBooster.loop_inv_at (GBMF.booster S) wl (fun it st => ∃ n, it = n + 1 ∧ GrowInv S.length Y n st)
      (fun it q => ∃ n, it = n + 1 ∧ ∃ xs : List ℝ, q = xs.map fin ∧ xs.length = S.length ∧ |xs.sum - n * Y| ≤ 1 / 10 ^ 8 * (n * Y)) 100
      (by
        rintro st it r ⟨n, rfl, hI⟩ hit hbo
        obtain ⟨s', e, hI'⟩ := grow_step hS hN hwl (by omega) hI hbo
        exact ⟨s', _, e, ⟨n, rfl, grow_query hN hS.2 (by omega) hI⟩, n + 1, rfl, hI'⟩)
      (by
        rintro st r ⟨n, hn, hI⟩ hbo
        change GBMF.Boost S st wl (100 + 1) r at hbo
        unfold GBMF.Boost at hbo
        rw [hI.max, if_pos (by omega)] at hbo
        exact hbo) hl
      ⟨0, rfl, rfl, rfl, ⟨[], rfl, rfl, by simp⟩, rfl, fun _ => 0, fun _ => 0, by simp [gbmStart], fun i _ => ⟨rep_zero, le_rfl, by simp⟩, by simp⟩ (by omega)
    obtain rfl : n = 100 := by omega
    refine ⟨s', qs, h1, hI, by omega, fun i q hq => ?_⟩
    obtain ⟨n, hn, h⟩ := h2 i q hq
    obtain rfl : i = n := by omega
    exact h
  have post : ∀ {s' : GBMF H}, GrowInv S.length Y 100 s' → ∃ f, (GBMF.booster S).postprocess s' = .ok f ∧ f.weights.length = 100 ∧ f.hypotheses.length = 100 := by
    intro s' hI
    obtain ⟨cs, h1, h2, h3⟩ := hI.weights
    obtain ⟨f, hf, h4, h5⟩ := positive_weights_ok (hs := s'.hypotheses) (by rw [h2, hI.hyps]) (by intro e; rw [e] at h2; simp at h2) h3 (by omega)
    refine ⟨f, ?_, by omega, by rw [h5, hI.hyps]⟩
    show fromSlices s'.weights s'.hypotheses = _
    rw [h1, hf]
  cases hr with
  | pre h => cases h
  | loop h hl => obtain ⟨s', qs, e, -⟩ := main h hl; cases e
  | post h hl hp =>
    obtain ⟨s', qs, e, hI, -⟩ := main h hl
    cases e
    obtain ⟨f, hf, -⟩ := post hI
    rw [hf] at hp
    cases hp
  | ok h hl hp =>
    obtain ⟨s', qs, e, hI, hlen, hq⟩ := main h hl
    cases e
    obtain ⟨f, hf, hw, hh⟩ := post hI
    rw [hf] at hp
    cases hp
    refine ⟨_, _, rfl, hw, hh, hlen, fun i q hiq => ?_⟩
    obtain ⟨xs, h1, h2, h3⟩ := hq i q hiq
    refine ⟨xs, h1, h2, h3, fun hi2 => ?_⟩
    have hlen' : xs.length = (S.map Prod.snd).length := by simpa using h2
    have e1 : ∀ (a b : List ℝ), a.length = b.length → (List.zipWith (fun x y => x - y) a b).sum = a.sum - b.sum := by
      intro a
      induction a with
      | nil => intro b hb; cases b with
        | nil => simp
        | cons => simp at hb
      | cons x a ih => intro b hb; cases b with
        | nil => simp at hb
        | cons y b => simp only [List.zipWith_cons_cons, List.sum_cons]; rw [ih b (by simpa using hb)]; ring
    have h4 := sq_sum_le_card (List.zipWith (fun x y => x - y) xs (S.map Prod.snd))
    rw [e1 _ _ hlen', List.length_zipWith, ← hlen', min_self, h2, List.map_zipWith] at h4
    refine le_trans ?_ h4
    have hi' : (2 : ℝ) ≤ i := by exact_mod_cast hi2
    have h5 : ((i : ℝ) - 1 - i / 10 ^ 8) * Y ≤ xs.sum - Y := by
      have := (abs_le.mp h3).1
      nlinarith
    have h6 : 0 ≤ ((i : ℝ) - 1 - i / 10 ^ 8) * Y := mul_nonneg (by linarith) hY0.le
    exact pow_le_pow_left₀ h6 h5 2

/-- The hypotheses hold for two examples and a learner whose predictors output the targets. -/
example : ∃ r, (GBMF.booster [((1 : ℝ), (2 : ℝ)), (3, 6)]).Runs (fun _ _ => (⟨fun x => fin (2 * x)⟩ : RFn ℝ F64)) (GBMF.init [((1 : ℝ), (2 : ℝ)), (3, 6)] .L2) r ∧
    PositiveTotal ([((1 : ℝ), (2 : ℝ)), (3, 6)].map Prod.snd) ∧
    ∃ ps, PositiveTotal ps ∧ ([((1 : ℝ), (2 : ℝ)), (3, 6)].map fun e => Regressor.pred (⟨fun x => fin (2 * x)⟩ : RFn ℝ F64) e.1) = ps.map fin := by
  obtain ⟨r, hr, -⟩ := gbm_f64_one_result [((1 : ℝ), (2 : ℝ)), (3, 6)] .L2 .L2 (fin 0) (fun _ _ => (⟨fun x => fin (2 * x)⟩ : RFn ℝ F64))
  have h2 : PositiveTotal [2, 6] := by
    refine ⟨fun x hx => ?_, by norm_num⟩
    rcases List.mem_cons.mp hx with rfl | hx
    · exact ⟨⟨2, 0, by norm_num, by norm_num, by norm_num⟩, by norm_num, by norm_num⟩
    · rw [List.mem_singleton] at hx
      subst hx
      exact ⟨⟨6, 0, by norm_num, by norm_num, by norm_num⟩, by norm_num, by norm_num⟩
  refine ⟨r, (hr r).mpr rfl, h2, [2, 6], h2, ?_⟩
  simp [Regressor.pred]
  norm_num

end Miniboosts.Props
