import Verif.Lemmas.RoundingVote
import Verif.Spec.Float
import Verif.Props.FloatSchedule

/-! # AdaBoost in `f64`: no NaN, no panic, and the training error (C91, C92) -/

namespace Miniboosts.Props

open Miniboosts F64

variable {H X : Type*} [Classifier H X F64]

/-- All the numbers are representable. -/
def AllDouble (d : List F64) : Prop := ∀ x : ℝ, fin x ∈ d → Double x

theorem rnd_is_double {x y : ℝ} (h : rnd x = fin y) : Double y := by
  unfold rnd at h
  split at h
  · cases h
  · cases h; exact rep_round x

theorem exp_double {L : Libm} {v : F64} {y : ℝ} (h : F64.exp L v = fin y) : Double y := by
  cases v with
  | nan => cases h
  | inf s =>
    cases s with
    | true => cases h; exact rep_zero
    | false => cases h
  | fin a => exact rnd_is_double h

omit [Classifier H X F64] in
theorem preprocess_double {S : Examples X ℝ} {s s₀ : AdaBoostF H} (h : AdaBoostF.preprocess S s = .ok s₀) : AllDouble s₀.dist := by
  unfold AdaBoostF.preprocess at h
  split at h
  · cases h
  · cases h
    intro x hx
    have := (List.mem_replicate.mp hx).2
    simp only [div] at this
    split at this
    · split at this <;> cases this
    · exact rnd_is_double this.symm

theorem reweight_double {L : Libm} {d m : List F64} {w : F64} {new : List F64} (h : Reweight L d m w (.ok new)) : AllDouble new := by
  obtain ⟨logDist, -, h⟩ := h
  split at h
  · cases h
  · obtain ⟨idx, -, h⟩ := h
    split at h
    · cases h
    · obtain ⟨new', h1, h2⟩ := h
      cases h2
      rw [parMap_iff] at h1
      intro x hx
      rw [h1, List.mem_map] at hx
      obtain ⟨v, -, hv⟩ := hx
      exact exp_double hv

theorem boost_double {L : Libm} {S : Examples X ℝ} {s : AdaBoostF H} {wl : WeakLearner F64 H} {it : Nat} {out}
    (h : AdaBoostF.Boost L S s wl it (.ok out)) (hf : out.flow = .cont) : AllDouble out.state.dist := by
  unfold AdaBoostF.Boost at h
  split at h
  · cases h; cases hf
  · obtain ⟨edge, -, ⟨-, h⟩ | ⟨-, d, hd, h⟩⟩ := h
    · cases h; cases hf
    · cases d with
      | error e => cases h
      | ok d => cases h; exact reweight_double hd

theorem sound_of {S : Examples X ℝ} {Q : List ((X × ℝ) × ℝ)} (hQ : Q.map Prod.fst = S) (hx : ∀ p ∈ Q, 2 * eta ≤ p.2)
    (hs : |(Q.map Prod.snd).sum - 1| ≤ 25 / 10 ^ 8) (hD : AllDouble (Q.map fun p => fin p.2)) : SoundWeights S.length (Q.map fun p => fin p.2) := by
  refine ⟨Q.map Prod.snd, by rw [List.map_map]; rfl, by rw [← hQ]; simp, ?_, hs, ?_⟩
  rotate_left
  · simp only [List.mem_map]
    rintro _ ⟨p, hp, rfl⟩
    exact hD p.2 (List.mem_map.mpr ⟨p, hp, rfl⟩)
  simp only [List.mem_map]
  rintro _ ⟨p, hp, rfl⟩
  rw [two_eta]
  exact hx p hp

theorem exactEdge_eq {S : Examples X ℝ} {Q : List ((X × ℝ) × ℝ)} (hQ : Q.map Prod.fst = S) (h : H) :
    exactEdge S (Q.map fun p => fin p.2) h = (Q.map fun p => p.2 * (p.1.2 * (conf h p.1.1).val)).sum := by
  rw [exactEdge, ← hQ, List.zipWith_map, List.zipWith_self]
  rfl

/-- What preprocessing leaves behind. -/
theorem float_preprocess {S : Examples X ℝ} {s s₀ : AdaBoostF H} (h : AdaBoostF.preprocess S s = .ok s₀) (hne : S ≠ []) (hn : S.length ≤ 10 ^ 5) :
    ∃ x₀ : ℝ, |x₀ - 1 / S.length| ≤ u * (1 / S.length) + eta ∧ s₀.dist = (S.map fun e => (e, x₀)).map (fun p => fin p.2) ∧
      2 * eta ≤ x₀ ∧ |((S.map fun e => (e, x₀)).map Prod.snd).sum - 1| ≤ 25 / 10 ^ 8 ∧ s₀.weights = [] ∧ s₀.hypotheses = [] ∧
      s₀.maxIter = floatLimit S s := by
  unfold AdaBoostF.preprocess at h
  split at h
  · cases h
  · cases h
    have hu := u_small
    have hu0 := u_pos
    have het := eta_tiny
    have het0 := eta_pos
    have hl : (1 : ℝ) ≤ S.length := by exact_mod_cast List.length_pos_iff.mpr hne
    have hl2 : (S.length : ℝ) ≤ 100000 := by exact_mod_cast (by omega : S.length ≤ 100000)
    have hl0 : (S.length : ℝ) ≠ 0 := by linarith
    have hd1 : 1 / (S.length : ℝ) ≤ 1 := by rw [div_le_one (by linarith)]; exact hl
    have hd2 : 1 / 100000 ≤ 1 / (S.length : ℝ) := one_div_le_one_div_of_le (by linarith) hl2
    have hre := round_err (1 / (S.length : ℝ))
    have hdp : 0 < 1 / (S.length : ℝ) := by linarith
    rw [abs_of_pos hdp] at hre
    refine ⟨F64.round (1 / S.length), hre, ?_, round_pos (by linarith), ?_, rfl, rfl, rfl⟩
    · have : div (fin 1) (fin S.length) = fin (F64.round (1 / S.length)) := by
        simp only [div, if_neg hl0]
        exact rnd_small (by rw [abs_of_pos hdp]; linarith)
      simp only [this, List.map_map]
      symm
      apply List.eq_replicate_iff.mpr
      refine ⟨by simp, ?_⟩
      simp only [List.mem_map, Function.comp]
      rintro _ ⟨_, -, rfl⟩
      rfl
    · rw [List.map_map]
      have hsum : (S.map (Prod.snd ∘ fun e => (e, F64.round (1 / (S.length : ℝ))))).sum = S.length * F64.round (1 / (S.length : ℝ)) := by
        have : (Prod.snd ∘ fun e : X × ℝ => (e, F64.round (1 / (S.length : ℝ)))) = fun _ => F64.round (1 / (S.length : ℝ)) := rfl
        rw [this]; simp
      rw [hsum]
      have h1 : (S.length : ℝ) * F64.round (1 / S.length) - 1 = S.length * (F64.round (1 / S.length) - 1 / S.length) := by field_simp
      rw [h1, abs_mul, abs_of_pos (by linarith)]
      calc (S.length : ℝ) * |F64.round (1 / S.length) - 1 / S.length| ≤ S.length * (u * (1 / S.length) + eta) := by gcongr
        _ = u + S.length * eta := by field_simp
        _ ≤ 1 / 9000000000000000 + 100000 * (1 / 10 ^ 60) := by gcongr
        _ ≤ _ := by norm_num

theorem preprocess_error {S : Examples X ℝ} {s : AdaBoostF H} (hS : checkBinary S = .ok ()) : ∃ s₀, AdaBoostF.preprocess S s = .ok s₀ := by
  unfold AdaBoostF.preprocess
  rw [hS]
  exact ⟨_, rfl⟩

theorem brk_boost {L : Libm} {S : Examples X ℝ} {s : AdaBoostF H} {wl : WeakLearner F64 H} {it : Nat} {r}
    (h : AdaBoostF.Boost L S s wl it r) (hit : s.maxIter < it) : r = .ok { state := s, flow := .brk s.maxIter, queries := [] } := by
  unfold AdaBoostF.Boost at h
  rwa [if_pos hit] at h

/-- Induction over the rounds. -/
theorem float_loop (L : Libm) {S : Examples X ℝ} {wl : WeakLearner F64 H} {sI : AdaBoostF H} (I : Nat → AdaBoostF H → Prop) (M : Nat)
    (step : ∀ s it r, FloatReach L S wl sI it s → AllDouble s.dist → I it s → it ≤ M → AdaBoostF.Boost L S s wl it r →
      ∃ s', r = .ok ⟨s', .cont, [s.dist]⟩ ∧ I (it + 1) s')
    (hM : ∀ s it, I it s → s.maxIter = M) (hd : ∀ s it, AllDouble s.dist → I it s → SoundWeights S.length s.dist) {s : AdaBoostF H} {it : Nat} {r}
    (h : (AdaBoostF.booster L S).Loop wl s it r) : FloatReach L S wl sI it s → AllDouble s.dist → I it s → it ≤ M + 1 →
    ∃ s' qs, r = .ok (s', qs) ∧ (∀ d ∈ qs, SoundWeights S.length d) ∧ I (M + 1) s' ∧ qs.length = M + 1 - it ∧ FloatReach L S wl sI (M + 1) s' := by
  induction h with
  | @panic s it e h =>
    intro hR hD hI hit
    by_cases hlt : it ≤ M
    · obtain ⟨s', h', -⟩ := step s it _ hR hD hI hlt h
      cases h'
    · have := brk_boost h (by rw [hM s it hI]; omega)
      cases this
  | @stop s it out k h hf =>
    intro hR hD hI hit
    by_cases hlt : it ≤ M
    · obtain ⟨s', h', -⟩ := step s it _ hR hD hI hlt h
      cases h'
      cases hf
    · have := brk_boost h (by rw [hM s it hI]; omega)
      cases this
      have : it = M + 1 := by omega
      subst this
      exact ⟨_, _, rfl, by simp, hI, by simp, hR⟩
  | @next s it out r h hf hr ih =>
    intro hR hD hI hit
    by_cases hlt : it ≤ M
    · obtain ⟨s', h', hI'⟩ := step s it _ hR hD hI hlt h
      cases h'
      obtain ⟨s'', qs, rfl, hq, hI'', hl, hR''⟩ := ih (.next hR h rfl) (boost_double h rfl) hI' (by omega)
      refine ⟨s'', s.dist :: qs, rfl, ?_, hI'', by simp only [List.length_cons, hl]; omega, hR''⟩
      simp only [List.mem_cons]
      rintro d (rfl | hd')
      · exact hd s it hD hI
      · exact hq d hd'
    · have := brk_boost h (by rw [hM s it hI]; omega)
      cases this
      cases hf

theorem double_pos {x : ℝ} (h : Double x) (h0 : 0 < x) : 2 * eta ≤ x := by
  obtain ⟨k, j, hk, hj, rfl⟩ := h
  have h2j : (0 : ℝ) < 2 ^ j := by positivity
  have hk0 : 0 < k := by
    have : (0 : ℝ) < k := (mul_pos_iff_of_pos_right h2j).mp h0
    exact_mod_cast this
  have hk1 : (1 : ℝ) ≤ k := by exact_mod_cast hk0
  rw [← two_eta]
  calc (2 : ℝ) ^ (-1074 : ℤ) ≤ 2 ^ j := zpow_le_zpow_right₀ (by norm_num) hj
    _ ≤ k * 2 ^ j := le_mul_of_one_le_left h2j.le hk1

theorem foldl_pos (l : List F64) (hl : ∀ v ∈ l, Lt (fin 0) v) : ∀ a : F64, Lt (fin (2 * eta - eta)) a → Lt (fin (2 * eta - eta)) (l.foldl add a) := by
  have he := eta_pos
  induction l with
  | nil => exact fun a h => h
  | cons v l ih =>
    intro a ha
    refine ih (fun w hw => hl w (by simp [hw])) _ ?_
    have hv := hl v (by simp)
    cases a with
    | nan => exact ha.elim
    | inf s =>
      have hs : s = false := ha
      subst hs
      cases v with
      | nan => exact hv.elim
      | inf t => have ht : t = false := hv; subst ht; simp [add, Lt]
      | fin y => simp [add, Lt]
    | fin x =>
      have hx : 2 * eta - eta < x := ha
      cases v with
      | nan => exact hv.elim
      | inf t => have ht : t = false := hv; subst ht; simp [add, Lt]
      | fin y =>
        have hy : 0 < y := hv
        simp only [add, rnd]
        split
        · rw [decide_eq_false (by linarith)]; rfl
        · have h1 := round_pos (x := x + y) (by linarith)
          show 2 * eta - eta < F64.round (x + y)
          linarith

/-- The sum of positive numbers is not zero. -/
theorem sum_pos_ne_zero {l : List F64} (h0 : l ≠ []) (hl : ∀ v ∈ l, Lt (fin 0) v) (hD : AllDouble l) : (l.map F64.abs).foldl add (fin 0) ≠ fin 0 := by
  have he := eta_pos
  have habs : l.map F64.abs = l := by
    conv_rhs => rw [← List.map_id l]
    refine List.map_congr_left fun v hv => ?_
    have := hl v hv
    cases v with
    | nan => exact this.elim
    | inf s => have hs : s = false := this; subst hs; rfl
    | fin x => have hx : 0 < x := this; simp [F64.abs, abs_of_pos hx]
  rw [habs]
  cases l with
  | nil => exact absurd rfl h0
  | cons v l =>
    rw [List.foldl_cons]
    have key : Lt (fin (2 * eta - eta)) (add (fin 0) v) := by
      have := hl v (by simp)
      cases v with
      | nan => exact this.elim
      | inf s => have hs : s = false := this; subst hs; simp [add, Lt]
      | fin x =>
        have hx := double_pos (hD x (by simp)) this
        simp only [add, rnd, zero_add]
        split
        · rw [decide_eq_false (by linarith)]; rfl
        · rw [round_of_rep (hD x (by simp))]
          show 2 * eta - eta < x
          linarith
    intro h
    have := foldl_pos l (fun w hw => hl w (by simp [hw])) _ key
    rw [h] at this
    have : 2 * eta - eta < 0 := this
    linarith

theorem hypWeight_double {L : Libm} {e : F64} {x : ℝ} (h : hypWeight L e = fin x) : Double x := by
  unfold hypWeight at h
  generalize ln L (div (add (fin 1) e) (sub (fin 1) e)) = v at h
  cases v with
  | nan => cases h
  | inf s => cases h
  | fin a =>
    simp only [div, if_neg (show (2 : ℝ) ≠ 0 by norm_num)] at h
    exact rnd_is_double h

theorem reach_weights {L : Libm} {S : Examples X ℝ} {wl : WeakLearner F64 H} {s st : AdaBoostF H} {it : Nat} (h : FloatReach L S wl s it st) :
    AllDouble st.weights := by
  induction h with
  | start h =>
    change AdaBoostF.preprocess S s = _ at h
    unfold AdaBoostF.preprocess at h
    split at h
    · cases h
    · cases h; intro x hx; cases hx
  | @next it s₁ out _ hb hf ih =>
    change AdaBoostF.Boost L S s₁ wl it _ at hb
    unfold AdaBoostF.Boost at hb
    split at hb
    · cases hb; cases hf
    · obtain ⟨edge, -, ⟨-, h⟩ | ⟨-, d, hd, h⟩⟩ := hb
      · cases h; cases hf
      · cases d with
        | error e => cases h
        | ok d =>
          cases h
          intro x hx
          rcases List.mem_append.mp hx with h | h
          · exact ih x h
          · exact hypWeight_double (List.mem_singleton.mp h).symm

/-- `from_slices` fails only when none of the votes is positive. -/
theorem fromSlices_error {ws : List F64} {hs : List H} (hD : AllDouble ws) {p : Panic} (h : F64.fromSlices ws hs = .error p) :
    p = .assertion ∧ ∀ q ∈ ws.zip hs, ¬ Lt (fin 0) q.1 := by
  classical
  unfold F64.fromSlices F64.normalize at h
  simp only [Except.map] at h
  split at h
  · rename_i e he
    cases h
    split at he
    · rename_i hz
      cases he
      refine ⟨rfl, fun q hq hpos => ?_⟩
      refine sum_pos_ne_zero ?_ ?_ ?_ hz
      · exact List.ne_nil_of_mem (List.mem_map_of_mem (List.mem_filter.mpr ⟨hq, by simpa using hpos⟩))
      · simp only [List.mem_map, List.mem_filter]
        rintro _ ⟨q', ⟨-, h2⟩, rfl⟩
        simpa using h2
      · intro x hx
        simp only [List.mem_map, List.mem_filter] at hx
        obtain ⟨q', ⟨h1, -⟩, h3⟩ := hx
        exact hD x (h3 ▸ (List.of_mem_zip h1).1)
    · cases he
  · cases h

/-- C90, what holds of it: for sound weights every schedule computes the edge to within `1e-9`. -/
theorem float_edge_accurate_partial {S : Examples X ℝ} (hS : ∀ e ∈ S, e.2 = 1 ∨ e.2 = -1) (hn : S.length ≤ 10 ^ 5) {d : List F64} (hd : SoundWeights S.length d)
    (f : H) (hc : ∀ e ∈ S, ∃ c, conf f e.1 = fin c ∧ |c| ≤ 1) {r : F64} (h : Inner (F64.margins S f) d r) :
    ∃ e, r = fin e ∧ |e - exactEdge S d f| ≤ 1 / 10 ^ 9 := by
  obtain ⟨xs, rfl, hl, hx, hs, -⟩ := hd
  have hQ1 : (S.zip xs).map Prod.fst = S := List.map_fst_zip (by omega)
  have hQ2 : (S.zip xs).map Prod.snd = xs := List.map_snd_zip (by omega)
  have hd : xs.map fin = (S.zip xs).map fun p => fin p.2 := by
    conv_lhs => rw [← hQ2, List.map_map]
    rfl
  rw [hd] at h ⊢
  obtain ⟨e, h1, -, h2⟩ := edge_fin hS hn (S.zip xs) hQ1 (fun p hp => by rw [← two_eta]; exact hx _ (List.of_mem_zip hp).2) (by rw [hQ2]; exact hs) f hc h
  exact ⟨e, h1, by rw [exactEdge_eq hQ1]; exact h2⟩

/-- The state during a run: sound weights that belong to the examples. -/
def FloatInv (S : Examples X ℝ) (M : Nat) (s : AdaBoostF H) : Prop :=
  s.maxIter = M ∧ ∃ Q : List ((X × ℝ) × ℝ), Q.map Prod.fst = S ∧ s.dist = (Q.map fun p => fin p.2) ∧ (∀ p ∈ Q, 2 * eta ≤ p.2) ∧
      |(Q.map Prod.snd).sum - 1| ≤ 25 / 10 ^ 8

/-- C91: AdaBoost in `f64` with a learner whose edges stay below `0.998` in absolute value: in every schedule, with every `exp` and `ln` that are
accurate to `2⁻⁵⁰`, all the weights the learner sees are sound, and the only possible failure is that no hypothesis got a positive vote. -/
theorem adaboost_float_weights_sound (L : Libm) (S : Examples X ℝ) (hS : ∀ e ∈ S, e.2 = 1 ∨ e.2 = -1) (hne : S ≠ []) (hn : S.length ≤ 10 ^ 5)
    (hb : checkBinary S = .ok ()) (wl : WeakLearner F64 H) (s : AdaBoostF H) (hwl : FairRun L S wl s (-(998 / 1000)) (998 / 1000)) {r}
    (h : (AdaBoostF.booster L S).Runs wl s r) :
    (∃ f qs, r = .ok (f, qs) ∧ qs.length = floatLimit S s ∧ ∀ d ∈ qs, SoundWeights S.length d) ∨
      (r = .error .assertion ∧ ∃ st, FloatReach L S wl s (floatLimit S s + 1) st ∧ ∀ p ∈ st.weights.zip st.hypotheses, ¬ Lt (fin 0) p.1) := by
  have main : ∀ {s₀ r}, AdaBoostF.preprocess S s = .ok s₀ → (AdaBoostF.booster L S).Loop wl s₀ 1 r →
      ∃ s' qs, r = .ok (s', qs) ∧ (∀ d ∈ qs, SoundWeights S.length d) ∧ qs.length = floatLimit S s ∧ FloatReach L S wl s (floatLimit S s + 1) s' := by
    intro s₀ r hp hl
    obtain ⟨x₀, -, hd, hx, hs, -, -, hm⟩ := float_preprocess hp hne hn
    obtain ⟨s', qs, h1, h2, -, h4, h5⟩ := float_loop L (fun _ => FloatInv S (floatLimit S s)) (floatLimit S s)
      (by
        rintro s it r hR hD ⟨hm, Q, hQ, hd, hx, hs⟩ hit hbo
        have hsound := sound_of hQ hx hs (hd ▸ hD)
        rw [← hd] at hsound
        have hedge := hwl.edge it _ hR (by omega) hsound
        have hE : |(Q.map fun p => p.2 * (p.1.2 * (conf (wl it s.dist) p.1.1).val)).sum| ≤ 998 / 1000 := by
          rw [← exactEdge_eq hQ, ← hd, abs_le]; exact hedge
        obtain ⟨e, w, g, -, -, -, hr, hg, hgs, -⟩ := boost_fin L hS hne hn (by omega) Q hQ hd hx hs (hwl.conf it _ hR (by omega) hsound) hE hbo
        refine ⟨_, hr, hm, Q.map fun p => (p.1, g p), ?_, ?_, ?_, ?_⟩
        · rw [List.map_map, ← hQ]; rfl
        · simp only [List.map_map]; rfl
        · simp only [List.mem_map]; rintro _ ⟨p, hp, rfl⟩; exact (hg p hp).1
        · rw [List.map_map]; exact hgs)
      (fun s it h => h.1)
      (by rintro s it hD ⟨-, Q, hQ, hd, hx, hs⟩; rw [hd]; exact sound_of hQ hx hs (hd ▸ hD)) hl (.start hp) (preprocess_double hp)
      ⟨hm, S.map fun e => (e, x₀), by rw [List.map_map]; exact List.map_id _, hd, by simp only [List.mem_map]; rintro _ ⟨e, -, rfl⟩; exact hx, hs⟩ (by omega)
    exact ⟨s', qs, h1, h2, by omega, h5⟩
  cases h with
  | pre h => obtain ⟨s₀, h'⟩ := preprocess_error (s := s) hb; rw [show (AdaBoostF.booster L S).preprocess s wl = AdaBoostF.preprocess S s from rfl, h'] at h; cases h
  | loop h hl => obtain ⟨_, _, h', -⟩ := main h hl; cases h'
  | post h hl hp =>
    right
    obtain ⟨_, _, h', -, -, h3⟩ := main h hl
    cases h'
    obtain ⟨rfl, h4⟩ := fromSlices_error (reach_weights h3) hp
    exact ⟨rfl, _, h3, h4⟩
  | ok h hl hp => left; obtain ⟨_, _, h', h1, h2, -⟩ := main h hl; cases h'; exact ⟨_, _, rfl, h2, h1⟩

/-- The state during a run with edges in `[γ, 0.998]`, after `t` rounds. -/
def TrainInv (S : Examples X ℝ) (M : Nat) (γ : ℝ) (t : Nat) (s : AdaBoostF H) : Prop :=
  s.maxIter = M ∧ ∃ (Q : List ((X × ℝ) × ℝ)) (V : List (ℝ × H)) (Z : ℝ), Q.map Prod.fst = S ∧ s.dist = (Q.map fun p => fin p.2) ∧
    (∀ p ∈ Q, 2 * eta ≤ p.2) ∧ |(Q.map Prod.snd).sum - 1| ≤ 25 / 10 ^ 8 ∧
    s.weights = (V.map fun v => fin v.1) ∧ s.hypotheses = V.map Prod.snd ∧ V.length = t ∧
    (∀ v ∈ V, 4 / 10 ^ 4 ≤ v.1 ∧ v.1 ≤ 4) ∧ (∀ v ∈ V, ∀ e ∈ S, ∃ c : ℝ, conf v.2 e.1 = fin c ∧ |c| ≤ 1) ∧
    0 < Z ∧ Z ≤ (Real.sqrt (1 - γ ^ 2) + 1 / 10 ^ 5) ^ t ∧
    ∀ p ∈ Q, (1 / 2) ^ t * (1 / (2 * S.length)) ≤ p.2 ∧
      (1 - 3 / 10 ^ 7) ^ (t + 1) * Real.exp (-(V.map fun v => v.1 * marg v.2 p.1).sum) ≤ S.length * p.2 * Z

theorem log_ratio_ge {e : ℝ} (h0 : 0 ≤ e) (h1 : e < 1) : e ≤ Real.log ((1 + e) / (1 - e)) := by
  have hq : 0 < (1 + e) / (1 - e) := div_pos (by linarith) (by linarith)
  have := Real.one_sub_inv_le_log_of_pos hq
  refine le_trans ?_ this
  rw [inv_div, le_sub_iff_add_le, ← le_sub_iff_add_le', div_le_iff₀ (by linarith)]
  nlinarith

theorem train_step (L : Libm) {S : Examples X ℝ} (hS : ∀ e ∈ S, e.2 = 1 ∨ e.2 = -1) (hne : S ≠ []) (hn : S.length ≤ 10 ^ 5) {wl : WeakLearner F64 H}
    {γ : ℝ} (hγ : 1 / 1000 ≤ γ) (hγ2 : γ ≤ 998 / 1000) {M : Nat} (hM : M ≤ 900) {sI s : AdaBoostF H} (hwl : FairRun L S wl sI γ (998 / 1000)) {t : Nat} {r} (hR : FloatReach L S wl sI (t + 1) s)
    (hD : AllDouble s.dist) (hI : TrainInv S M γ t s) (ht : t + 1 ≤ M) (hbo : AdaBoostF.Boost L S s wl (t + 1) r) :
    ∃ s', r = .ok ⟨s', .cont, [s.dist]⟩ ∧ TrainInv S M γ (t + 1) s' := by
  have het0 := eta_pos
  obtain ⟨hm, Q, V, Zp, hQ, hd, hx, hs, hws, hhs, hVl, hVw, hVc, hZp, hZpB, hp⟩ := hI
  have hsound := sound_of hQ hx hs (hd ▸ hD)
  rw [← hd] at hsound
  have hedge := hwl.edge (t + 1) _ hR (by omega) hsound
  have hEeq : exactEdge S s.dist (wl (t + 1) s.dist) = (Q.map fun p => p.2 * (p.1.2 * (conf (wl (t + 1) s.dist) p.1.1).val)).sum := by
    rw [← exactEdge_eq hQ, ← hd]
  rw [hEeq] at hedge
  obtain ⟨e, w, g, hee, hwe, hw4, hr, hg, hgs, hZle⟩ := boost_fin L hS hne hn (by omega) Q hQ hd hx hs (hwl.conf (t + 1) _ hR (by omega) hsound)
    (abs_le.mpr ⟨by linarith [hedge.1], hedge.2⟩) hbo
  set f := wl (t + 1) s.dist
  set Z := (Q.map fun p => p.2 * Real.exp (-(w * marg f p.1))).sum with hZ
  have hx0 : ∀ p ∈ Q, 0 < p.2 := fun p hp => by linarith [hx p hp]
  have hQne : Q ≠ [] := by rintro rfl; apply hne; rw [← hQ]; rfl
  have hZ0 : 0 < Z := by
    rw [hZ]
    apply List.sum_pos
    · simp only [List.mem_map]; rintro _ ⟨p, hp, rfl⟩; exact mul_pos (hx0 p hp) (Real.exp_pos _)
    · simpa using hQne
  have hl1 : (1 : ℝ) ≤ S.length := by exact_mod_cast List.length_pos_iff.mpr hne
  have hl2 : (S.length : ℝ) ≤ 100000 := by exact_mod_cast (by omega : S.length ≤ 100000)
  have hee' := abs_le.mp hee
  have hwe' := abs_le.mp hwe
  have hw4' := abs_le.mp hw4
  have he0 : γ - 1 / 10 ^ 9 ≤ e := by linarith [hedge.1]
  have he1 : e < 1 := by linarith [hedge.2]
  have hwlo : 4 / 10 ^ 4 ≤ w := by
    have := log_ratio_ge (e := e) (by linarith) he1
    linarith
  -- the factor of the bound
  have hsq : Z ≤ Real.sqrt (1 - γ ^ 2) + 1 / 10 ^ 5 := by
    have hs1 : 6 / 100 ≤ Real.sqrt (1 - γ ^ 2) := Real.le_sqrt_of_sq_le (by nlinarith)
    have hs2 : Real.sqrt (1 - γ ^ 2) * Real.sqrt (1 - γ ^ 2) = 1 - γ ^ 2 := Real.mul_self_sqrt (by nlinarith)
    have : Real.sqrt (1 - e ^ 2) ≤ Real.sqrt (1 - γ ^ 2) + 4 / 10 ^ 6 := by
      apply Real.sqrt_le_iff.mpr
      refine ⟨by linarith, ?_⟩
      nlinarith
    linarith
  -- every new weight
  have hkey : ∀ p ∈ Q, (1 - 3 / 10 ^ 7) * (p.2 * Real.exp (-(w * marg f p.1)) / Z) ≤ g p ∧ p.2 / 2 ≤ g p := by
    intro p hpQ
    obtain ⟨-, h1, h2⟩ := hg p hpQ
    have h3 := (abs_le.mp h2).1
    have hlow := (hp p hpQ).1
    have hetap : eta ≤ 1 / 10 ^ 9 * (p.2 / (19996 / 10000)) := by
      have h4 : (1 / 2 : ℝ) ^ 900 * (1 / (2 * 100000)) ≤ p.2 := by
        refine le_trans ?_ hlow
        have h5 : (1 / 2 : ℝ) ^ 900 ≤ (1 / 2) ^ t := pow_le_pow_of_le_one (by norm_num) (by norm_num) (by omega)
        have h6 : 1 / (2 * 100000) ≤ 1 / (2 * (S.length : ℝ)) := one_div_le_one_div_of_le (by linarith) (by linarith)
        exact mul_le_mul h5 h6 (by norm_num) (by positivity)
      have h7 := eta_le_pow
      have h8 : (0 : ℝ) < (1 / 2) ^ 900 := by positivity
      generalize ((1 : ℝ) / 2) ^ 900 = a at *
      linarith
    generalize p.2 * Real.exp (-(w * marg f p.1)) / Z = q at *
    constructor <;> linarith
  refine ⟨_, hr, hm, Q.map (fun p => (p.1, g p)), V ++ [(w, f)], Zp * Z, ?_, ?_, ?_, ?_, ?_, ?_, ?_, ?_, ?_, mul_pos hZp hZ0, ?_, ?_⟩
  · rw [List.map_map, ← hQ]; rfl
  · simp only [List.map_map]; rfl
  · simp only [List.mem_map]; rintro _ ⟨p, hp, rfl⟩; exact (hg p hp).1
  · rw [List.map_map]; exact hgs
  · simp [hws]
  · simp [hhs]
  · simp [hVl]
  · simp only [List.mem_append, List.mem_singleton]
    rintro v (hv | rfl)
    · exact hVw v hv
    · exact ⟨hwlo, hw4'.2⟩
  · simp only [List.mem_append, List.mem_singleton]
    rintro v (hv | rfl)
    · exact hVc v hv
    · exact hwl.conf (t + 1) _ hR (by omega) hsound
  · rw [pow_succ]
    exact mul_le_mul hZpB hsq hZ0.le (by positivity)
  · simp only [List.mem_map]
    rintro _ ⟨p, hpQ, rfl⟩
    obtain ⟨h1, h2⟩ := hp p hpQ
    obtain ⟨h3, h4⟩ := hkey p hpQ
    refine ⟨?_, ?_⟩
    · rw [pow_succ]
      show (1 / 2 : ℝ) ^ t * (1 / 2) * (1 / (2 * S.length)) ≤ g p
      linarith
    · show (1 - 3 / 10 ^ 7 : ℝ) ^ (t + 1 + 1) * Real.exp (-((V ++ [(w, f)]).map fun v => v.1 * marg v.2 p.1).sum) ≤ S.length * g p * (Zp * Z)
      rw [List.map_append, List.sum_append, List.map_singleton, List.sum_singleton, neg_add, Real.exp_add]
      have hE := Real.exp_pos (-(w * marg f p.1))
      calc (1 - 3 / 10 ^ 7 : ℝ) ^ (t + 1 + 1) * (Real.exp (-(V.map fun v => v.1 * marg v.2 p.1).sum) * Real.exp (-(w * marg f p.1)))
          = (1 - 3 / 10 ^ 7) * Real.exp (-(w * marg f p.1)) *
              ((1 - 3 / 10 ^ 7 : ℝ) ^ (t + 1) * Real.exp (-(V.map fun v => v.1 * marg v.2 p.1).sum)) := by rw [pow_succ]; ring
        _ ≤ (1 - 3 / 10 ^ 7) * Real.exp (-(w * marg f p.1)) * (S.length * p.2 * Zp) := by
            apply mul_le_mul_of_nonneg_left h2 (mul_nonneg (by norm_num) hE.le)
        _ = S.length * Zp * Z * ((1 - 3 / 10 ^ 7) * (p.2 * Real.exp (-(w * marg f p.1)) / Z)) := by field_simp
        _ ≤ S.length * Zp * Z * g p := by
            apply mul_le_mul_of_nonneg_left h3 (by positivity)
        _ = _ := by ring

/-- C92: the training error of AdaBoost in `f64`.  Up to `100000` examples with labels `±1`, up to `900` rounds, a learner whose hypotheses answer in
`[-1, 1]` and have an edge between `γ ≥ 0.001` and `0.998` for all sound weights: in every schedule and with every `exp` and `ln` that
are accurate to `2⁻⁵⁰`, `run` returns a classifier, after exactly as many calls of the learner as there are rounds, and it errs on at most a fraction
`1.001 (√(1 - γ²) + 10⁻⁵)^T` of the training examples. -/
theorem adaboost_float_training_error (L : Libm) (S : Examples X ℝ) (hS : ∀ e ∈ S, e.2 = 1 ∨ e.2 = -1) (hne : S ≠ []) (hn : S.length ≤ 10 ^ 5)
    (hb : checkBinary S = .ok ()) (wl : WeakLearner F64 H) (γ : ℝ) (hγ : 1 / 1000 ≤ γ) (hγ2 : γ ≤ 998 / 1000) 
    (s : AdaBoostF H) (hwl : FairRun L S wl s γ (998 / 1000)) (hT1 : 1 ≤ floatLimit S s) (hT : floatLimit S s ≤ 900) {r} (h : (AdaBoostF.booster L S).Runs wl s r) :
    ∃ f qs, r = .ok (f, qs) ∧ qs.length = floatLimit S s ∧ (∀ d ∈ qs, SoundWeights S.length d) ∧
      (floatMistakes S f : ℝ) ≤ 1001 / 1000 * (Real.sqrt (1 - γ ^ 2) + 1 / 10 ^ 5) ^ floatLimit S s * S.length := by
  have hu := u_small
  have hu0 := u_pos
  have het := eta_tiny
  have het0 := eta_pos
  have hl1 : (1 : ℝ) ≤ S.length := by exact_mod_cast List.length_pos_iff.mpr hne
  have hl2 : (S.length : ℝ) ≤ 100000 := by exact_mod_cast (by omega : S.length ≤ 100000)
  set T := floatLimit S s with hTdef
  have main : ∀ {s₀ r}, AdaBoostF.preprocess S s = .ok s₀ → (AdaBoostF.booster L S).Loop wl s₀ 1 r →
      ∃ s' qs, r = .ok (s', qs) ∧ (∀ d ∈ qs, SoundWeights S.length d) ∧ qs.length = T ∧ TrainInv S T γ T s' := by
    intro s₀ r hp hl
    obtain ⟨x₀, hx₀, hd, hx, hs, hw, hh, hm⟩ := float_preprocess hp hne hn
    obtain ⟨s', qs, h1, h2, ⟨t, ht, hI⟩, h4, -⟩ := float_loop L (fun it s => ∃ t, it = t + 1 ∧ TrainInv S T γ t s) T
      (by
        rintro s it r hR hD ⟨t, rfl, hI⟩ hit hbo
        obtain ⟨s', h1, h2⟩ := train_step L hS hne hn hγ hγ2 hT hwl hR hD hI hit hbo
        exact ⟨s', h1, t + 1, rfl, h2⟩)
      (fun s it h => by obtain ⟨t, -, h⟩ := h; exact h.1)
      (by rintro s it hD ⟨t, -, -, Q, V, Z, hQ, hd, hx, hs, -⟩; rw [hd]; exact sound_of hQ hx hs (hd ▸ hD)) hl (.start hp) (preprocess_double hp)
      ⟨0, rfl, hm, S.map (fun e => (e, x₀)), [], 1, by rw [List.map_map]; exact List.map_id _, hd,
        by simp only [List.mem_map]; rintro _ ⟨e, -, rfl⟩; exact hx, hs, by simp [hw], by simp [hh], rfl, by simp, by simp, one_pos, by simp, by
          simp only [List.mem_map]
          rintro _ ⟨e, -, rfl⟩
          have hq := abs_le.mp hx₀
          have hle : (S.length : ℝ) * eta ≤ 100000 * (1 / 10 ^ 60) := by gcongr
          have hdp : 0 < 1 / (S.length : ℝ) := by positivity
          have hd2 : 1 / 100000 ≤ 1 / (S.length : ℝ) := one_div_le_one_div_of_le (by linarith) hl2
          have h2 : 1 / (2 * (S.length : ℝ)) = 1 / 2 * (1 / S.length) := by field_simp
          have h3 : (1 - u) * (1 / S.length) - eta ≤ x₀ := by linarith
          constructor
          · simp only [pow_zero, one_mul]
            rw [h2]
            nlinarith
          · simp only [zero_add, pow_one, List.map_nil, List.sum_nil, neg_zero, Real.exp_zero, mul_one]
            have h4 : (S.length : ℝ) * ((1 - u) * (1 / S.length) - eta) ≤ S.length * x₀ := by gcongr
            have h5 : (S.length : ℝ) * ((1 - u) * (1 / S.length) - eta) = 1 - u - S.length * eta := by field_simp
            linarith⟩ (by omega)
    have : t = T := by omega
    subst this
    exact ⟨s', qs, h1, h2, by omega, hI⟩
  -- the vote
  have vote : ∀ {s' : AdaBoostF H}, TrainInv S T γ T s' → ∃ f, F64.fromSlices s'.weights s'.hypotheses = .ok f ∧
      (floatMistakes S f : ℝ) ≤ 1001 / 1000 * (Real.sqrt (1 - γ ^ 2) + 1 / 10 ^ 5) ^ T * S.length := by
    rintro s' ⟨-, Q, V, Z, hQ, -, hx, hs, hws, hhs, hVl, hVw, hVc, hZ0, hZB, hp⟩
    obtain ⟨z, hz0, hz1, -, f, hf, hvote⟩ := vote_fin (X := X) V (by rintro rfl; simp at hVl; omega) (by omega) hVw
    refine ⟨f, by rw [hws, hhs]; exact hf, ?_⟩
    have hx0 : ∀ p ∈ Q, 0 < p.2 := fun p hp => by linarith [hx p hp]
    -- a mistake means a small margin
    have hmist : ∀ p ∈ Q, (F64.predict f p.1.1 : ℝ) ≠ p.1.2 → (V.map fun v => v.1 * marg v.2 p.1).sum ≤ 1 / 10 ^ 7 := by
      intro p hpQ hne'
      have hpS : p.1 ∈ S := hQ ▸ List.mem_map_of_mem hpQ
      obtain ⟨F, hF, hFe⟩ := hvote p.1.1 fun v hv => hVc v hv p.1 hpS
      set A := (V.map fun v => v.1 * (conf v.2 p.1.1).val).sum with hA
      have hFe' := abs_le.mp hFe
      have hyA : p.1.2 * A ≤ 1 / 10 ^ 11 * 4000 := by
        have hAz : A = A / z * z := by field_simp
        have hsign : p.1.2 * (A / z) ≤ 1 / 10 ^ 11 := by
          unfold F64.predict at hne'
          rw [hF] at hne'
          by_cases hF0 : (0 : ℝ) ≤ F
          · rw [if_pos (show F64.Le (fin 0) (fin F) from hF0)] at hne'
            rcases hS p.1 hpS with h1 | h1
            · rw [h1] at hne'; simp at hne'
            · rw [h1]; linarith
          · rw [if_neg (show ¬ F64.Le (fin 0) (fin F) from hF0)] at hne'
            rcases hS p.1 hpS with h1 | h1
            · rw [h1]; linarith
            · rw [h1] at hne'; simp at hne'
        calc p.1.2 * A = p.1.2 * (A / z) * z := by rw [mul_assoc, ← hAz]
          _ ≤ 1 / 10 ^ 11 * z := by gcongr
          _ ≤ _ := by gcongr
      have hyA2 : p.1.2 * A = (V.map fun v => v.1 * (p.1.2 * (conf v.2 p.1.1).val)).sum := by
        rw [hA, ← List.sum_map_mul_left]
        congr 1
        apply List.map_congr_left
        intro v _
        ring
      have hcl := sum_close V (fun v => v.1 * marg v.2 p.1) (fun v => v.1 * (p.1.2 * (conf v.2 p.1.1).val)) (fun _ => 8 * u) (by
        intro v hv
        obtain ⟨c, hc, hc1⟩ := hVc v hv p.1 hpS
        have h1 := (marg_le (h := v.2) (hS p.1 hpS) hc hc1).2.2
        obtain ⟨h2, h3⟩ := hVw v hv
        rw [hc, ← mul_sub, abs_mul, abs_of_nonneg (by linarith)]
        show v.1 * |marg v.2 p.1 - p.1.2 * c| ≤ 8 * u
        nlinarith [abs_nonneg (marg v.2 p.1 - p.1.2 * c)])
      rw [← hyA2] at hcl
      have hcl' := (abs_le.mp hcl).2
      have hlen : (V.map fun _ : ℝ × H => 8 * u).sum ≤ 900 * (8 * u) := by
        refine (sum_le_const V _ (8 * u) fun _ _ => le_rfl).trans ?_
        have : (V.length : ℝ) ≤ 900 := by rw [hVl]; exact_mod_cast hT
        gcongr
      linarith
    -- counting
    have hcount : ∀ P : List ((X × ℝ) × ℝ), (∀ p ∈ P, p ∈ Q) →
        (P.countP fun p => decide ((F64.predict f p.1.1 : ℝ) ≠ p.1.2) : ℝ) * (9995 / 10000) ≤ S.length * Z * (P.map Prod.snd).sum := by
      intro P
      induction P with
      | nil => intro _; simp
      | cons p P ih =>
        intro hP
        have h1 := ih fun p' hp' => hP p' (by simp [hp'])
        have hpQ := hP p (by simp)
        simp only [List.countP_cons, List.map_cons, List.sum_cons, Nat.cast_add, mul_add, add_mul]
        have hpos : 0 ≤ (S.length : ℝ) * Z * p.2 := by have := hx0 p hpQ; positivity
        by_cases hc : (F64.predict f p.1.1 : ℝ) ≠ p.1.2
        · have h2 := hmist p hpQ hc
          have h3 := (hp p hpQ).2
          have h4 : (9996 / 10000 : ℝ) ≤ (1 - 3 / 10 ^ 7) ^ (T + 1) := by
            have := one_add_mul_le_pow (show (-2 : ℝ) ≤ -(3 / 10 ^ 7) by norm_num) (T + 1)
            rw [← sub_eq_add_neg] at this
            refine le_trans ?_ this
            have hT' : (T : ℝ) ≤ 900 := by exact_mod_cast hT
            push_cast
            linarith
          have h5 : 1 - 1 / 10 ^ 7 ≤ Real.exp (-(V.map fun v => v.1 * marg v.2 p.1).sum) := by
            have := Real.add_one_le_exp (-(V.map fun v => v.1 * marg v.2 p.1).sum)
            linarith
          have h6 : (9996 / 10000 : ℝ) * (1 - 1 / 10 ^ 7) ≤ S.length * p.2 * Z := by
            refine le_trans ?_ h3
            exact mul_le_mul h4 h5 (by norm_num) (by linarith)
          have h7 : (S.length : ℝ) * Z * p.2 = S.length * p.2 * Z := by ring
          rw [if_pos (decide_eq_true hc), Nat.cast_one]
          linarith
        · rw [if_neg (by simpa using hc), Nat.cast_zero, zero_mul]
          linarith
    have hc := hcount Q fun p hp => hp
    have hmeq : (floatMistakes S f : ℝ) = (Q.countP fun p => decide ((F64.predict f p.1.1 : ℝ) ≠ p.1.2) : ℕ) := by
      rw [floatMistakes, ← hQ, List.countP_map]
      rfl
    rw [← hmeq] at hc
    have hs' := (abs_le.mp hs).2
    have hB0 : 0 ≤ (Real.sqrt (1 - γ ^ 2) + 1 / 10 ^ 5) ^ T := by positivity
    have hfin : (floatMistakes S f : ℝ) * (9995 / 10000) ≤ S.length * (Real.sqrt (1 - γ ^ 2) + 1 / 10 ^ 5) ^ T * (1 + 25 / 10 ^ 8) := by
      refine hc.trans ?_
      have hS0 : 0 ≤ (Q.map Prod.snd).sum := by linarith [(abs_le.mp hs).1]
      gcongr
      linarith
    nlinarith [mul_nonneg (show (0 : ℝ) ≤ S.length by linarith) hB0]
  cases h with
  | pre h => obtain ⟨s₀, h'⟩ := preprocess_error (s := s) hb; rw [show (AdaBoostF.booster L S).preprocess s wl = AdaBoostF.preprocess S s from rfl, h'] at h; cases h
  | loop h hl => obtain ⟨_, _, h', -⟩ := main h hl; cases h'
  | post h hl hp =>
    obtain ⟨_, _, h', h1, h2, hI⟩ := main h hl
    cases h'
    obtain ⟨f, hf, -⟩ := vote hI
    rw [show (AdaBoostF.booster L S).postprocess _ = F64.fromSlices _ _ from rfl, hf] at hp
    cases hp
  | ok h hl hp =>
    obtain ⟨_, _, h', h1, h2, hI⟩ := main h hl
    cases h'
    obtain ⟨f, hf, hm⟩ := vote hI
    rw [show (AdaBoostF.booster L S).postprocess _ = F64.fromSlices _ _ from rfl, hf] at hp
    cases hp
    exact ⟨_, _, rfl, h2, h1, hm⟩

/-- Once the bound is below one example, no example is wrong. -/
theorem adaboost_float_separates (L : Libm) (S : Examples X ℝ) (hS : ∀ e ∈ S, e.2 = 1 ∨ e.2 = -1) (hne : S ≠ []) (hn : S.length ≤ 10 ^ 5)
    (hb : checkBinary S = .ok ()) (wl : WeakLearner F64 H) (γ : ℝ) (hγ : 1 / 1000 ≤ γ) (hγ2 : γ ≤ 998 / 1000) 
    (s : AdaBoostF H) (hwl : FairRun L S wl s γ (998 / 1000)) (hT1 : 1 ≤ floatLimit S s) (hT : floatLimit S s ≤ 900)
    (hlt : 1001 / 1000 * (Real.sqrt (1 - γ ^ 2) + 1 / 10 ^ 5) ^ floatLimit S s * S.length < 1) {r} (h : (AdaBoostF.booster L S).Runs wl s r) :
    ∃ f qs, r = .ok (f, qs) ∧ ∀ e ∈ S, (F64.predict f e.1 : ℝ) = e.2 := by
  obtain ⟨f, qs, h1, -, -, h4⟩ := adaboost_float_training_error L S hS hne hn hb wl γ hγ hγ2 s hwl hT1 hT h
  refine ⟨f, qs, h1, fun e he => ?_⟩
  have h5 : (floatMistakes S f : ℝ) < 1 := lt_of_le_of_lt h4 hlt
  have h6 : floatMistakes S f = 0 := by
    have : floatMistakes S f < 1 := by exact_mod_cast h5
    omega
  rw [floatMistakes, List.countP_eq_zero] at h6
  by_contra hc
  exact h6 e he (by simpa using hc)

/-- A hypothesis that is right about the ten examples but not sure. -/
noncomputable def exUnsure : Fn Nat F64 := ⟨fun i => if i < 5 then fin (1 / 2) else fin (-(1 / 2))⟩

theorem exTen_labels : ∀ e ∈ exTen, e.2 = 1 ∨ e.2 = -1 := by
  simp only [exTen, List.mem_map]
  rintro _ ⟨i, -, rfl⟩
  by_cases h : i < 5 <;> simp [h]

theorem exUnsure_edge {xs : List ℝ} (hl : xs.length = exTen.length) : exactEdge exTen (xs.map fin) exUnsure = xs.sum * (1 / 2) := by
  have hval : ∀ e ∈ exTen, e.2 * (conf exUnsure e.1).val = 1 / 2 := by
    simp only [exTen, List.mem_map]
    rintro _ ⟨i, -, rfl⟩
    by_cases h : i < 5
    · simp [exUnsure, conf, h, F64.val]
    · simp only [exUnsure, conf, h, if_false, F64.val]; norm_num
  have key : ∀ (xs : List ℝ) (S : Examples Nat ℝ), xs.length = S.length → (∀ e ∈ S, e.2 * (conf exUnsure e.1).val = 1 / 2) →
      (List.zipWith (fun w e => w.val * (e.2 * (conf exUnsure e.1).val)) (xs.map fin) S).sum = xs.sum * (1 / 2) := by
    intro xs
    induction xs with
    | nil => intro S _ _; simp
    | cons x xs ih =>
      intro S hl hv
      cases S with
      | nil => simp at hl
      | cons e S =>
        simp only [List.map_cons, List.zipWith_cons_cons, List.sum_cons]
        rw [ih S (by simpa using hl) (fun e' he' => hv e' (by simp [he'])), hv e (by simp), F64.val]
        ring
  exact key xs exTen hl hval

/-- The hypotheses of C91 and C92 are met: a learner with edges about one half. -/
theorem exUnsure_fair : FairLearner exTen (fun _ _ => exUnsure) (4 / 10) (998 / 1000) := by
  constructor
  · intro it d _ e _
    by_cases h : e.1 < 5
    · exact ⟨1 / 2, by simp [exUnsure, conf, h], by norm_num [abs_of_pos]⟩
    · exact ⟨-(1 / 2), by simp [exUnsure, conf, h], by norm_num [abs_neg, abs_of_pos]⟩
  · rintro it d ⟨xs, rfl, hl, -, hs, -⟩
    have hs' := abs_le.mp hs
    rw [exUnsure_edge hl]
    constructor <;> linarith

/-- There are such libraries, for example the exact one. -/
noncomputable def exLibm : Libm where
  expA := Real.exp
  lnA := Real.log
  exp_err x := by simpa using by positivity
  ln_err x _ := by simp

/-- Every call of `run` has a result, whatever the parameters. -/
theorem exists_float_run (L : Libm) (S : Examples X ℝ) (wl : WeakLearner F64 H) (s : AdaBoostF H) : ∃ r, (AdaBoostF.booster L S).Runs wl s r := by
  cases hp : AdaBoostF.preprocess S s with
  | error e => exact ⟨_, .pre hp⟩
  | ok s₀ =>
    obtain ⟨r, hr⟩ := exists_loop L S wl _ s₀ 1 rfl
    cases r with
    | error e => exact ⟨_, .loop hp hr⟩
    | ok p =>
      cases ho : (AdaBoostF.booster L S).postprocess p.1 with
      | error e => exact ⟨_, .post hp hr ho⟩
      | ok o => exact ⟨_, .ok hp hr ho⟩

/-- A hundred rounds on the ten examples: no mistakes are left. -/
example (L : Libm) {r} (h : (AdaBoostF.booster L exTen).Runs (fun _ _ => exUnsure) { AdaBoostF.init exTen with forceQuitAt := some 100 } r) :
    ∃ f qs, r = .ok (f, qs) ∧ ∀ e ∈ exTen, (F64.predict f e.1 : ℝ) = e.2 := by
  refine adaboost_float_separates L exTen exTen_labels (by simp [exTen, List.range, List.range.loop]) (by simp [exTen]) exTen_valid _ (4 / 10) (by norm_num) (by norm_num)
    _ exUnsure_fair.run (by simp [floatLimit]) (by simp [floatLimit]) ?_ h
  have hs : Real.sqrt (1 - (4 / 10) ^ 2) ≤ 92 / 100 := by
    apply Real.sqrt_le_iff.mpr
    norm_num
  have hl : (exTen.length : ℝ) = 10 := by simp [exTen]
  have hf : floatLimit exTen { AdaBoostF.init (H := Fn Nat F64) exTen with forceQuitAt := some 100 } = 100 := rfl
  rw [hl, hf]
  calc 1001 / 1000 * (Real.sqrt (1 - (4 / 10) ^ 2) + 1 / 10 ^ 5) ^ 100 * 10 ≤ 1001 / 1000 * (92 / 100 + 1 / 10 ^ 5 : ℝ) ^ 100 * 10 := by gcongr
    _ < 1 := by norm_num

end Miniboosts.Props
