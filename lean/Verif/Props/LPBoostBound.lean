import Verif.Props.LPBoost
import Verif.Lemmas.FrankWolfe
import Mathlib.Data.Fintype.Card
import Mathlib.Data.Fintype.BigOperators

/-! # C26: LPBoost terminates for every weak learner -/

namespace Miniboosts.Props

open LPBoost

variable {H X : Type*} [Classifier H X ℝ]

/-- The cell of the margin vector of `h` in the grid of width `tol`. -/
noncomputable def marginCell (S : Examples X ℝ) (tol : ℝ) (h : H) (i : Fin S.length) : Fin (⌊2 / tol⌋₊ + 1) :=
  ⟨min ⌊(S[i].2 * conf h S[i].1 + 1) / tol⌋₊ ⌊2 / tol⌋₊, by omega⟩

theorem edge_close (S : Examples X ℝ) (d : List ℝ) (hl : d.length = S.length) (hd : Spec.IsProb d) (a b : H) (tol : ℝ)
    (h : ∀ e ∈ S, e.2 * conf b e.1 ≤ e.2 * conf a e.1 + tol) :
    Spec.edge S d (conf b) ≤ Spec.edge S d (conf a) + tol := by
  have h1 := LP.le_edge_of_margins S d hl hd (fun x => 1 * conf a x + (-1) * (conf b x : ℝ)) (-tol) (by
    intro e he
    have := h e he
    linarith)
  rw [edge_sub] at h1
  linarith

theorem cell_close (S : Examples X ℝ) (hS : Spec.PmLabels S) {tol : ℝ} (htol : 0 < tol) {a b : H}
    (ha : ∀ e ∈ S, |conf a e.1| ≤ (1 : ℝ)) (hb : ∀ e ∈ S, |conf b e.1| ≤ (1 : ℝ))
    (hc : marginCell S tol a = marginCell S tol b) : ∀ e ∈ S, e.2 * conf b e.1 ≤ e.2 * conf a e.1 + tol := by
  intro e he
  obtain ⟨i, hi, rfl⟩ := List.getElem_of_mem he
  have hab := congrArg Fin.val (congrFun hc ⟨i, hi⟩)
  have hrange : ∀ c : ℝ, |c| ≤ 1 → 0 ≤ S[i].2 * c + 1 ∧ S[i].2 * c + 1 ≤ 2 := by
    intro c hc
    have := abs_le.1 hc
    rcases hS _ he with h | h <;> rw [h] <;> constructor <;> linarith
  have ra := hrange _ (ha _ he)
  have rb := hrange _ (hb _ he)
  have hmin : ∀ c : ℝ, 0 ≤ c → c ≤ 2 → min ⌊c / tol⌋₊ ⌊2 / tol⌋₊ = ⌊c / tol⌋₊ := by
    intro c h0 h2
    exact min_eq_left (Nat.floor_le_floor (div_le_div_of_nonneg_right h2 htol.le))
  simp only [marginCell, Fin.getElem_fin] at hab
  rw [hmin _ ra.1 ra.2, hmin _ rb.1 rb.2] at hab
  have h1 := Nat.lt_floor_add_one ((S[i].2 * (conf b S[i].1 : ℝ) + 1) / tol)
  have h2 := Nat.floor_le (div_nonneg ra.1 htol.le)
  rw [← hab] at h1
  have h3 : (S[i].2 * (conf b S[i].1 : ℝ) + 1) / tol < (S[i].2 * (conf a S[i].1 : ℝ) + 1) / tol + 1 := by linarith
  rw [div_lt_iff₀ htol, add_mul, div_mul_cancel₀ _ htol.ne'] at h3
  linarith

/-- A run that is over has not panicked, when the sample is binary and `ν` is in range. -/
theorem lp_run_ok (S : Examples X ℝ) (s₀ : LPBoost ℝ H) (hn : s₀.nSample = S.length)
    (hbin : checkBinary S = .ok ()) (hnu : 1 ≤ s₀.nu) (hnu' : s₀.nu ≤ S.length)
    (solver : Solver ℝ) (hsolver : solver.Correct) (wl : WeakLearner ℝ H) {fuel : Nat} {r}
    (hr : (LPBoost.booster solver S).run wl fuel s₀ = some r) : ∃ f qs, r = .ok (f, qs) := by
  have hpre : ∃ s, LPBoost.preprocess S s₀ = .ok s := by
    unfold LPBoost.preprocess LPBoost.initSolver
    rw [hbin]; simp [hnu, hnu']
  obtain ⟨s1, hs1⟩ := hpre
  unfold Booster.run at hr
  rw [show (LPBoost.booster solver S).preprocess s₀ wl = .ok s1 from hs1] at hr
  simp only at hr
  cases hl : (LPBoost.booster solver S).loop wl fuel s1 1 with
  | none => rw [hl] at hr; simp at hr
  | some r' =>
    rw [hl] at hr
    rcases (LPBoost.booster solver S).loop_spec wl s₀ (Booster.Reachable.start (B := LPBoost.booster solver S)
      (wl := wl) (s := s₀) hs1) hl with ⟨n', qs', s', h1, h2, e, h3, h4⟩ | ⟨n', qs', s', out, k, h1, h2, h3, h4, qs, h5, h6⟩
    · obtain ⟨out, d, g1, -⟩ := lpboost_queries S s₀ hn solver hsolver wl n' qs' s' h1
      rw [g1] at h3; cases h3
    · rw [h6] at hr
      simp only at hr
      have hi := lp_inv hn hsolver h1
      obtain ⟨out', γ, d, w, g1, g2, g3, g4, g5, ⟨m, g6, g7⟩, -⟩ := lp_step hi hsolver wl
      rw [show LPBoost.boost solver S s' wl (n' + 1) = .ok out from h3, Except.ok.injEq] at g1
      subst g1
      obtain ⟨f, hf, -⟩ := fromSlices_prob (X := X) w _ g3.wlen g3.wprob
      have : (LPBoost.booster solver S).postprocess out.state = .ok f := by
        simp only [LPBoost.booster, LPBoost.postprocess, g6, g7, g4]; exact hf
      rw [this] at hr
      simp only [Option.some.injEq] at hr
      exact ⟨f, qs, hr.symm⟩

/-- C26: LPBoost terminates for *every* weak learner with confidences in `[-1, 1]` (labels `±1`, tolerance positive): after at
most `(⌊2 / tolerance⌋ + 1) ^ m + 1` calls, `m` the number of examples. -/
theorem lpboost_terminates_always (S : Examples X ℝ) (s₀ : LPBoost ℝ H) (hn : s₀.nSample = S.length) (hS : Spec.PmLabels S)
    (htol : 0 < s₀.tolerance) (solver : Solver ℝ) (hsolver : solver.Correct) (wl : WeakLearner ℝ H)
    (hwl : ∀ k d, ∀ e ∈ S, |conf (wl k d) e.1| ≤ (1 : ℝ)) :
    ∃ r, (LPBoost.booster solver S).run wl ((⌊2 / s₀.tolerance⌋₊ + 1) ^ S.length + 1) s₀ = some r ∧
      ∀ f qs, r = .ok (f, qs) → qs.length ≤ (⌊2 / s₀.tolerance⌋₊ + 1) ^ S.length + 1 := by
  -- a hypothesis in the cell of a stored one makes the algorithm stop
  have hnodup : ∀ {n qs s} (_ : (LPBoost.booster solver S).Reachable wl s₀ n qs s),
      (s.hypotheses.map (marginCell S s₀.tolerance)).Nodup ∧ ∀ h ∈ s.hypotheses, ∀ e ∈ S, |conf h e.1| ≤ (1 : ℝ) := by
    intro n qs s hr
    induction hr with
    | start h =>
      have hi := lp_start hn h
      rw [List.length_eq_zero_iff.1 hi.hlen]; simp
    | @step n qs s₁ out hr hb hf ih =>
      have hi := lp_inv hn hsolver hr
      obtain ⟨out', γ, d, w, g1, g2, g3, g4, g5, -, g6 | g6⟩ := lp_step hi hsolver wl
      · rw [show LPBoost.boost solver S s₁ wl (n + 1) = .ok out from hb, Except.ok.injEq] at g1
        subst g1; rw [g6.1] at hf; cases hf
      · rw [show LPBoost.boost solver S s₁ wl (n + 1) = .ok out from hb, Except.ok.injEq] at g1
        subst g1
        rw [g4]
        constructor
        · rw [List.map_append, List.nodup_append]
          refine ⟨ih.1, List.nodup_singleton _, ?_⟩
          intro c hc c' hc' hcc
          obtain ⟨a, ha, hac⟩ := List.mem_map.1 hc
          simp only [List.map_cons, List.map_nil, List.mem_singleton] at hc'
          have hcell : marginCell S s₀.tolerance a = marginCell S s₀.tolerance (wl (n + 1) s₁.dist) := by
            rw [hac, hcc, hc']
          have hclose := cell_close S hS htol (ih.2 a ha) (hwl (n + 1) s₁.dist) hcell
          have hpos : 1 ≤ n := by
            rw [← hi.hlen]; exact List.length_pos_iff.2 (List.ne_nil_of_mem ha)
          obtain ⟨m, hm, -, hmn⟩ := hi.model
          obtain ⟨-, γ₁, hp, hlt⟩ := hmn hpos
          have e0 := edge_close S s₁.dist hi.dlen hi.dprob a (wl (n + 1) s₁.dist) _ hclose
          have e1 := hp.edges a ha
          -- monotonicity of the lower estimate
          have e2 : γ₁ ≤ γ := by
            have a1 := LP.le_edge_of_margins S d g3.dlen g3.dprob (Spec.vote conf (List.zip m.weights s₁.hypotheses)) γ₁
              hp.margins
            have a2 := LP.vote_edge_le S s₁.hypotheses d m.weights hp.wlen hp.wprob γ
              (fun h hh => g3.edges h (List.mem_append_left _ hh))
            exact a1.trans a2
          have e3 := g6.2.1
          rw [g5] at e3
          have e4 := min_le_left (Spec.edge S s₁.dist (conf (wl (n + 1) s₁.dist))) s₁.gammaHat
          linarith
        · intro h hh
          rcases List.mem_append.1 hh with hh | hh
          · exact ih.2 h hh
          · simp only [List.mem_singleton] at hh
            rw [hh]; exact hwl _ _
  obtain ⟨r, hr⟩ := (LPBoost.booster solver S).run_terminates wl s₀ ((⌊2 / s₀.tolerance⌋₊ + 1) ^ S.length) (by
    intro qs s out hr hb hf
    have h1 := hnodup (Booster.Reachable.step hr hb hf)
    have h2 := (lp_inv hn hsolver (Booster.Reachable.step hr hb hf)).hlen
    have h3 := h1.1.length_le_card
    rw [List.length_map, Fintype.card_fun, Fintype.card_fin, Fintype.card_fin] at h3
    omega)
  refine ⟨r, hr, ?_⟩
  rintro f qs rfl
  obtain ⟨n, qs', s', out, k, h1, h2, h3, h4, h5, h6⟩ := (LPBoost.booster solver S).run_spec wl s₀ hr
  obtain ⟨out', d, g1, g2, -⟩ := lpboost_queries S s₀ hn solver hsolver wl n qs' s' h1
  rw [h3, Except.ok.injEq] at g1; subst g1
  rw [h5, g2]
  have := (lp_inv hn hsolver h1).qlen
  simp; omega

/-- C26: … and it returns a hypothesis when the sample is binary and `ν` is in range. -/
theorem lpboost_returns_always (S : Examples X ℝ) (s₀ : LPBoost ℝ H) (hn : s₀.nSample = S.length) (hS : Spec.PmLabels S)
    (htol : 0 < s₀.tolerance) (hbin : checkBinary S = .ok ()) (hnu : 1 ≤ s₀.nu) (hnu' : s₀.nu ≤ S.length)
    (solver : Solver ℝ) (hsolver : solver.Correct) (wl : WeakLearner ℝ H) (hwl : ∀ k d, ∀ e ∈ S, |conf (wl k d) e.1| ≤ (1 : ℝ)) :
    ∃ f qs, (LPBoost.booster solver S).run wl ((⌊2 / s₀.tolerance⌋₊ + 1) ^ S.length + 1) s₀ = some (.ok (f, qs)) := by
  obtain ⟨r, hr, -⟩ := lpboost_terminates_always S s₀ hn hS htol solver hsolver wl hwl
  obtain ⟨f, qs, rfl⟩ := lp_run_ok S s₀ hn hbin hnu hnu' solver hsolver wl hr
  exact ⟨f, qs, hr⟩

end Miniboosts.Props
