import Verif.Lemmas.Dist
import Verif.Lemmas.ERLPBoost
import Verif.Model.SoftBoost

/-! # The inner loop of SoftBoost -/

namespace Miniboosts

open Real LP

variable {H X : Type*} [Classifier H X ℝ]

namespace SoftQP

/-- The model `m` holds the margins of the hypotheses `hs` on `S`. -/
structure Holds (m : QPModel) (S : Examples X ℝ) (hs : List H) (nu : ℝ) : Prop where
  nEx : m.nExamples = S.length
  nHyp : m.nHypotheses = hs.length
  rows : m.rows = rowsOf S hs
  cap : m.capInv = 1 / nu

theorem Holds.init (S : Examples X ℝ) (nu : ℝ) : Holds (QPModel.init S.length (1 / nu)) S ([] : List H) nu :=
  ⟨rfl, rfl, by rw [rowsOf_nil]; rfl, rfl⟩

theorem Holds.addColumn {m : QPModel} {S : Examples X ℝ} {hs : List H} {nu : ℝ} (hm : Holds m S hs nu) (h : H) :
    Holds (m.addColumn S h) S (hs ++ [h]) nu :=
  ⟨hm.nEx, by simp [QPModel.addColumn, hm.nHyp], by simp only [QPModel.addColumn, hm.rows, pushMargins_rowsOf], hm.cap⟩

theorem Holds.isDist {m : QPModel} {S : Examples X ℝ} {hs : List H} {nu : ℝ} (hm : Holds m S hs nu) (g : ℝ) (dist : List ℝ)
    (hl : dist.length = S.length) :
    IsDist (m.program g dist) S hs (1 / nu) (1 / nu) g (fun i => log (dist.getD i 0)) (fun i => 1 / dist.getD i 0) := by
  constructor
  · simp [QPModel.program, hm.nEx, hm.nHyp, hm.rows, hm.cap]
  · simp [QPModel.program, hm.nEx, hm.nHyp, hm.cap]
  · simp [QPModel.program, hm.nEx, hm.nHyp]
  · simp [QPModel.program, hl]
  · intro i hi
    simp [QPModel.program, List.getD_eq_getElem?_getD, hl, hi]
  · simp [QPModel.program, distQuadratic, hm.nEx]
  · intro x i hi
    simp only [QPModel.program]
    rw [distQuadratic_tmulVec _ x _ i (by simp [hl, hi])]
    congr 1
    simp [List.getD_eq_getElem?_getD, hl, hi]

theorem Holds.isGamma {m : QPModel} {S : Examples X ℝ} {hs : List H} {nu : ℝ} (hm : Holds m S hs nu) :
    IsGamma m.lpProgram S hs 1 (1 / nu) (fun _ => 0) (fun _ => 0) := by
  constructor
  · simp [QPModel.lpProgram, hm.nEx, hm.nHyp, hm.rows]
  · simp [QPModel.lpProgram, hm.nEx, hm.nHyp, hm.cap]
  · simp [QPModel.lpProgram, hm.nEx, hm.nHyp]
  · simp [QPModel.lpProgram, hm.nEx]
  · simp [QPModel.lpProgram, List.getD_eq_getElem?_getD]
  · intro i hi
    simp only [QPModel.lpProgram, List.getD_eq_getElem?_getD, hm.nEx]
    rw [List.getElem?_set_ne (by omega)]
    simp [List.getElem?_replicate, hi]
  · simp [QPModel.lpProgram, Csc.zeros, hm.nEx]; omega
  · intro x; exact Csc.zeros_tmulVec _ _ _
  · intro x i hi; rw [zero_mul]; exact Csc.zeros_tmulVec _ _ _

theorem updateZip_snd (d x : List ℝ) (h : x.length = d.length) : updateZip (fun _ s => s) d x = x := by
  induction d generalizing x with
  | nil => cases x with
    | nil => rfl
    | cons a x => simp at h
  | cons a d ih =>
    cases x with
    | nil => simp at h
    | cons b x => simp only [updateZip]; rw [ih x (by simpa using h)]

theorem updateZip_length' {α β : Type*} (f : α → β → α) (d : List α) (x : List β) : (updateZip f d x).length = d.length := by
  induction d generalizing x with
  | nil => cases x <;> rfl
  | cons a d ih =>
    cases x with
    | nil => rfl
    | cons b x => simp only [updateZip, List.length_cons, ih]

theorem posProb_le_one {d : List ℝ} (hd : Spec.IsPosProb d) : ∀ q ∈ d, q ≤ 1 :=
  prob_le_one ⟨fun p hp => (hd.1 p hp).le, hd.2⟩

/-- The capping rows `(1/ν) d_i ≤ 1/ν` do nothing. -/
theorem feasible_iff {m : QPModel} {S : Examples X ℝ} {hs : List H} {nu : ℝ} (hm : Holds m S hs nu) (hnu : 1 ≤ nu) (g : ℝ)
    (dist : List ℝ) (hl : dist.length = S.length) (d : List ℝ) :
    (m.program g dist).Feasible d ↔ d.length = S.length ∧ Spec.IsProb d ∧ ∀ h ∈ hs, Spec.edge S d (conf h) ≤ g := by
  rw [(hm.isDist g dist hl).feasible_iff]
  constructor
  · rintro ⟨h1, h2, -, h4⟩; exact ⟨h1, h2, h4⟩
  · rintro ⟨h1, h2, h4⟩
    refine ⟨h1, h2, fun q hq => ?_, h4⟩
    have := prob_le_one h2 q hq
    have : 0 < 1 / nu := by positivity
    nlinarith

theorem pen_ge (dist d : List ℝ) (n : Nat) (hl : dist.length = n) (hd : Spec.IsPosProb dist) :
    -2 * (n : ℝ) ≤ quadPen n (fun i => log (dist.getD i 0)) (fun i => 1 / dist.getD i 0) d := by
  unfold quadPen
  have : ∀ i ∈ Finset.range n, (-2 : ℝ) ≤ log (dist.getD i 0) * d.getD i 0 + 1 / dist.getD i 0 * d.getD i 0 ^ 2 / 2 := by
    intro i hi
    have hi' := Finset.mem_range.1 hi
    have hmem := getD_mem dist i (by rw [hl]; exact hi')
    have h1 := log_expansion_ge (dist.getD i 0) (d.getD i 0) (hd.1 _ hmem) (by have := posProb_le_one hd _ hmem; linarith)
    have h2 : d.getD i 0 ^ 2 / (2 * dist.getD i 0) = 1 / dist.getD i 0 * d.getD i 0 ^ 2 / 2 := by
      have := (hd.1 _ hmem).ne'
      field_simp
    linarith
  have h := Finset.sum_le_sum this
  rw [Finset.sum_const, Finset.card_range, nsmul_eq_mul] at h
  linarith

/-- One answer of the solver. -/
theorem step {m : QPModel} {S : Examples X ℝ} {hs : List H} {nu : ℝ} (hm : Holds m S hs nu) (hnu : 1 ≤ nu) (g : ℝ)
    (dist : List ℝ) (hl : dist.length = S.length) (hd : Spec.IsPosProb dist) {solver : Solver ℝ} (hsolver : solver.Correct)
    (hsig : solver.Signals) (hpos : ∀ q ∈ (solver (m.program g dist)).x, 0 < q) :
    (m.program g dist).Optimal (solver (m.program g dist)) ∧ (solver (m.program g dist)).x.length = S.length ∧
      Spec.IsPosProb (solver (m.program g dist)).x ∧
      (∀ h ∈ hs, Spec.edge S (solver (m.program g dist)).x (conf h) ≤ g) ∧
      -2 * (S.length : ℝ) ≤ (solver (m.program g dist)).objVal := by
  have hopt : (m.program g dist).Optimal (solver (m.program g dist)) := by
    by_contra hno
    obtain ⟨q, hq, hq2⟩ := hsig (m.program g dist) (fun s hs => hno (hsolver _ s hs))
    exact absurd (hpos q hq) (not_lt.2 hq2)
  obtain ⟨h1, h2, h3⟩ := (feasible_iff hm hnu g dist hl _).1 hopt.feasible
  refine ⟨hopt, h1, ⟨hpos, h2.2⟩, h3, ?_⟩
  rw [hopt.value, (hm.isDist g dist hl).objective_eq _ h1]
  exact pen_ge dist _ S.length hl hd

/-- Enough rounds for the inner loop with `n` examples. -/
def enough (n : Nat) : Nat := (10 ^ 9 + 2 * n) * 10 ^ 9 + 2

/-- The inner loop ends and leaves a distribution. -/
theorem solveLoop_total {S : Examples X ℝ} {hs : List H} {nu : ℝ} {solver : Solver ℝ} (hsolver : solver.Correct)
    (hsig : solver.Signals) {m : QPModel} (hm : Holds m S hs nu) (hnu : 1 ≤ nu) (g : ℝ) (fuel : Nat)
    (dist : List ℝ) (old : ℝ) (hl : dist.length = S.length) (hd : Spec.IsPosProb dist)
    (hold : -2 * (S.length : ℝ) ≤ old)
    (hfuel : old + 2 * (S.length : ℝ) < (fuel : ℝ) * qpTolerance) :
    ∃ d b, QPModel.solveLoop solver m g fuel dist old = .ok (d, b) ∧ d.length = S.length ∧ Spec.IsPosProb d ∧
      (b = true → ∀ h ∈ hs, Spec.edge S d (conf h) ≤ g) := by
  induction fuel generalizing dist old with
  | zero => simp at hfuel; linarith
  | succ fuel ih =>
    have c0 : ¬ (dist.any fun d => decide (d ≤ 0)) = true := by
      rw [List.any_eq_true]
      rintro ⟨p, hp, hp2⟩
      have := hd.1 p hp
      simp at hp2
      linarith
    simp only [QPModel.solveLoop]
    rw [if_neg c0]
    by_cases c1 : ((solver (m.program g dist)).x.all fun d => decide (0 < d)) = true
    · rw [if_neg (by simpa using c1)]
      have hpos : ∀ q ∈ (solver (m.program g dist)).x, 0 < q := by
        intro q hq
        have := List.all_eq_true.1 c1 q hq
        simpa using this
      obtain ⟨s1, s2, s3, s4, s5⟩ := step hm hnu g dist hl hd hsolver hsig hpos
      rw [updateZip_snd dist _ (by rw [s2, hl])]
      by_cases c2 : old - (solver (m.program g dist)).objVal < qpTolerance
      · rw [if_pos c2]
        exact ⟨_, _, rfl, s2, s3, fun _ => s4⟩
      · rw [if_neg c2]
        exact ih _ _ s2 s3 s5 (by push_cast at hfuel; linarith)
    · rw [if_pos (by simpa using c1)]
      exact ⟨dist, false, rfl, hl, hd, by simp⟩

theorem enough_spec (n fuel : Nat) (h : enough n ≤ fuel) : (10 : ℝ) ^ 9 + 2 * (n : ℝ) < (fuel : ℝ) * qpTolerance := by
  have hf : ((enough n : ℕ) : ℝ) ≤ (fuel : ℝ) := Nat.cast_le.2 h
  simp only [enough, Nat.cast_add, Nat.cast_mul, Nat.cast_pow, Nat.cast_ofNat] at hf
  unfold qpTolerance
  linarith

/-! ## The uniform distribution stays -/

theorem uniform_prob (S : Examples X ℝ) (hS : S ≠ []) : Spec.IsPosProb (List.replicate S.length (1 / (S.length : ℝ))) := by
  have hpos : (0 : ℝ) < S.length := by exact_mod_cast List.length_pos_iff.2 hS
  refine ⟨fun p hp => ?_, ?_⟩
  · rw [List.eq_of_mem_replicate hp]; positivity
  · rw [List.sum_replicate, nsmul_eq_mul]; field_simp

theorem uniform_optimal {m : QPModel} {S : Examples X ℝ} {hs : List H} {nu : ℝ} (hm : Holds m S hs nu) (hnu : 1 ≤ nu) (g : ℝ)
    (hS : S ≠ []) (hedge : ∀ h ∈ hs, Spec.edge S (List.replicate S.length (1 / (S.length : ℝ))) (conf h) ≤ g) :
    (m.program g (List.replicate S.length (1 / (S.length : ℝ)))).Optimal
      ⟨List.replicate S.length (1 / (S.length : ℝ)), (-1 - log (1 / (S.length : ℝ))) :: List.replicate (2 * S.length + hs.length) 0,
        (m.program g (List.replicate S.length (1 / (S.length : ℝ)))).objective (List.replicate S.length (1 / (S.length : ℝ))), .solved⟩ := by
  set u := List.replicate S.length (1 / (S.length : ℝ)) with hu
  have hul : u.length = S.length := by simp [hu]
  have hup := uniform_prob S hS
  rw [← hu] at hup
  have hpos : (0 : ℝ) < S.length := by exact_mod_cast List.length_pos_iff.2 hS
  have hd := hm.isDist g u hul
  have huget : ∀ i, i < S.length → u.getD i 0 = 1 / (S.length : ℝ) := by
    intro i hi; simp [hu, List.getD_eq_getElem?_getD, hi]
  have hz : ∀ i, ((-1 - log (1 / (S.length : ℝ))) :: List.replicate (2 * S.length + hs.length) 0).getD (1 + i) 0 = 0 := by
    intro i
    rw [Nat.add_comm 1 i, List.getD_cons_succ, List.getD_eq_getElem?_getD, List.getElem?_replicate]
    split <;> rfl
  constructor
  · exact (feasible_iff hm hnu g u hul u).2 ⟨hul, ⟨fun p hp => (hup.1 p hp).le, hup.2⟩, hedge⟩
  · rw [hd.nRows]; simp; omega
  · intro i hi
    rw [hd.isEq] at hi
    obtain ⟨i, rfl⟩ : ∃ k, i = 1 + k := by
      refine ⟨i - 1, ?_⟩
      by_cases h0 : i = 0
      · rw [if_pos h0] at hi; cases hi
      · omega
    exact (hz i).ge
  · intro j hj
    rw [hd.nCols] at hj
    rw [hd.p1 _ j hj, hd.q1 j hj, hd.A, dist_tmulVec S hs _ _ j hj, hz j]
    have e1 := hz (S.length + j)
    rw [show 1 + (S.length + j) = 1 + S.length + j by omega] at e1
    rw [e1]
    have e2 : ∀ k ∈ Finset.range hs.length, ((hs.map (margins S)).getD k []).getD j 0 *
        ((-1 - log (1 / (S.length : ℝ))) :: List.replicate (2 * S.length + hs.length) 0).getD (1 + 2 * S.length + k) 0 = 0 := by
      intro k _
      have e1 := hz (2 * S.length + k)
      rw [show 1 + (2 * S.length + k) = 1 + 2 * S.length + k by omega] at e1
      rw [e1, mul_zero]
    rw [Finset.sum_eq_zero e2]
    simp only [huget j hj, List.getD_cons_zero]
    field_simp
    ring
  · rw [sum_range_list]
    apply Finset.sum_eq_zero
    intro i _
    rcases Nat.eq_zero_or_pos i with h | h
    · subst h
      rw [(hd.slack u hul).1, hup.2]; ring
    · obtain ⟨i, rfl⟩ : ∃ k, i = 1 + k := ⟨i - 1, by omega⟩
      simp only [hz i, zero_mul]
  · rfl

/-- If the uniform distribution satisfies the edge constraints, the update keeps it. -/
theorem uniform_stays {m : QPModel} {S : Examples X ℝ} {hs : List H} {nu : ℝ} (hm : Holds m S hs nu) (hnu : 1 ≤ nu) (g : ℝ)
    (hS : S ≠ []) (hedge : ∀ h ∈ hs, Spec.edge S (List.replicate S.length (1 / (S.length : ℝ))) (conf h) ≤ g)
    {solver : Solver ℝ} (hsolver : solver.Correct) (fuel : Nat) :
    QPModel.solveLoop solver m g (fuel + 2) (List.replicate S.length (1 / (S.length : ℝ))) (10 ^ 9) =
      .ok (List.replicate S.length (1 / (S.length : ℝ)), true) := by
  set u := List.replicate S.length (1 / (S.length : ℝ)) with hu
  have hul : u.length = S.length := by simp [hu]
  have hup : Spec.IsPosProb u := uniform_prob S hS
  have hpos : (0 : ℝ) < S.length := by exact_mod_cast List.length_pos_iff.2 hS
  have hopt := uniform_optimal hm hnu g hS hedge
  rw [← hu] at hopt
  have hd := hm.isDist g u hul
  obtain ⟨hx, hv⟩ := hd.unique (fun i hi => by
    have : u.getD i 0 = 1 / (S.length : ℝ) := by simp [hu, List.getD_eq_getElem?_getD, hi]
    rw [this]; positivity) (hsolver _ _ hopt) hopt
  simp only at hx hv
  have c0 : ¬ (u.any fun d => decide (d ≤ 0)) = true := by
    rw [List.any_eq_true]
    rintro ⟨p, hp, hp2⟩
    have := hup.1 p hp
    simp at hp2
    linarith
  have c1 : (u.all fun d => decide (0 < d)) = true := by
    rw [List.all_eq_true]
    intro q hq
    simpa using hup.1 q hq
  have hobj : (m.program g u).objective u ≤ 1 := by
    rw [hd.objective_eq u hul]
    unfold quadPen
    have : ∀ i ∈ Finset.range S.length, log (u.getD i 0) * u.getD i 0 + 1 / u.getD i 0 * u.getD i 0 ^ 2 / 2 ≤ 1 / (S.length : ℝ) := by
      intro i hi
      have hi' := Finset.mem_range.1 hi
      have e : u.getD i 0 = 1 / (S.length : ℝ) := by simp [hu, List.getD_eq_getElem?_getD, hi']
      have e3 := posProb_le_one hup _ (getD_mem u i (by omega))
      rw [← e]
      have e2 : 0 < u.getD i 0 := by rw [e]; positivity
      have e4 := log_nonpos e2.le e3
      have e5 : 1 / u.getD i 0 * u.getD i 0 ^ 2 / 2 = u.getD i 0 / 2 := by field_simp
      rw [e5]
      nlinarith
    have h := Finset.sum_le_sum this
    rw [Finset.sum_const, Finset.card_range, nsmul_eq_mul] at h
    have e : (S.length : ℝ) * (1 / (S.length : ℝ)) = 1 := by field_simp
    linarith
  have htol : qpTolerance ≤ 1 := by unfold qpTolerance; norm_num
  have htol0 : 0 < qpTolerance := by unfold qpTolerance; norm_num
  simp only [QPModel.solveLoop]
  rw [if_neg c0, hx, hv, updateZip_snd u u rfl, if_neg (by simpa using c1), if_neg (by rw [not_lt]; linarith), if_neg c0, hx, hv,
    updateZip_snd u u rfl, if_neg (by simpa using c1), if_pos (by rw [sub_self]; exact htol0)]

end SoftQP

end Miniboosts
