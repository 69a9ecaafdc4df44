import Verif.Lemmas.FloatProjectRep
import Verif.Lemmas.FloatCERLPRound
import Verif.Spec.FloatCERLP

/-! # CERLPBoost in `f64`: the distribution of a round, and the step -/

namespace Miniboosts

namespace F64

variable {H X : Type*} [Classifier H X F64]

theorem rep_one : Rep (1 : ℝ) := ⟨1, 0, by norm_num, by norm_num, by norm_num⟩

theorem rnd_nat_long {i : Nat} (h : i ≤ 10 ^ 9) : rnd (i : ℝ) = fin i := by
  have h1 : (i : ℝ) ≤ 10 ^ 9 := by exact_mod_cast h
  rw [rnd_small (by rw [abs_of_nonneg (Nat.cast_nonneg i)]; linarith), round_of_rep]
  refine ⟨i, 0, ?_, by norm_num, by simp⟩
  rw [abs_of_nonneg (by positivity)]
  have : (i : ℤ) ≤ 10 ^ 9 := by exact_mod_cast h
  calc (i : ℤ) ≤ 10 ^ 9 := this
    _ < 2 ^ 53 := by norm_num

/-- The distribution of a round. -/
theorem dist_near (L : Libm) (hexp : ∀ x ≤ 0, L.expA x ≤ 1) {S : Examples X ℝ} (hS : ∀ e ∈ S, e.2 = 1 ∨ e.2 = -1) (hn2 : 2 ≤ S.length) (hn : S.length ≤ 10 ^ 5)
    {V : List (ℝ × H)} (hV : ∀ v ∈ V, 0 ≤ v.1 ∧ ConfOk S v.2) (hs : (V.map Prod.fst).sum ≤ 1 + 1 / 10 ^ 6) (hl : V.length ≤ 3 * 10 ^ 7) {η : ℝ} (h1 : 1 ≤ η) (h2 : η ≤ 9000) :
    ∃ (xs : List ℝ) (a : X × ℝ → ℝ), weightedMargins S (V.map fun v => fin v.1) (V.map Prod.snd) = S.map (fun e => fin (a e)) ∧
      F64.expDistributionFromMargins L (fin η) (fin 1) (weightedMargins S (V.map fun v => fin v.1) (V.map Prod.snd)) = .ok (xs.map fin) ∧
      xs.length = S.length ∧ (∀ x ∈ xs, 0 ≤ x ∧ x ≤ 1) ∧ |xs.sum - 1| ≤ 4 / 10 ^ 6 ∧ (∀ e ∈ S, |a e - e.2 * voteAt V e.1| ≤ 1 / 10 ^ 7 ∧ |a e| ≤ 101 / 100) ∧
      Spec.dist1 xs (Spec.softmax (S.map fun e => round (-η * a e))) ≤ 3 / 10 ^ 5 ∧ ∀ x ∈ xs, Rep x := by
  obtain ⟨a, a1, a2⟩ := weightedMargins_near hS hV (by norm_num at hs ⊢; linarith) (by omega)
  have hlr : (V.length : ℝ) ≤ 3 * 10 ^ 7 := by exact_mod_cast hl
  have herr : (2 : ℝ) / 10 ^ 15 * (V.length + 4) ≤ 1 / 10 ^ 7 := by
    calc (2 : ℝ) / 10 ^ 15 * (V.length + 4) ≤ 2 / 10 ^ 15 * (3 * 10 ^ 7 + 4) := by gcongr
      _ ≤ _ := by norm_num
  have hb : ∀ e ∈ S, |a e| ≤ 101 / 100 := by
    intro e he
    have h3 := abs_le.mp ((a2 e he).2.trans herr)
    have h4 : |e.2 * voteAt V e.1| ≤ 1 + 1 / 10 ^ 6 := by rw [pm_abs (hS e he)]; exact (voteAt_abs hV e he).trans hs
    have h5 := abs_le.mp h4
    rw [abs_le]; constructor <;> linarith
  have hlog : ∀ e ∈ S, |-η * a e| ≤ 9500 := by
    intro e he
    rw [abs_mul, abs_neg, abs_of_pos (by linarith)]
    have := hb e he
    calc η * |a e| ≤ 9000 * (101 / 100) := by gcongr
      _ ≤ _ := by norm_num
  have hu := u_small
  have hu0 := u_pos
  have hη := eta_le_u
  have hlog' : ∀ e ∈ S, |round (-η * a e)| ≤ 10 ^ 4 := by
    intro e he
    have h3 := round_err (-η * a e)
    have h4 : u * |-η * a e| ≤ u * 9500 := mul_le_mul_of_nonneg_left (hlog e he) hu0.le
    have h5 := abs_le.mp (h3.trans (add_le_add h4 le_rfl))
    have h6 := abs_le.mp (hlog e he)
    rw [abs_le]; constructor <;> linarith
  obtain ⟨xs, x1, x2, x3, x4, x5⟩ := Props.softmax_f64_returns L hexp (S.map fun e => round (-η * a e)) (by intro h; rw [List.map_eq_nil_iff] at h; rw [h] at hn2; simp at hn2)
    (by simpa using hn) (by intro x hx; obtain ⟨e, he, rfl⟩ := List.mem_map.mp hx; exact hlog' e he) (by intro x hx; obtain ⟨e, he, rfl⟩ := List.mem_map.mp hx; exact rep_round _)
  refine ⟨xs, a, a1, ?_, by simpa using x2, x3, x4, fun e he => ⟨(a2 e he).2.trans herr, hb e he⟩, x5, projected_double L 1 (by intro x hx; obtain ⟨e, he, rfl⟩ := List.mem_map.mp hx; exact rep_round _) x1⟩
  rw [a1]
  unfold F64.expDistributionFromMargins
  rw [List.map_map] at x1 ⊢
  rw [← x1]
  congr 1
  refine List.map_congr_left fun e he => ?_
  change rnd (-η * a e) = _
  rw [rnd_small ((hlog e he).trans (by norm_num))]
  rfl

/-- The smallest margin is not far below the mean margin. -/
theorem margin_ge_mean {S : List (X × ℝ)} (hn2 : 2 ≤ S.length) {a : X × ℝ → ℝ} (ha : ∀ e ∈ S, |a e| ≤ 101 / 100) {η : ℝ} (h1 : 1 ≤ η) (h2 : η ≤ 9000) {xs : List ℝ}
    (hl : xs.length = S.length) (hd : Spec.dist1 xs (Spec.softmax (S.map fun e => round (-η * a e))) ≤ 3 / 10 ^ 5) {e₀ : X × ℝ} (he : e₀ ∈ S) :
    (List.zipWith (fun x e => x * a e) xs S).sum - Real.log S.length / η - 4 / 10 ^ 5 ≤ a e₀ := by
  have hu := u_small
  have hu0 := u_pos
  have hη := eta_le_u
  have hη0 : 0 < η := by linarith
  set ys := Spec.softmax (S.map fun e => round (-η * a e)) with hys
  have hyl : ys.length = S.length := by rw [hys]; unfold Spec.softmax; simp
  have hZ : 0 < ((S.map fun e => round (-η * a e)).map Real.exp).sum := by
    refine lt_of_lt_of_le (Real.exp_pos (round (-η * a e₀))) (List.single_le_sum ?_ _ ?_)
    · intro x hx; obtain ⟨y, -, rfl⟩ := List.mem_map.mp hx; exact (Real.exp_pos y).le
    · exact List.mem_map_of_mem (List.mem_map_of_mem (f := fun e => round (-η * a e)) he)
  have hy0 : ∀ y ∈ ys, 0 ≤ y := by
    intro y hy
    rw [hys] at hy
    obtain ⟨l, -, rfl⟩ := List.mem_map.mp hy
    exact (div_pos (Real.exp_pos l) hZ).le
  have hys1 : ys.sum = 1 := by
    rw [hys]
    unfold Spec.softmax
    have : ∀ (l : List ℝ) (Z : ℝ), (l.map fun a => Real.exp a / Z).sum = (l.map Real.exp).sum / Z := by
      intro l Z; induction l with
      | nil => simp
      | cons a l ih => simp only [List.map_cons, List.sum_cons, ih]; ring
    rw [this, div_self hZ.ne']
  have hδ : ∀ e ∈ S, |round (-η * a e) - -η * a e| ≤ 1 / 10 ^ 10 := by
    intro e he'
    refine (round_err _).trans ?_
    have h3 : |-η * a e| ≤ 9500 := by
      rw [abs_mul, abs_neg, abs_of_pos hη0]
      have := ha e he'
      calc η * |a e| ≤ 9000 * (101 / 100) := by gcongr
        _ ≤ _ := by norm_num
    have h4 : u * |-η * a e| ≤ (1 / 9000000000000000) * 9500 := mul_le_mul hu h3 (abs_nonneg _) (by norm_num)
    have : (1 : ℝ) / 9000000000000000 * 9500 + 1 / 9000000000000000 ≤ 1 / 10 ^ 10 := by norm_num
    linarith
  have m := softmax_mean (S.map fun e => round (-η * a e)) (List.mem_map_of_mem (f := fun e => round (-η * a e)) he)
  rw [← hys, List.length_map, List.zipWith_map_right] at m
  have m2 := abs_le.mp (zipSum_close (fun e => round (-η * a e)) (fun e => -η * a e) (1 / 10 ^ 10) S ys hδ hy0 hyl)
  rw [hys1, mul_one] at m2
  have m3 : (List.zipWith (fun x e => x * (-η * a e)) ys S).sum = -η * (List.zipWith (fun x e => x * a e) ys S).sum := by
    have : ∀ (ys : List ℝ) (S : List (X × ℝ)), (List.zipWith (fun x e => x * (-η * a e)) ys S).sum = -η * (List.zipWith (fun x e => x * a e) ys S).sum := by
      intro ys
      induction ys with
      | nil => simp
      | cons y ys ih =>
        intro S
        cases S with
        | nil => simp
        | cons e S => simp only [List.zipWith_cons_cons, List.sum_cons, ih]; ring
    exact this ys S
  rw [m3] at m2
  have m4 := abs_le.mp (hδ e₀ he)
  have m5 := abs_le.mp (zipSum_dist a (101 / 100) S xs ys ha hl hyl)
  have m6 : η * (List.zipWith (fun x e => x * a e) ys S).sum - Real.log S.length - 2 / 10 ^ 10 ≤ η * a e₀ := by linarith [m2.2, m4.1]
  have m7 : (List.zipWith (fun x e => x * a e) ys S).sum - Real.log S.length / η - 2 / 10 ^ 10 ≤ a e₀ := by
    have h3 : η * ((List.zipWith (fun x e => x * a e) ys S).sum - Real.log S.length / η - 2 / 10 ^ 10) ≤ η * a e₀ := by
      have h4 : η * ((List.zipWith (fun x e => x * a e) ys S).sum - Real.log S.length / η - 2 / 10 ^ 10) =
        η * (List.zipWith (fun x e => x * a e) ys S).sum - Real.log S.length - η * (2 / 10 ^ 10) := by field_simp
      rw [h4]
      have : (2 : ℝ) / 10 ^ 10 ≤ η * (2 / 10 ^ 10) := by nlinarith
      linarith
    exact le_of_mul_le_mul_left h3 hη0
  linarith [m5.2]

theorem sum_dist (xs : List ℝ) : ∀ ys : List ℝ, xs.length = ys.length → |xs.sum - ys.sum| ≤ (List.zipWith (fun x y => |x - y|) xs ys).sum := by
  induction xs with
  | nil => intro ys h; simp [List.length_eq_zero_iff.mp h.symm]
  | cons x xs ih =>
    intro ys h
    cases ys with
    | nil => simp at h
    | cons y ys =>
      have i := ih ys (by simpa using h)
      simp only [List.sum_cons, List.zipWith_cons_cons]
      have := abs_add_le (x - y) (xs.sum - ys.sum)
      rw [show x + xs.sum - (y + ys.sum) = x - y + (xs.sum - ys.sum) by ring]
      linarith

/-- One step with a step size in `[0, 1]`: the weights stay non-negative numbers, and the sum moves towards one up to `14u`. -/
theorem step_weights {s : ℝ} (hs0 : 0 ≤ s) (hs1 : s ≤ 1) (A : List (ℝ × H)) (v : ℝ × H) (B : List (ℝ × H)) (hV : ∀ w ∈ A ++ v :: B, Rep w.1 ∧ 0 ≤ w.1)
    (hsum : ((A ++ v :: B).map Prod.fst).sum ≤ 3 / 2) (hl : (A ++ v :: B).length ≤ 10 ^ 8) :
    ∃ V' : List (ℝ × H), interiorPoint (fin s) A.length ((A ++ v :: B).map fun w => fin w.1) = .ok (V'.map fun w => fin w.1) ∧ V'.map Prod.snd = (A ++ v :: B).map Prod.snd ∧
      (∀ w ∈ V', Rep w.1 ∧ 0 ≤ w.1) ∧ |(V'.map Prod.fst).sum - ((1 - s) * ((A ++ v :: B).map Prod.fst).sum + s)| ≤ 14 * u := by
  obtain ⟨ws, w1, w2, w3, w4⟩ := interior_near hs0 hs1 (A.map Prod.fst) v.1 (B.map Prod.fst) (by
    intro x hx
    rw [← List.map_cons (f := Prod.fst), ← List.map_append] at hx
    obtain ⟨w, hw, rfl⟩ := List.mem_map.mp hx
    exact hV w hw) (by rw [← List.map_cons (f := Prod.fst), ← List.map_append]; exact hsum) (by rw [← List.map_cons (f := Prod.fst), ← List.map_append, List.length_map]; exact hl)
  rw [← List.map_cons (f := Prod.fst), ← List.map_append, List.length_map] at w1 w2
  have e1 : (List.zip ws ((A ++ v :: B).map Prod.snd)).map Prod.fst = ws := List.map_fst_zip (by rw [w2, List.length_map])
  refine ⟨List.zip ws ((A ++ v :: B).map Prod.snd), ?_, List.map_snd_zip (by rw [w2, List.length_map]), ?_, ?_⟩
  · rw [List.map_map] at w1
    have : (List.zip ws ((A ++ v :: B).map Prod.snd)).map (fun w => fin w.1) = ws.map fin := by
      conv_rhs => rw [← e1]
      rw [List.map_map]; rfl
    rw [this, ← w1]; rfl
  · intro w hw
    exact w3 _ (by rw [← e1]; exact List.mem_map_of_mem hw)
  · rw [e1]
    have h1 := sum_dist ws _ (by rw [w2]; simp) |>.trans w4
    have h2 : ((A.map Prod.fst).map (fun x => (1 - s) * x) ++ ((1 - s) * v.1 + s) :: (B.map Prod.fst).map fun x => (1 - s) * x).sum =
        (1 - s) * ((A ++ v :: B).map Prod.fst).sum + s := by
      have h3 : ∀ l : List ℝ, (l.map fun x => (1 - s) * x).sum = (1 - s) * l.sum := by
        intro l; induction l with
        | nil => simp
        | cons a l ih => simp only [List.map_cons, List.sum_cons, ih]; ring
      rw [List.sum_append, List.sum_cons, h3, h3, List.map_append, List.sum_append, List.map_cons, List.sum_cons]
      ring
    rw [h2] at h1
    exact h1

end F64

end Miniboosts
