import Verif.Lemmas.Hoeffding
import Verif.Props.Projection

/-! # Smoothness of the entropy-regularised edge -/

namespace Miniboosts

open Real

theorem innerProduct_cons (x y : ℝ) (a b : List ℝ) :
    innerProduct (x :: a) (y :: b) = x * y + innerProduct a b := by
  simp [innerProduct]

theorem innerProduct_add_right (d u v : List ℝ) (h : u.length = v.length) :
    innerProduct d (List.zipWith (· + ·) u v) = innerProduct d u + innerProduct d v := by
  induction d generalizing u v with
  | nil => simp [innerProduct]
  | cons x d ih =>
    match u, v, h with
    | [], [], _ => simp [innerProduct]
    | y :: u, z :: v, h =>
      rw [List.zipWith_cons_cons, innerProduct_cons, innerProduct_cons, innerProduct_cons,
        ih u v (by simpa using h)]
      ring

theorem innerProduct_mul_right (d u : List ℝ) (c : ℝ) :
    innerProduct d (u.map (c * ·)) = c * innerProduct d u := by
  induction d generalizing u with
  | nil => simp [innerProduct]
  | cons x d ih =>
    match u with
    | [] => simp [innerProduct]
    | y :: u => rw [List.map_cons, innerProduct_cons, innerProduct_cons, ih u]; ring

/-- Relative entropy to a softmax. -/
theorem relEnt_softmax (d logs : List ℝ) (hl : d.length = logs.length) (hne : logs ≠ []) (hsum : d.sum = 1) :
    Spec.relEnt d (Spec.softmax logs) =
      entropy d - innerProduct d logs + log (logs.map exp).sum := by
  have hZ : 0 < (logs.map exp).sum := sum_map_pos logs _ hne (fun _ _ => exp_pos _)
  have key : ∀ (Z : ℝ), 0 < Z → ∀ d logs : List ℝ, d.length = logs.length →
      Spec.relEnt d (logs.map fun a => exp a / Z) = entropy d - innerProduct d logs + log Z * d.sum := by
    intro Z hZ d
    induction d with
    | nil => intro logs hl; simp [Spec.relEnt, entropy, innerProduct]
    | cons x d ih =>
      intro logs hl
      match logs, hl with
      | a :: logs, hl =>
        rw [List.map_cons, relEnt_cons, ih logs (by simpa using hl), klTerm_eq, innerProduct_cons]
        simp only [entropy, List.map_cons, List.sum_cons]
        by_cases hx : x = 0
        · simp [hx]
        · rw [if_neg hx, div_div_eq_mul_div, log_div (mul_ne_zero hx hZ.ne') (exp_pos a).ne',
            log_mul hx hZ.ne', log_exp]; ring
  unfold Spec.softmax
  rw [key _ hZ d logs hl, hsum, mul_one]

/-- The example weights computed from margins minimise `η ⟨d,u⟩ + entropy`, with a relative-entropy
remainder. -/
theorem three_point (eta nu : ℝ) (u d d' : List ℝ)
    (h : projectCapped nu (u.map fun yf => -eta * yf) = .ok d) (hl : d'.length = u.length)
    (hd' : Spec.IsCapped nu d') :
    entropy d + eta * innerProduct d u + Spec.relEnt d' d ≤ entropy d' + eta * innerProduct d' u := by
  obtain ⟨h1, h2⟩ := (Props.project_ok_iff nu _).1 ⟨d, h⟩
  have hne : (u.map fun yf => -eta * yf) ≠ [] := by
    intro h0; rw [h0] at h2; simp at h2; linarith
  obtain ⟨hdl, hdc, hdp⟩ := Props.project_capped nu _ d h
  have := Props.project_pythagoras nu _ d h d' (by simpa using hl) hd'
  rw [relEnt_softmax d _ hdl hne hdp.2, relEnt_softmax d' _ (by simpa using hl) hne hd'.2,
    innerProduct_mul_right, innerProduct_mul_right] at this
  linarith

theorem relEnt_tilt (d' d a : List ℝ) (Z : ℝ) (hZ : 0 < Z) (hd : ∀ p ∈ d, 0 < p)
    (h1 : d'.length = d.length) (h2 : a.length = d.length) :
    Spec.relEnt d' (List.zipWith (fun p x => p * exp (-x) / Z) d a) =
      Spec.relEnt d' d + innerProduct d' a + log Z * d'.sum := by
  induction d' generalizing d a with
  | nil => simp [Spec.relEnt, innerProduct]
  | cons x d' ih =>
    match d, a, h1, h2 with
    | p :: d, y :: a, h1, h2 =>
      have hp := hd p (by simp)
      rw [List.zipWith_cons_cons, relEnt_cons, relEnt_cons, innerProduct_cons,
        ih d a (fun q hq => hd q (by simp [hq])) (by simpa using h1) (by simpa using h2),
        klTerm_eq, klTerm_eq, List.sum_cons]
      by_cases hx : x = 0
      · simp [hx]
      · rw [log_div hx (by positivity), log_div (by positivity) hZ.ne',
          log_mul hp.ne' (exp_pos _).ne', log_exp, log_div hx hp.ne']
        ring

/-- The Gibbs inequality combined with Hoeffding's lemma. -/
theorem gibbs_hoeffding (d' d v : List ℝ) (eta c : ℝ) (hd : Spec.IsPosProb d) (hd' : Spec.IsProb d')
    (h1 : d'.length = d.length) (h2 : v.length = d.length) (hc : ∀ x ∈ v, |x| ≤ c) :
    eta * innerProduct d v - c ^ 2 * eta ^ 2 / 2 ≤ Spec.relEnt d' d + eta * innerProduct d' v := by
  have hne : d ≠ [] := by rintro rfl; have := hd.2; simp at this
  set l := List.zip d v with hlz
  have hfst : l.map Prod.fst = d := List.map_fst_zip (by omega)
  have hlne : l ≠ [] := by
    intro h0; rw [h0] at hfst; exact hne hfst.symm
  have hlp : ∀ p ∈ l, 0 < p.1 := fun p hp => hd.1 _ (List.of_mem_zip hp).1
  have hZ : 0 < (l.map fun p => p.1 * exp (-eta * p.2)).sum :=
    sum_map_pos l _ hlne (fun p hp => mul_pos (hlp p hp) (exp_pos _))
  have hho := hoeffding_list l (fun p hp => (hlp p hp).le) (by rw [hfst]; exact hd.2) c (-eta)
    (fun p hp => hc _ (List.of_mem_zip hp).2)
  set Z := (l.map fun p => p.1 * exp (-eta * p.2)).sum with hZd
  have hip : (l.map fun p => p.1 * p.2).sum = innerProduct d v := by
    rw [hlz, innerProduct, List.map_zip_eq_zipWith]; rfl
  rw [hip] at hho
  have hb := relEnt_tilt d' d (v.map (eta * ·)) Z hZ hd.1 h1 (by simpa using h2)
  rw [innerProduct_mul_right, hd'.2, mul_one] at hb
  have hbsum : (List.zipWith (fun p x => p * exp (-x) / Z) d (v.map (eta * ·))).sum = 1 := by
    rw [List.zipWith_map_right]
    have : List.zipWith (fun p x => p * exp (-(eta * x)) / Z) d v =
        l.map fun p => p.1 * exp (-eta * p.2) / Z := by
      rw [hlz, List.map_zip_eq_zipWith]
      simp only [neg_mul]
      rfl
    rw [this, sum_map_div, ← hZd, div_self hZ.ne']
  have hg := relEnt_ge d' (List.zipWith (fun p x => p * exp (-x) / Z) d (v.map (eta * ·)))
    (by simp [h1, h2]) hd'.1 (by
      intro y hy
      rw [List.zipWith_map_right, ← List.map_uncurry_zip_eq_zipWith] at hy
      obtain ⟨p, hp, rfl⟩ := List.mem_map.1 hy
      exact div_pos (mul_pos (hlp p hp) (exp_pos _)) hZ)
  rw [hd'.2, hbsum, sub_self, hb] at hg
  have hlog : log Z ≤ -eta * innerProduct d v + c ^ 2 * (-eta) ^ 2 / 2 := by
    rw [← log_exp (-eta * innerProduct d v + c ^ 2 * (-eta) ^ 2 / 2)]
    exact log_le_log hZ hho
  have := hg.1
  nlinarith

/-- Smoothness: moving the margins from `u` to `u + v` changes the minimum of `η ⟨d,u⟩ + entropy` by at least
the linear prediction minus `η² c² / 2`, where `c` bounds the entries of `v`. -/
theorem smooth_step (eta nu c : ℝ) (u v d e : List ℝ) (hlen : v.length = u.length)
    (hd : projectCapped nu (u.map fun yf => -eta * yf) = .ok d)
    (he : projectCapped nu ((List.zipWith (· + ·) u v).map fun yf => -eta * yf) = .ok e)
    (hc : ∀ x ∈ v, |x| ≤ c) :
    entropy d + eta * innerProduct d u + eta * innerProduct d v - c ^ 2 * eta ^ 2 / 2 ≤
      entropy e + eta * innerProduct e (List.zipWith (· + ·) u v) := by
  obtain ⟨hdl, hdc, hdp⟩ := Props.project_capped nu _ d hd
  obtain ⟨hel, hec, hep⟩ := Props.project_capped nu _ e he
  have hel' : e.length = u.length := by simpa [hlen] using hel
  have hdl' : d.length = u.length := by simpa using hdl
  have h1 := three_point eta nu u d e hd hel' hec
  have h2 := gibbs_hoeffding e d v eta c hdp ⟨fun p hp => (hep.1 p hp).le, hep.2⟩ (by omega) (by omega) hc
  rw [innerProduct_add_right _ _ _ hlen.symm]
  linarith

/-- The relative entropy to uniform is at most `ln(m/ν)` on the capped simplex. -/
theorem entropy_capped_le (nu : ℝ) (d : List ℝ) (hnu : 0 < nu) (hd : Spec.IsCapped nu d) :
    entropy d ≤ -log nu := by
  have key : ∀ l : List ℝ, (∀ p ∈ l, 0 ≤ p ∧ p ≤ 1 / nu) → entropy l ≤ -log nu * l.sum := by
    intro l
    induction l with
    | nil => intro _; simp [entropy]
    | cons x l ih =>
      intro h
      have ih' := ih (fun p hp => h p (by simp [hp]))
      obtain ⟨h0, h1⟩ := h x (by simp)
      simp only [entropy, List.map_cons, List.sum_cons] at ih' ⊢
      have : (if x = 0 then 0 else x * log x) ≤ x * -log nu := by
        split
        · rename_i h; simp [h]
        · rename_i hx
          have hx0 : 0 < x := lt_of_le_of_ne h0 (Ne.symm hx)
          apply mul_le_mul_of_nonneg_left _ h0
          rw [← log_inv, ← one_div]
          exact log_le_log hx0 h1
      linarith
  have := key d hd.1
  rwa [hd.2, mul_one] at this

/-- `-ln m ≤ Σ d ln d` on the simplex. -/
theorem neg_log_le_entropy (d : List ℝ) (hd : Spec.IsProb d) : -log (d.length : ℝ) ≤ entropy d := by
  have := (Props.entropyFromUni_bounds d hd).1
  unfold entropyFromUni at this
  linarith

end Miniboosts
