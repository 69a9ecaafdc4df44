import Verif.Lemmas.FloatCERLP
import Verif.Lemmas.RoundingVote
import Verif.Props.FloatProject

/-! # CERLPBoost in `f64`: margins, edges and one round -/

namespace Miniboosts

namespace F64

variable {H X : Type*} [Classifier H X F64]

/-- The exact margin of an example under a weighted vote. -/
noncomputable def voteAt (V : List (ℝ × H)) (x : X) : ℝ := (V.map fun v => v.1 * (conf v.2 x).val).sum

/-- Confidences in `[-1, 1]`. -/
def ConfOk (S : Examples X ℝ) (h : H) : Prop := ∀ e ∈ S, ∃ c : ℝ, conf h e.1 = fin c ∧ |c| ≤ 1

theorem pm_mul {y : ℝ} (hy : y = 1 ∨ y = -1) {s : ℝ} (hs : Rep s) (hb : |s| ≤ 10 ^ 20) : mul (fin y) (fin s) = fin (y * s) := by
  change rnd (y * s) = _
  rcases hy with rfl | rfl
  · rw [one_mul, rnd_small hb, round_of_rep hs]
  · rw [neg_one_mul, rnd_small (by rwa [abs_neg]), round_of_rep (rep_neg hs)]

theorem pm_abs {y : ℝ} (hy : y = 1 ∨ y = -1) (s : ℝ) : |y * s| = |s| := by
  rcases hy with rfl | rfl <;> simp

theorem pm_rep {y : ℝ} (hy : y = 1 ∨ y = -1) {s : ℝ} (hs : Rep s) : Rep (y * s) := by
  rcases hy with rfl | rfl
  · rwa [one_mul]
  · rw [neg_one_mul]; exact rep_neg hs

theorem voteAt_abs {S : Examples X ℝ} {V : List (ℝ × H)} (hV : ∀ v ∈ V, 0 ≤ v.1 ∧ ConfOk S v.2) (e) (he : e ∈ S) : |voteAt V e.1| ≤ (V.map Prod.fst).sum := by
  unfold voteAt
  induction V with
  | nil => simp
  | cons v V ih =>
    obtain ⟨h0, hc⟩ := hV v (by simp)
    obtain ⟨c, h1, h2⟩ := hc e he
    have := ih fun w hw => hV w (List.mem_cons_of_mem _ hw)
    simp only [List.map_cons, List.sum_cons, h1, val]
    refine (abs_add_le _ _).trans (add_le_add ?_ this)
    rw [abs_mul, abs_of_nonneg h0]
    nlinarith

/-- The margins of the combined hypothesis. -/
theorem weightedMargins_near {S : Examples X ℝ} (hS : ∀ e ∈ S, e.2 = 1 ∨ e.2 = -1) {V : List (ℝ × H)} (hV : ∀ v ∈ V, 0 ≤ v.1 ∧ ConfOk S v.2)
    (hs : (V.map Prod.fst).sum ≤ 3 / 2) (hl : V.length ≤ 10 ^ 8) :
    ∃ a : X × ℝ → ℝ, weightedMargins S (V.map fun v => fin v.1) (V.map Prod.snd) = S.map (fun e => fin (a e)) ∧
      ∀ e ∈ S, Rep (a e) ∧ |a e - e.2 * voteAt V e.1| ≤ 2 / 10 ^ 15 * (V.length + 4) := by
  have hex : ∀ e : X × ℝ, ∃ r : ℝ, e ∈ S → mul (fin e.2) ((List.zipWith (fun w h => mul w (conf h e.1)) (V.map fun v => fin v.1) (V.map Prod.snd)).foldl add (fin 0)) = fin r ∧
      Rep r ∧ |r - e.2 * voteAt V e.1| ≤ 2 / 10 ^ 15 * (V.length + 4) := by
    intro e
    by_cases he : e ∈ S
    swap
    · exact ⟨0, fun h => absurd h he⟩
    have h1 : List.zipWith (fun w h => mul w (conf h e.1)) (V.map fun v => fin v.1) (V.map Prod.snd) =
        (V.map fun v => (v.1, (conf v.2 e.1).val)).map fun p => mul (fin p.1) (fin p.2) := by
      rw [zipWith_map_map, List.map_map]
      refine List.map_congr_left fun v hv => ?_
      obtain ⟨c, h2, -⟩ := (hV v hv).2 e he
      simp only [Function.comp_apply, h2, val]
    obtain ⟨s, e1, e2, e3⟩ := wsum_near (V.map fun v => (v.1, (conf v.2 e.1).val)) (by
      intro p hp
      obtain ⟨v, hv, rfl⟩ := List.mem_map.mp hp
      obtain ⟨c, h2, h3⟩ := (hV v hv).2 e he
      refine ⟨(hV v hv).1, ?_⟩
      simp only [h2, val]
      linarith) (by rw [List.map_map]; exact hs) (by rwa [List.length_map])
    rw [List.map_map, List.length_map] at e3
    have h4 : |voteAt V e.1| ≤ 3 / 2 := (voteAt_abs hV e he).trans hs
    have e3' : |s - voteAt V e.1| ≤ 2 / 10 ^ 15 * (V.length + 4) := e3
    have hlr : (V.length : ℝ) ≤ 10 ^ 8 := by exact_mod_cast hl
    have h5 : |s| ≤ 10 ^ 20 := by
      have := abs_add_le (s - voteAt V e.1) (voteAt V e.1)
      rw [sub_add_cancel] at this
      refine this.trans ?_
      refine (add_le_add e3' h4).trans ?_
      have : (2 : ℝ) / 10 ^ 15 * (V.length + 4) ≤ 2 / 10 ^ 15 * (10 ^ 8 + 4) := by gcongr
      refine (add_le_add this le_rfl).trans ?_
      norm_num
    refine ⟨e.2 * s, fun _ => ⟨by rw [h1, e1, pm_mul (hS e he) e2 h5], pm_rep (hS e he) e2, ?_⟩⟩
    rw [← mul_sub, pm_abs (hS e he)]
    exact e3'
  choose a ha using hex
  exact ⟨a, List.map_congr_left fun e he => (ha e he).1, fun e he => (ha e he).2⟩

/-- The margins of one hypothesis. -/
theorem margins_near {S : Examples X ℝ} (hS : ∀ e ∈ S, e.2 = 1 ∨ e.2 = -1) {h : H} (hc : ConfOk S h) :
    ∃ b : X × ℝ → ℝ, margins S h = S.map (fun e => fin (b e)) ∧ ∀ e ∈ S, |b e - e.2 * (conf h e.1).val| ≤ 2 * u ∧ |b e| ≤ 1 := by
  have hu := u_small
  have hu0 := u_pos
  have hη := eta_le_u
  have hex : ∀ e : X × ℝ, ∃ r : ℝ, e ∈ S → mul (fin e.2) (conf h e.1) = fin r ∧ |r - e.2 * (conf h e.1).val| ≤ 2 * u ∧ |r| ≤ 1 := by
    intro e
    by_cases he : e ∈ S
    swap
    · exact ⟨0, fun h => absurd h he⟩
    obtain ⟨c, h1, h2⟩ := hc e he
    have h3 : |e.2 * c| ≤ 1 := by rwa [pm_abs (hS e he)]
    refine ⟨round (e.2 * c), fun _ => ⟨?_, ?_, ?_⟩⟩
    · rw [h1]; exact rnd_small (h3.trans (by norm_num))
    · rw [h1]
      refine (round_err _).trans ?_
      have : u * |e.2 * c| ≤ u * 1 := mul_le_mul_of_nonneg_left h3 hu0.le
      linarith
    · have hone : Rep (1 : ℝ) := ⟨1, 0, by norm_num, by norm_num, by norm_num⟩
      rw [abs_le] at h3 ⊢
      exact ⟨rep_le_round (rep_neg hone) h3.1, round_le_rep hone h3.2⟩
  choose b hb using hex
  exact ⟨b, List.map_congr_left fun e he => (hb e he).1, fun e he => (hb e he).2⟩

theorem zip_sum_fst {xs : List ℝ} {α : Type*} {S : List α} (f : α → ℝ) (hl : xs.length = S.length) : ((List.zip xs (S.map f)).map Prod.fst).sum = xs.sum := by
  rw [List.map_fst_zip (by simp [hl])]

/-- An edge. -/
theorem edgeOf_near {α : Type*} {S : List α} {f : α → ℝ} (hf : ∀ e ∈ S, |f e| ≤ 3) {xs : List ℝ} (hl : xs.length = S.length) (hx : ∀ x ∈ xs, 0 ≤ x) (hs : xs.sum ≤ 3 / 2)
    (hn : S.length ≤ 10 ^ 5) :
    ∃ r, edgeOf (S.map fun e => fin (f e)) (xs.map fin) = fin r ∧ Rep r ∧ |r - (List.zipWith (fun x e => x * f e) xs S).sum| ≤ 1 / 10 ^ 9 := by
  obtain ⟨s, e1, e2, e3⟩ := wsum_near (List.zip xs (S.map f)) (by
    intro p hp
    have h1 := (List.of_mem_zip hp)
    obtain ⟨e, he, h2⟩ := List.mem_map.mp h1.2
    exact ⟨hx _ h1.1, by rw [← h2]; exact hf e he⟩) (by rw [zip_sum_fst f hl]; exact hs) (by simp [hl]; omega)
  refine ⟨s, ?_, e2, ?_⟩
  · rw [← e1]
    unfold edgeOf
    congr 1
    have : ∀ (S : List α) (xs : List ℝ), List.zipWith (fun yh d => mul d yh) (S.map fun e => fin (f e)) (xs.map fin) =
        (List.zip xs (S.map f)).map fun p => mul (fin p.1) (fin p.2) := by
      intro S
      induction S with
      | nil => intro xs; simp
      | cons e S ih =>
        intro xs
        cases xs with
        | nil => simp
        | cons x xs => simp [ih]
    exact this S xs
  · have h1 : ((List.zip xs (S.map f)).map fun p => p.1 * p.2) = List.zipWith (fun x e => x * f e) xs S := by
      rw [List.zip, List.map_zipWith, List.zipWith_map_right]
    rw [h1] at e3
    refine e3.trans ?_
    have h2 : ((List.zip xs (S.map f)).length : ℝ) ≤ 10 ^ 5 := by
      have : (List.zip xs (S.map f)).length ≤ 10 ^ 5 := by simp [hl]; omega
      exact_mod_cast this
    calc (2 : ℝ) / 10 ^ 15 * ((List.zip xs (S.map f)).length + 4) ≤ 2 / 10 ^ 15 * (10 ^ 5 + 4) := by gcongr
      _ ≤ _ := by norm_num

theorem zipSum_close {α : Type*} (f g : α → ℝ) (δ : ℝ) : ∀ (S : List α) (xs : List ℝ), (∀ e ∈ S, |f e - g e| ≤ δ) → (∀ x ∈ xs, 0 ≤ x) → xs.length = S.length →
    |(List.zipWith (fun x e => x * f e) xs S).sum - (List.zipWith (fun x e => x * g e) xs S).sum| ≤ δ * xs.sum := by
  intro S
  induction S with
  | nil => intro xs _ _ h; simp [List.length_eq_zero_iff.mp h]
  | cons e S ih =>
    intro xs hf hx hl
    cases xs with
    | nil => simp at hl
    | cons x xs =>
      have i := ih xs (fun e' he => hf e' (List.mem_cons_of_mem _ he)) (fun y hy => hx y (List.mem_cons_of_mem _ hy)) (by simpa using hl)
      have h0 := hx x (by simp)
      have h1 := hf e (by simp)
      simp only [List.zipWith_cons_cons, List.sum_cons]
      have h2 : |x * f e - x * g e| ≤ δ * x := by
        rw [← mul_sub, abs_mul, abs_of_nonneg h0]; nlinarith
      have h3 := abs_add_le (x * f e - x * g e) ((List.zipWith (fun x e => x * f e) xs S).sum - (List.zipWith (fun x e => x * g e) xs S).sum)
      rw [show x * f e + (List.zipWith (fun x e => x * f e) xs S).sum - (x * g e + (List.zipWith (fun x e => x * g e) xs S).sum) =
        x * f e - x * g e + ((List.zipWith (fun x e => x * f e) xs S).sum - (List.zipWith (fun x e => x * g e) xs S).sum) by ring]
      linarith

theorem zipSum_dist {α : Type*} (f : α → ℝ) (B : ℝ) : ∀ (S : List α) (xs ys : List ℝ), (∀ e ∈ S, |f e| ≤ B) → xs.length = S.length → ys.length = S.length →
    |(List.zipWith (fun x e => x * f e) xs S).sum - (List.zipWith (fun x e => x * f e) ys S).sum| ≤ B * Spec.dist1 xs ys := by
  intro S
  induction S with
  | nil => intro xs ys _ h h'; simp [List.length_eq_zero_iff.mp h, List.length_eq_zero_iff.mp h', Spec.dist1]
  | cons e S ih =>
    intro xs ys hf hl hl'
    cases xs with
    | nil => simp at hl
    | cons x xs =>
      cases ys with
      | nil => simp at hl'
      | cons y ys =>
        have i := ih xs ys (fun e' he => hf e' (List.mem_cons_of_mem _ he)) (by simpa using hl) (by simpa using hl')
        have h1 := hf e (by simp)
        have hB : Spec.dist1 (x :: xs) (y :: ys) = |x - y| + Spec.dist1 xs ys := by simp [Spec.dist1]
        rw [hB]
        simp only [List.zipWith_cons_cons, List.sum_cons]
        have h2 : |x * f e - y * f e| ≤ B * |x - y| := by
          rw [← sub_mul, abs_mul, mul_comm]; exact mul_le_mul_of_nonneg_right h1 (abs_nonneg _)
        have h3 := abs_add_le (x * f e - y * f e) ((List.zipWith (fun x e => x * f e) xs S).sum - (List.zipWith (fun x e => x * f e) ys S).sum)
        rw [show x * f e + (List.zipWith (fun x e => x * f e) xs S).sum - (y * f e + (List.zipWith (fun x e => x * f e) ys S).sum) =
          x * f e - y * f e + ((List.zipWith (fun x e => x * f e) xs S).sum - (List.zipWith (fun x e => x * f e) ys S).sum) by ring]
        linarith

/-- The softmax puts its mass where the logarithms are large. -/
theorem softmax_mean (logs : List ℝ) {l : ℝ} (hl : l ∈ logs) : l - Real.log logs.length ≤ (List.zipWith (· * ·) (Spec.softmax logs) logs).sum := by
  set Z := (logs.map Real.exp).sum with hZ
  have hpos : 0 < Z := by
    rw [hZ]
    exact lt_of_lt_of_le (Real.exp_pos l) (List.single_le_sum (by intro x hx; obtain ⟨y, -, rfl⟩ := List.mem_map.mp hx; exact (Real.exp_pos y).le) _ (List.mem_map_of_mem hl))
  have hZl : Real.exp l ≤ Z := List.single_le_sum (by intro x hx; obtain ⟨y, -, rfl⟩ := List.mem_map.mp hx; exact (Real.exp_pos y).le) _ (List.mem_map_of_mem hl)
  have hn : 0 < (logs.length : ℝ) := by exact_mod_cast List.length_pos_of_mem hl
  have h1 : List.zipWith (· * ·) (Spec.softmax logs) logs = logs.map fun a => Real.exp a / Z * a := by
    unfold Spec.softmax
    rw [List.zipWith_map_left, List.zipWith_self]
  have h2 : ∀ a ∈ logs, Real.exp a / Z * (Real.log Z - Real.log logs.length) + Real.exp a / Z - 1 / logs.length ≤ Real.exp a / Z * a := by
    intro a _
    have hp : 0 < Real.exp a / Z := div_pos (Real.exp_pos a) hpos
    set p := Real.exp a / Z with hp'
    have h3 : Real.log p = a - Real.log Z := by rw [hp', Real.log_div (Real.exp_pos a).ne' hpos.ne', Real.log_exp]
    have h4 : 1 - 1 / (p * logs.length) ≤ Real.log (p * logs.length) := by
      have := Real.one_sub_inv_le_log_of_pos (mul_pos hp hn)
      rwa [one_div]
    rw [Real.log_mul hp.ne' hn.ne', h3] at h4
    have h5 := mul_le_mul_of_nonneg_left h4 hp.le
    have h6 : p * (1 - 1 / (p * logs.length)) = p - 1 / logs.length := by field_simp
    rw [h6] at h5
    linarith
  have h3 := List.sum_le_sum h2
  rw [h1]
  refine le_trans ?_ h3
  have h4 : (logs.map fun a => Real.exp a / Z).sum = 1 := by
    have : (logs.map fun a => Real.exp a / Z) = (logs.map Real.exp).map (· / Z) := by rw [List.map_map]; rfl
    rw [this]
    have h5 : ∀ l : List ℝ, (l.map (· / Z)).sum = l.sum / Z := by
      intro l; induction l with
      | nil => simp
      | cons a l ih => simp only [List.map_cons, List.sum_cons, ih]; ring
    rw [h5, ← hZ, div_self hpos.ne']
  have h5 : (logs.map fun a => Real.exp a / Z * (Real.log Z - Real.log logs.length) + Real.exp a / Z - 1 / logs.length).sum =
      (Real.log Z - Real.log logs.length) * (logs.map fun a => Real.exp a / Z).sum + (logs.map fun a => Real.exp a / Z).sum - 1 := by
    have h6 : ∀ l : List ℝ, (l.map fun a => Real.exp a / Z * (Real.log Z - Real.log logs.length) + Real.exp a / Z - 1 / logs.length).sum =
      (Real.log Z - Real.log logs.length) * (l.map fun a => Real.exp a / Z).sum + (l.map fun a => Real.exp a / Z).sum - l.length * (1 / logs.length) := by
      intro l; induction l with
      | nil => simp
      | cons a l ih => simp only [List.map_cons, List.sum_cons, List.length_cons, ih]; push_cast; ring
    rw [h6, mul_one_div, div_self hn.ne']
  rw [h5, h4]
  have h6 : l ≤ Real.log Z := by rw [Real.le_log_iff_exp_le hpos]; exact hZl
  linarith

/-! ## The step size -/

theorem clamp_range {a : F64} (ha : a ≠ nan) : ∃ s : ℝ, clamp01 a = fin s ∧ 0 ≤ s ∧ s ≤ 1 := by
  unfold clamp01
  by_cases h1 : Lt a (fin 0)
  · exact ⟨0, if_pos h1, le_rfl, zero_le_one⟩
  · rw [if_neg h1]
    by_cases h2 : Lt (fin 1) a
    · exact ⟨1, if_pos h2, zero_le_one, le_rfl⟩
    · rw [if_neg h2]
      cases a with
      | nan => exact absurd rfl ha
      | inf s => cases s with
        | true => exact absurd rfl h1
        | false => exact absurd rfl h2
      | fin x => exact ⟨x, rfl, not_lt.mp h1, not_lt.mp h2⟩

theorem rnd_ne_nan (x : ℝ) : rnd x ≠ nan := by
  unfold rnd; split <;> simp

theorem div_ne_nan {a : ℝ} (ha : a ≠ 0) {b : F64} (hb : b ≠ nan) : div (fin a) b ≠ nan := by
  cases b with
  | nan => exact absurd rfl hb
  | inf s => simp [div]
  | fin x =>
    unfold div
    by_cases hx : x = 0
    · simp [hx, ha]
    · simp only [if_neg hx]; exact rnd_ne_nan _

theorem mul_ne_nan {a : ℝ} (ha : a ≠ 0) {b : F64} (hb : b ≠ nan) : mul (fin a) b ≠ nan := by
  cases b with
  | nan => exact absurd rfl hb
  | inf s => simp [mul, ha]
  | fin x => exact rnd_ne_nan _

theorem foldl_max_fin {α : Type*} (g : α → F64) : ∀ (l : List α) (a : ℝ), (∀ p ∈ l, ∃ x, g p = fin x) →
    ∃ d, l.foldl (fun a p => maxNum a (g p)) (fin a) = fin d := by
  intro l
  induction l with
  | nil => intro a _; exact ⟨a, rfl⟩
  | cons p l ih =>
    intro a h
    obtain ⟨x, hx⟩ := h p (by simp)
    rw [List.foldl_cons, hx]
    have : ∃ y, maxNum (fin a) (fin x) = fin y := by
      unfold maxNum
      rw [if_neg (by simp), if_neg (by simp)]
      split
      · exact ⟨x, rfl⟩
      · exact ⟨a, rfl⟩
    obtain ⟨y, hy⟩ := this
    rw [hy]
    exact ih y fun q hq => h q (List.mem_cons_of_mem _ hq)

/-- The step size of a short step is a number in `[0, 1]` when the new edge is really larger. -/
theorem shortStep_range {α : Type*} {S : List α} {a b : α → ℝ} (ha : ∀ e ∈ S, |a e| ≤ 3 / 2) (hb : ∀ e ∈ S, |b e| ≤ 1) {xs : List ℝ} (hl : xs.length = S.length)
    (hx : ∀ x ∈ xs, 0 ≤ x) (hs : xs.sum ≤ 3 / 2) (hn : S.length ≤ 10 ^ 5) {η : ℝ} (hη : η ≠ 0)
    (hgap : 1 / 10 ^ 8 < (List.zipWith (fun x e => x * b e) xs S).sum - (List.zipWith (fun x e => x * a e) xs S).sum) :
    ∃ s : ℝ, shortStepSize (fin η) (S.map fun e => fin (b e)) (S.map fun e => fin (a e)) (xs.map fin) = fin s ∧ 0 ≤ s ∧ s ≤ 1 := by
  have hu := u_small
  have hu0 := u_pos
  have hη1 := eta_le_u
  have hd : ∀ e ∈ S, |b e + -a e| ≤ 5 / 2 := by
    intro e he
    have h1 := abs_le.mp (ha e he)
    have h2 := abs_le.mp (hb e he)
    rw [abs_le]; constructor <;> linarith
  have e1 : List.zipWith sub (S.map fun e => fin (b e)) (S.map fun e => fin (a e)) = S.map fun e => fin (round (b e + -a e)) := by
    rw [zipWith_map_map]
    refine List.map_congr_left fun e he => ?_
    change rnd (b e + -a e) = _
    rw [rnd_small ((hd e he).trans (by norm_num))]
  have hr : ∀ e ∈ S, |round (b e + -a e) - (b e - a e)| ≤ 4 * u := by
    intro e he
    have := round_err (b e + -a e)
    have h2 : u * |b e + -a e| ≤ u * (5 / 2) := mul_le_mul_of_nonneg_left (hd e he) hu0.le
    rw [← sub_eq_add_neg] at this h2
    rw [← sub_eq_add_neg]
    linarith
  obtain ⟨N, n1, -, n3⟩ := edgeOf_near (S := S) (f := fun e => round (b e + -a e)) (by
    intro e he
    have h1 := abs_le.mp (hr e he)
    have h2 := abs_le.mp (hd e he)
    rw [abs_le]; constructor <;> linarith) hl hx hs hn
  have hnum : (List.zip (S.map fun e => fin (round (b e + -a e))) (xs.map fin)).foldl (fun acc p => add acc (mul p.2 p.1)) (fin 0) = fin N := by
    rw [← n1]
    unfold edgeOf
    rw [List.zip, ← List.foldl_map (f := fun p : F64 × F64 => mul p.2 p.1) (g := add), List.map_zipWith]
  have hN : N ≠ 0 := by
    have h1 := zipSum_close (fun e => round (b e + -a e)) (fun e => b e - a e) (4 * u) S xs hr hx hl
    have h2 : (List.zipWith (fun x e => x * (b e - a e)) xs S).sum = (List.zipWith (fun x e => x * b e) xs S).sum - (List.zipWith (fun x e => x * a e) xs S).sum := by
      have : ∀ (xs : List ℝ) (S : List α), (List.zipWith (fun x e => x * (b e - a e)) xs S).sum = (List.zipWith (fun x e => x * b e) xs S).sum - (List.zipWith (fun x e => x * a e) xs S).sum := by
        intro xs
        induction xs with
        | nil => simp
        | cons x xs ih =>
          intro S
          cases S with
          | nil => simp
          | cons e S => simp only [List.zipWith_cons_cons, List.sum_cons, ih]; ring
      exact this xs S
    rw [h2] at h1
    have h3 := abs_le.mp h1
    have h4 := abs_le.mp n3
    have h5 : 4 * u * xs.sum ≤ 4 * u * (3 / 2) := mul_le_mul_of_nonneg_left hs (by positivity)
    intro h0
    rw [h0] at h4
    have : (0 : ℝ) < 1 / 10 ^ 8 - 1 / 10 ^ 9 - 6 / 9000000000000000 := by norm_num
    linarith [h3.1, h4.1, h4.2]
  obtain ⟨D, hD⟩ := foldl_max_fin (fun p : F64 × F64 => p.1.abs) (List.zip (S.map fun e => fin (round (b e + -a e))) (xs.map fin)) (-maxVal) (by
    intro p hp
    obtain ⟨e, -, he⟩ := List.mem_map.mp (List.of_mem_zip hp).1
    exact ⟨|round (b e + -a e)|, by rw [← he]; rfl⟩)
  unfold shortStepSize
  simp only [e1, hnum, hD]
  exact clamp_range (div_ne_nan hN (mul_ne_nan hη (rnd_ne_nan _)))

theorem filter_vote [Classifier H X F64] (g : ℝ × H → ℝ) (h0 : ∀ v : ℝ × H, v.1 = 0 → g v = 0) : ∀ V : List (ℝ × H), (∀ v ∈ V, 0 ≤ v.1) →
    ((V.filter fun v => decide (0 < v.1)).map g).sum = (V.map g).sum := by
  intro V
  induction V with
  | nil => simp
  | cons v V ih =>
    intro h
    have i := ih fun w hw => h w (List.mem_cons_of_mem _ hw)
    by_cases hv : 0 < v.1
    · simp [List.filter_cons, hv, i]
    · have : v.1 = 0 := le_antisymm (not_lt.mp hv) (h v (by simp))
      simp [List.filter_cons, hv, i, h0 v this]

/-- The returned vote: non-negative weights of sum about one survive the normalisation. -/
theorem vote_near (V : List (ℝ × H)) (hV : ∀ v ∈ V, 0 ≤ v.1) (hs : |(V.map Prod.fst).sum - 1| ≤ 1 / 10 ^ 6) (hl : V.length ≤ 3 * 10 ^ 7) :
    ∃ f, fromSlices (V.map fun v => fin v.1) (V.map Prod.snd) = .ok f ∧ (∀ g ∈ f.hypotheses, g ∈ V.map Prod.snd) ∧
      (∃ qs : List ℝ, f.weights = qs.map fin ∧ (∀ q ∈ qs, 0 ≤ q) ∧ |qs.sum - 1| ≤ 3 / 10 ^ 6) ∧
      ∀ x : X, (∀ v ∈ V, ∃ c : ℝ, conf v.2 x = fin c ∧ |c| ≤ 1) → ∃ F : ℝ, weightedConf f x = fin F ∧ |F - voteAt V x| ≤ 5 / 10 ^ 6 := by
  classical
  have hu := u_small
  have hu0 := u_pos
  have hη := eta_tiny
  have hη0 := eta_pos
  set W := V.filter fun v => decide (0 < v.1) with hW
  have hWpos : ∀ v ∈ W, 0 < v.1 := by intro v hv; have := (List.mem_filter.mp hv).2; simpa using this
  have hWsub : ∀ v ∈ W, v ∈ V := fun v hv => (List.mem_filter.mp hv).1
  have hWl : W.length ≤ 3 * 10 ^ 7 := (List.length_filter_le _ _).trans hl
  have hWs : (W.map Prod.fst).sum = (V.map Prod.fst).sum := filter_vote (H := H) (X := X) Prod.fst (fun v h => h) V hV
  rw [← hWs] at hs
  have hs' := abs_le.mp hs
  have hkept : ((List.zip (V.map fun v => fin v.1) (V.map Prod.snd)).filter fun p => decide (Lt (fin 0) p.1)) = W.map fun v => (fin v.1, v.2) := by
    rw [List.zip, zipWith_map_map, List.filter_map]
    congr 1
  have habs : ((W.map Prod.fst).map (|·|)) = W.map Prod.fst := by
    rw [List.map_map]
    exact List.map_congr_left fun v hv => abs_of_pos (hWpos v hv)
  obtain ⟨z, z1, -, z3⟩ := foldl_add_long 2 (by norm_num) (by norm_num) (W.map Prod.fst) 0 0 0 rep_zero (by simp) (by rw [abs_zero, zero_add, habs]; linarith)
    (by rw [List.length_map]; omega)
  simp only [zero_add, List.length_map] at z3
  have hlr : (W.length : ℝ) ≤ 3 * 10 ^ 7 := by exact_mod_cast hWl
  have z4 : |z - (W.map Prod.fst).sum| ≤ 1 / 10 ^ 7 := by
    refine z3.trans ?_
    calc 2 * u * 2 * (W.length : ℝ) ≤ 2 * (1 / 9000000000000000) * 2 * (3 * 10 ^ 7) := by gcongr
      _ ≤ _ := by norm_num
  have z5 := abs_le.mp z4
  have hz : |z - 1| ≤ 11 / 10 ^ 7 := by rw [abs_le]; constructor <;> linarith
  have hz' := abs_le.mp hz
  have hz0 : 0 < z := by linarith
  have hle : ∀ v ∈ W, v.1 ≤ 11 / 10 := fun v hv => by
    have : v.1 ≤ (W.map Prod.fst).sum := List.single_le_sum (by intro x hx; obtain ⟨q, hq, rfl⟩ := List.mem_map.mp hx; exact (hWpos q hq).le) _ (List.mem_map_of_mem hv)
    linarith
  have hdiv : ∀ v ∈ W, |round (v.1 / z) - v.1| ≤ 12 / 10 ^ 7 * v.1 + eta ∧ 0 ≤ round (v.1 / z) ∧ div (fin v.1) (fin z) = fin (round (v.1 / z)) := by
    intro v hv
    have h0 := hWpos v hv
    have h1 : 0 ≤ v.1 / z := (div_pos h0 hz0).le
    have h2 : |v.1 / z - v.1| ≤ 1101 / 10 ^ 9 * v.1 := by
      rw [show v.1 / z - v.1 = v.1 * ((1 - z) / z) by field_simp, abs_mul, abs_of_pos h0, mul_comm, abs_div, abs_of_pos hz0]
      refine mul_le_mul_of_nonneg_right ?_ h0.le
      rw [div_le_iff₀ hz0, abs_sub_comm]
      refine hz.trans ?_
      nlinarith
    have h3 := round_err (v.1 / z)
    have h2' := abs_le.mp h2
    have h4 : |v.1 / z| ≤ 2 * v.1 := by rw [abs_of_nonneg h1]; nlinarith
    have h5 : u * |v.1 / z| ≤ u * (2 * v.1) := mul_le_mul_of_nonneg_left h4 hu0.le
    have h6 : u * (2 * v.1) ≤ 1 / 10 ^ 12 * v.1 := by
      have : u * 2 ≤ 1 / 10 ^ 12 := by norm_num; linarith
      calc u * (2 * v.1) = (u * 2) * v.1 := by ring
        _ ≤ _ := mul_le_mul_of_nonneg_right this h0.le
    refine ⟨?_, round_nonneg h1, ?_⟩
    · have h3' := abs_le.mp h3
      rw [abs_le]
      constructor
      · have : (12 : ℝ) / 10 ^ 7 * v.1 = 1101 / 10 ^ 9 * v.1 + 99 / 10 ^ 9 * v.1 := by ring
        nlinarith [h3'.1]
      · have : (12 : ℝ) / 10 ^ 7 * v.1 = 1101 / 10 ^ 9 * v.1 + 99 / 10 ^ 9 * v.1 := by ring
        nlinarith [h3'.2]
    · unfold div
      simp only [if_neg hz0.ne']
      rw [rnd_small (h4.trans (by have := hle v hv; norm_num; linarith))]
  have hnorm : normalize (W.map fun v => fin v.1) = .ok (W.map fun v => fin (round (v.1 / z))) := by
    unfold normalize
    have h1 : (W.map fun v => fin v.1).map F64.abs = (W.map Prod.fst).map fin := by
      rw [List.map_map, List.map_map]
      refine List.map_congr_left fun v hv => ?_
      change fin |v.1| = fin v.1
      rw [abs_of_pos (hWpos v hv)]
    simp only [h1, z1]
    rw [if_neg (by simp [hz0.ne'])]
    congr 1
    rw [List.map_map]
    exact List.map_congr_left fun v hv => (hdiv v hv).2.2
  have hq : |(W.map fun v => round (v.1 / z)).sum - (W.map Prod.fst).sum| ≤ 12 / 10 ^ 7 * (W.map Prod.fst).sum + W.length * eta := by
    have : ∀ l : List (ℝ × H), (∀ v ∈ l, v ∈ W) → |(l.map fun v => round (v.1 / z)).sum - (l.map Prod.fst).sum| ≤ 12 / 10 ^ 7 * (l.map Prod.fst).sum + l.length * eta := by
      intro l
      induction l with
      | nil => intro _; simp
      | cons v l ih =>
        intro h
        have i := abs_le.mp (ih fun w hw => h w (List.mem_cons_of_mem _ hw))
        have j := abs_le.mp (hdiv v (h v (by simp))).1
        simp only [List.map_cons, List.sum_cons, List.length_cons]
        push_cast
        rw [abs_le]
        constructor
        · linarith [i.1, j.1]
        · linarith [i.2, j.2]
    exact this W fun v hv => hv
  have hWeta : (W.length : ℝ) * eta ≤ 1 / 10 ^ 40 := by
    calc (W.length : ℝ) * eta ≤ (3 * 10 ^ 7) * (1 / 10 ^ 60) := by gcongr
      _ ≤ _ := by norm_num
  have hq' := abs_le.mp hq
  refine ⟨{ weights := W.map fun v => fin (round (v.1 / z)), hypotheses := W.map Prod.snd }, ?_, ?_, ?_, ?_⟩
  · unfold fromSlices
    simp only [hkept, List.map_map]
    rw [show (Prod.fst ∘ fun v : ℝ × H => (fin v.1, v.2)) = fun v => fin v.1 from rfl, hnorm]
    rfl
  · intro g hg
    obtain ⟨v, hv, rfl⟩ := List.mem_map.mp hg
    exact List.mem_map_of_mem (hWsub v hv)
  · refine ⟨W.map fun v => round (v.1 / z), by rw [List.map_map]; rfl, ?_, ?_⟩
    · intro q hq
      obtain ⟨v, hv, rfl⟩ := List.mem_map.mp hq
      exact (hdiv v hv).2.1
    · rw [abs_le]
      constructor <;> linarith [hq'.1, hq'.2]
  · intro x hc
    obtain ⟨F, f1, -, f3⟩ := wsum_near (W.map fun v => (round (v.1 / z), (conf v.2 x).val)) (by
      intro p hp
      obtain ⟨v, hv, rfl⟩ := List.mem_map.mp hp
      obtain ⟨c, c1, c2⟩ := hc v (hWsub v hv)
      refine ⟨(hdiv v hv).2.1, ?_⟩
      simp only [c1, val]; linarith) (by rw [List.map_map]; change (W.map fun v => round (v.1 / z)).sum ≤ _; linarith) (by rw [List.length_map]; omega)
    refine ⟨F, ?_, ?_⟩
    · rw [← f1]
      unfold weightedConf
      congr 1
      rw [zipWith_map_map, List.map_map]
      refine List.map_congr_left fun v hv => ?_
      obtain ⟨c, c1, -⟩ := hc v (hWsub v hv)
      simp only [Function.comp_apply, c1, val]
    · rw [List.map_map, List.length_map] at f3
      have f3' : |F - (W.map fun v => round (v.1 / z) * (conf v.2 x).val).sum| ≤ 2 / 10 ^ 15 * (W.length + 4) := f3
      have g1 : ∀ l : List (ℝ × H), (∀ v ∈ l, v ∈ W) → |(l.map fun v => round (v.1 / z) * (conf v.2 x).val).sum - (l.map fun v => v.1 * (conf v.2 x).val).sum| ≤
          12 / 10 ^ 7 * (l.map Prod.fst).sum + l.length * eta := by
        intro l
        induction l with
        | nil => intro _; simp
        | cons v l ih =>
          intro h
          have i := abs_le.mp (ih fun w hw => h w (List.mem_cons_of_mem _ hw))
          have j := (hdiv v (h v (by simp))).1
          obtain ⟨c, c1, c2⟩ := hc v (hWsub v (h v (by simp)))
          have k : |round (v.1 / z) * c - v.1 * c| ≤ 12 / 10 ^ 7 * v.1 + eta := by
            rw [← sub_mul, abs_mul]
            have := abs_nonneg (round (v.1 / z) - v.1)
            nlinarith
          have k' := abs_le.mp k
          simp only [List.map_cons, List.sum_cons, List.length_cons, c1, val] at i ⊢
          push_cast
          rw [abs_le]
          constructor
          · linarith [i.1, k'.1]
          · linarith [i.2, k'.2]
      have g2 := abs_le.mp (g1 W fun v hv => hv)
      have g3 : (W.map fun v => v.1 * (conf v.2 x).val).sum = voteAt V x := filter_vote (H := H) (X := X) (fun v => v.1 * (conf v.2 x).val) (fun v h => by simp [h]) V hV
      rw [g3] at g2
      have f4 : (2 : ℝ) / 10 ^ 15 * (W.length + 4) ≤ 1 / 10 ^ 7 := by
        calc (2 : ℝ) / 10 ^ 15 * (W.length + 4) ≤ 2 / 10 ^ 15 * (3 * 10 ^ 7 + 4) := by gcongr
          _ ≤ _ := by norm_num
      have f5 := abs_le.mp f3'
      rw [abs_le]
      constructor <;> linarith [g2.1, g2.2, f5.1, f5.2]

end F64

end Miniboosts
