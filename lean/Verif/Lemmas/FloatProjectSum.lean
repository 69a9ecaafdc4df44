import Verif.Lemmas.FloatProjectRun
import Verif.Lemmas.RoundingBoost

/-! # The computed projection against the exact one -/

namespace Miniboosts.F64

theorem sum_abs_le {α : Type*} (X P δ : α → ℝ) (ks : List α) (h : ∀ k ∈ ks, P k - δ k ≤ X k) (h0 : ∀ k ∈ ks, 0 ≤ δ k) :
    (ks.map fun k => |X k - P k|).sum ≤ (ks.map X).sum - (ks.map P).sum + 2 * (ks.map δ).sum := by
  induction ks with
  | nil => simp
  | cons k ks ih =>
    have h1 := ih (fun j hj => h j (by simp [hj])) (fun j hj => h0 j (by simp [hj]))
    have h2 := h k (by simp)
    have h3 := h0 k (by simp)
    have h4 : |X k - P k| ≤ X k - P k + 2 * δ k := by rw [abs_le]; constructor <;> linarith
    simp only [List.map_cons, List.sum_cons]
    linarith

theorem sum_abs_le' {α : Type*} (X P δ : α → ℝ) (ks : List α) (h : ∀ k ∈ ks, X k ≤ P k + δ k) (h0 : ∀ k ∈ ks, 0 ≤ δ k) :
    (ks.map fun k => |X k - P k|).sum ≤ (ks.map P).sum - (ks.map X).sum + 2 * (ks.map δ).sum := by
  have := sum_abs_le P X δ ks (fun k hk => by linarith [h k hk]) h0
  simpa only [abs_sub_comm] using this

theorem sum_map_le_sum {α : Type*} (f g : α → ℝ) (ks : List α) (h : ∀ k ∈ ks, f k ≤ g k) : (ks.map f).sum ≤ (ks.map g).sum := by
  induction ks with
  | nil => simp
  | cons k ks ih =>
    have h1 := ih (fun j hj => h j (by simp [hj]))
    have h2 := h k (by simp)
    simp only [List.map_cons, List.sum_cons]
    linarith

theorem sum_const {α : Type*} (c : ℝ) (ks : List α) : (ks.map fun _ => c).sum = ks.length * c := by simp

/-- The capped entry of the exact projection. -/
noncomputable def capped (nu ξ : ℝ) (logs : List ℝ) (k : Nat) : ℝ := min (1 / nu) (ξ * Real.exp (lg logs k))

section

variable {nu ξ b : ℝ} {logs xs : List ℝ} {pre post : List Nat}

/-- The mass left after `p` is at most what the exact projection gives to the rest. -/
theorem mass_le (p rest : List Nat) (hsum : ((p ++ rest).map (capped nu ξ logs)).sum = 1) :
    1 - (p.length : ℝ) / nu ≤ (rest.map (capped nu ξ logs)).sum ∧ (rest.map (capped nu ξ logs)).sum ≤ ξ * esum logs rest := by
  rw [List.map_append, List.sum_append] at hsum
  have h1 := sum_map_le_sum (capped nu ξ logs) (fun _ => 1 / nu) p (fun k _ => min_le_left _ _)
  rw [sum_const] at h1
  have h2 := sum_map_le_sum (capped nu ξ logs) (fun k => ξ * Real.exp (lg logs k)) rest (fun k _ => min_le_right _ _)
  rw [sum_map_mul_left'] at h2
  have e : (p.length : ℝ) / nu = p.length * (1 / nu) := by ring
  refine ⟨by rw [e]; linarith, h2⟩

/-- An entry at which the loop went on is, up to rounding, at the cap in the exact projection. -/
theorem go_cap (hr : ProjRun nu logs xs b pre post) (hnu : 0 < nu) (hsum : ((pre ++ post).map (capped nu ξ logs)).sum = 1)
    {p q : List Nat} {k : Nat} (hp : pre = p ++ k :: q) (hc : 1 / 10 ^ 14 < 1 - (p.length : ℝ) / nu) :
    1 - 2 / 10 ^ 6 ≤ nu * (ξ * Real.exp (lg logs k)) := by
  rcases hr.go p k q hp with h | ⟨-, h⟩
  · linarith
  have hm := mass_le (nu := nu) (ξ := ξ) (logs := logs) p (k :: (q ++ post)) (by rw [← hsum, hp]; simp)
  have hE := Real.exp_pos (lg logs k)
  have hS : 0 < esum logs (k :: (q ++ post)) := esum_pos (by simp)
  have h2 : nu * (1 - (p.length : ℝ) / nu) * Real.exp (lg logs k) ≤ nu * (ξ * esum logs (k :: (q ++ post))) * Real.exp (lg logs k) := by
    apply mul_le_mul_of_nonneg_right _ hE.le
    exact mul_le_mul_of_nonneg_left (hm.1.trans hm.2) hnu.le
  have h3 : (1 - 2 / 10 ^ 6) * esum logs (k :: (q ++ post)) ≤ nu * (ξ * Real.exp (lg logs k)) * esum logs (k :: (q ++ post)) := by
    calc _ ≤ _ := h
      _ ≤ _ := h2
      _ = _ := by ring
  exact le_of_mul_le_mul_right h3 hS

/-- If the sum of the computed entries is close to one and none is above the computed cap, the computed vector is close to the exact one. -/
theorem close_of_check (hr : ProjRun nu logs xs b pre post) (h1 : 1 ≤ nu) (h2 : nu ≤ 10 ^ 5) (hl : logs.length ≤ 10 ^ 5) (hξ : 0 < ξ)
    (hsum : ((pre ++ post).map (capped nu ξ logs)).sum = 1) (hX : |((pre ++ post).map fun k => xs.getD k 0).sum - 1| ≤ 11 / 10 ^ 6)
    (hub : ∀ k ∈ pre ++ post, xs.getD k 0 ≤ b) :
    ((pre ++ post).map fun k => |xs.getD k 0 - capped nu ξ logs k|).sum ≤ 3 / 10 ^ 5 := by
  have hu := u_small
  have hu0 := u_pos
  have heta := eta_tiny
  have hnu : 0 < nu := by linarith
  have hv1 : 1 / nu ≤ 1 := by rw [div_le_one hnu]; exact h1
  have hv0 : 0 < 1 / nu := by positivity
  have hv5 : 1 / 10 ^ 5 ≤ 1 / nu := one_div_le_one_div_of_le hnu h2
  have hcap := abs_le.mp hr.cap
  have hcapu : 2 * u * (1 / nu) ≤ 2 * u := by nlinarith
  have hX' := abs_le.mp hX
  have hlen : (pre ++ post).length = logs.length := by simpa using hr.perm.length_eq
  have hlen' : ((pre ++ post).length : ℝ) ≤ 10 ^ 5 := by rw [hlen]; exact_mod_cast hl
  have hP : ∀ k, capped nu ξ logs k ≤ 1 / nu := fun k => min_le_left _ _
  have hP' : ∀ k, capped nu ξ logs k ≤ ξ * Real.exp (lg logs k) := fun k => min_le_right _ _
  rcases hr.stop with hpost | ⟨k, t, α, hpost, hc, hα, hαd, -, hE⟩
  · have := sum_abs_le (fun k => xs.getD k 0) (capped nu ξ logs) (fun _ => 2 * u) (pre ++ post) (by
      intro k hk
      rw [hpost, List.append_nil] at hk
      rw [hr.atCap k hk]
      linarith [hP k]) (fun _ _ => by positivity)
    rw [sum_const, hsum] at this
    have h3 : ((pre ++ post).length : ℝ) * (2 * u) ≤ 10 ^ 5 * (2 * u) := mul_le_mul_of_nonneg_right hlen' (by positivity)
    linarith
  · have hxk : ∀ j ∈ post, α * Real.exp (lg logs j) ≤ 2 := by
      intro j hj
      have hs := (List.pairwise_append.1 hr.sorted).2.1
      rw [hpost] at hs hj
      have hjk : lg logs j ≤ lg logs k := by
        rcases List.mem_cons.1 hj with rfl | h5
        · exact le_rfl
        · exact (List.pairwise_cons.1 hs).1 j h5
      have h3 : α * Real.exp (lg logs j) ≤ α * Real.exp (lg logs k) := mul_le_mul_of_nonneg_left (Real.exp_le_exp.mpr hjk) hα
      have h4 : 0 ≤ α * Real.exp (lg logs k) := mul_nonneg hα (Real.exp_pos _).le
      have h5 : 1 * (α * Real.exp (lg logs k)) ≤ nu * (α * Real.exp (lg logs k)) := mul_le_mul_of_nonneg_right h1 h4
      linarith
    by_cases hA : ξ ≤ α
    · have := sum_abs_le (fun k => xs.getD k 0) (capped nu ξ logs) (fun _ => 3 / 10 ^ 11) (pre ++ post) (by
        intro j hj
        rcases List.mem_append.1 hj with hj | hj
        · simp only [hr.atCap j hj]
          linarith [hP j]
        · have h3 := abs_le.mp (hE j hj).2
          have h4 := hxk j hj
          have h5 : ξ * Real.exp (lg logs j) ≤ α * Real.exp (lg logs j) := mul_le_mul_of_nonneg_right hA (Real.exp_pos _).le
          have := hP' j
          linarith) (fun _ _ => by positivity)
      rw [sum_const, hsum] at this
      have h3 : ((pre ++ post).length : ℝ) * (3 / 10 ^ 11) ≤ 10 ^ 5 * (3 / 10 ^ 11) := mul_le_mul_of_nonneg_right hlen' (by positivity)
      linarith
    · have hA' := (not_le.mp hA).le
      -- the entries before the stopping index
      have hpre : ∀ j ∈ pre, (1 - 2 / 10 ^ 6) * (1 / nu) ≤ capped nu ξ logs j := by
        intro j hj
        rcases List.eq_nil_or_concat pre with h | ⟨p, k', h⟩
        · rw [h] at hj; cases hj
        rw [List.concat_eq_append] at h
        have hlast : 1 / 10 ^ 14 < 1 - (p.length : ℝ) / nu := by
          have e : (pre.length : ℝ) / nu = p.length / nu + 1 / nu := by
            rw [h, List.length_append, List.length_singleton]; push_cast; ring
          rw [e] at hc
          linarith
        have h3 := go_cap (ξ := ξ) hr hnu hsum (q := []) h hlast
        have hs := (List.pairwise_append.1 hr.sorted).1
        have hjk : lg logs k' ≤ lg logs j := by
          rw [h] at hs hj
          rcases List.mem_append.1 hj with h5 | h5
          · exact (List.pairwise_append.1 hs).2.2 j h5 k' (by simp)
          · rw [List.mem_singleton.1 h5]
        have h4 : ξ * Real.exp (lg logs k') ≤ ξ * Real.exp (lg logs j) := mul_le_mul_of_nonneg_left (Real.exp_le_exp.mpr hjk) hξ.le
        have h5 : (1 - 2 / 10 ^ 6) * (1 / nu) ≤ ξ * Real.exp (lg logs k') := by
          rw [mul_one_div, div_le_iff₀ hnu, mul_comm _ nu]; exact h3
        exact le_min (by linarith) (h5.trans h4)
      set δ : Nat → ℝ := fun j => if j ∈ pre then 3 / 10 ^ 6 * (1 / nu) else 3 / 10 ^ 11 with hδ
      have := sum_abs_le' (fun k => xs.getD k 0) (capped nu ξ logs) δ (pre ++ post) (by
        intro j hj
        by_cases hjp : j ∈ pre
        · simp only [hr.atCap j hjp, hδ, if_pos hjp]
          have := hpre j hjp
          have h6 : 2 * u * (1 / nu) ≤ 1 / 10 ^ 10 * (1 / nu) := mul_le_mul_of_nonneg_right (by linarith) hv0.le
          linarith
        · have hj' : j ∈ post := (List.mem_append.1 hj).resolve_left hjp
          simp only [hδ, if_neg hjp]
          have h3 := abs_le.mp (hE j hj').2
          have h4 := hxk j hj'
          have h5 : α * Real.exp (lg logs j) ≤ ξ * Real.exp (lg logs j) := mul_le_mul_of_nonneg_right hA' (Real.exp_pos _).le
          have h6 := hub j hj
          have h7 : xs.getD j 0 - 3 / 10 ^ 11 ≤ capped nu ξ logs j := le_min (by linarith) (by linarith)
          linarith) (by
        intro j _
        simp only [hδ]; split_ifs <;> positivity)
      have hnd : (pre ++ post).Nodup := hr.perm.nodup_iff.2 List.nodup_range
      have hδsum : ((pre ++ post).map δ).sum = pre.length * (3 / 10 ^ 6 * (1 / nu)) + post.length * (3 / 10 ^ 11) := by
        rw [List.map_append, List.sum_append]
        congr 1
        · rw [← sum_const]; congr 1
          apply List.map_congr_left
          intro j hj; simp only [hδ, if_pos hj]
        · rw [← sum_const]; congr 1
          apply List.map_congr_left
          intro j hj
          simp only [hδ]
          rw [if_neg]
          intro hj'
          exact (List.nodup_append.1 hnd).2.2 j hj' j hj rfl
      rw [hδsum, hsum] at this
      have h3 : (post.length : ℝ) ≤ 10 ^ 5 := by
        refine le_trans ?_ hlen'
        rw [List.length_append]; push_cast
        have : (0 : ℝ) ≤ pre.length := Nat.cast_nonneg _
        linarith
      have h4 : (pre.length : ℝ) * (3 / 10 ^ 6 * (1 / nu)) = 3 / 10 ^ 6 * (pre.length / nu) := by ring
      rw [h4] at this
      linarith

/-- The sum of the rescaled entries. -/
theorem sum_post (X : Nat → ℝ) {α : ℝ} (ks : List Nat)
    (hE : ∀ j ∈ ks, |X j - α * Real.exp (lg logs j)| ≤ 1 / 10 ^ 11 * (α * Real.exp (lg logs j)) + eta) :
    |(ks.map X).sum - α * esum logs ks| ≤ 1 / 10 ^ 11 * (α * esum logs ks) + ks.length * eta := by
  induction ks with
  | nil => simp [esum]
  | cons k ks ih =>
    have h1 := abs_le.mp (ih (fun j hj => hE j (by simp [hj])))
    have h2 := abs_le.mp (hE k (by simp))
    have e : esum logs (k :: ks) = Real.exp (lg logs k) + esum logs ks := by simp [esum]
    rw [e, List.map_cons, List.sum_cons, List.length_cons]
    push_cast
    rw [abs_le]
    constructor <;> linarith

/-- The part of the exact projection that is below the cap. -/
noncomputable def free (nu ξ : ℝ) (logs : List ℝ) (k : Nat) : ℝ := if ξ * Real.exp (lg logs k) < 1 / nu then capped nu ξ logs k else 0

theorem free_nonneg (hnu : 0 < nu) (hξ : 0 < ξ) (k : Nat) : 0 ≤ free nu ξ logs k ∧ free nu ξ logs k ≤ capped nu ξ logs k := by
  have hc : 0 ≤ capped nu ξ logs k := le_min (by positivity) (mul_nonneg hξ.le (Real.exp_pos _).le)
  unfold free
  split_ifs
  · exact ⟨hc, le_rfl⟩
  · exact ⟨le_rfl, hc⟩

/-- If no entry is close to the cap and the entries below the cap have some weight, the computed vector passes the check. -/
theorem passes_of_gap (hr : ProjRun nu logs xs b pre post) (h1 : 1 ≤ nu) (h2 : nu ≤ 10 ^ 5) (hl : logs.length ≤ 10 ^ 5) (hξ : 0 < ξ)
    (hsum : ((pre ++ post).map (capped nu ξ logs)).sum = 1) (hgap : ∀ k ∈ pre ++ post, 1 / 100 ≤ |nu * (ξ * Real.exp (lg logs k)) - 1|)
    (hm : 1 / 1000 ≤ ((pre ++ post).map (free nu ξ logs)).sum) :
    (∀ k ∈ pre ++ post, 0 ≤ xs.getD k 0 ∧ xs.getD k 0 ≤ b) ∧ |((pre ++ post).map fun k => xs.getD k 0).sum - 1| ≤ 4 / 10 ^ 6 := by
  have hu := u_small
  have hu0 := u_pos
  have heta := eta_tiny
  have heta0 := eta_pos
  have hnu : 0 < nu := by linarith
  have hv0 : 0 < 1 / nu := by positivity
  have hv5 : 1 / 10 ^ 5 ≤ 1 / nu := one_div_le_one_div_of_le hnu h2
  have hcap := abs_le.mp hr.cap
  have hcapu : 2 * u * (1 / nu) ≤ 1 / 10 ^ 14 * (1 / nu) := mul_le_mul_of_nonneg_right (by linarith) hv0.le
  -- an entry that is nearly at the cap is above it
  have hup : ∀ k ∈ pre ++ post, 1 - 1 / 1000 ≤ nu * (ξ * Real.exp (lg logs k)) → 101 / 100 ≤ nu * (ξ * Real.exp (lg logs k)) := by
    intro k hk h
    rcases le_abs'.mp (hgap k hk) with h3 | h3 <;> linarith
  have hat : ∀ k, 101 / 100 ≤ nu * (ξ * Real.exp (lg logs k)) → free nu ξ logs k = 0 ∧ capped nu ξ logs k = 1 / nu := by
    intro k h
    have h3 : 1 / nu ≤ ξ * Real.exp (lg logs k) := by rw [div_le_iff₀ hnu, mul_comm _ nu]; linarith
    exact ⟨if_neg (not_lt.mpr h3), min_eq_left h3⟩
  have hrest : ∀ p rest : List Nat, pre ++ post = p ++ rest → (∀ k ∈ p, free nu ξ logs k = 0 ∧ capped nu ξ logs k = 1 / nu) →
      1 - (p.length : ℝ) / nu = (rest.map (capped nu ξ logs)).sum ∧ 1 / 1000 ≤ (rest.map (free nu ξ logs)).sum ∧
        (rest.map (free nu ξ logs)).sum ≤ (rest.map (capped nu ξ logs)).sum := by
    intro p rest he hp
    rw [he, List.map_append, List.sum_append] at hsum hm
    rw [List.map_congr_left (fun k hk => (hp k hk).2), sum_const] at hsum
    rw [List.map_congr_left (fun k hk => (hp k hk).1), sum_const] at hm
    refine ⟨?_, by linarith, sum_map_le_sum _ _ _ (fun k _ => (free_nonneg hnu hξ k).2)⟩
    have e : (p.length : ℝ) / nu = p.length * (1 / nu) := by ring
    rw [e]; linarith
  have hpre : ∀ n, ∀ p rest : List Nat, p.length = n → pre = p ++ rest → ∀ k ∈ p, free nu ξ logs k = 0 ∧ capped nu ξ logs k = 1 / nu := by
    intro n
    induction n with
    | zero => intro p rest hp _ k hk; rw [List.length_eq_zero_iff.mp hp] at hk; cases hk
    | succ n ih =>
      intro p rest hp he k hk
      rcases List.eq_nil_or_concat p with h | ⟨p', k', h⟩
      · rw [h] at hk; cases hk
      rw [List.concat_eq_append] at h
      have hp' : p'.length = n := by rw [h] at hp; simpa using hp
      have he' : pre = p' ++ k' :: rest := by rw [he, h]; simp
      have hall := ih p' (k' :: rest) hp' he'
      rw [h] at hk
      rcases List.mem_append.1 hk with hk | hk
      · exact hall k hk
      rw [List.mem_singleton.1 hk]
      obtain ⟨g1, g2, g3⟩ := hrest p' (k' :: (rest ++ post)) (by rw [he']; simp) hall
      have := go_cap (ξ := ξ) hr hnu hsum he' (by rw [g1]; linarith)
      exact hat k' (hup k' (by rw [he']; simp) (by linarith))
  have hpre' := hpre pre.length pre [] rfl (by simp)
  obtain ⟨g1, g2, g3⟩ := hrest pre post rfl hpre'
  rcases hr.stop with hpost | ⟨k, t, α, hpost, -, hα, hαd, hαS, hE⟩
  · rw [hpost] at g2; norm_num at g2
  have hkp : k ∈ post := by rw [hpost]; simp
  have hsorted : ∀ j ∈ post, lg logs j ≤ lg logs k := by
    intro j hj
    have hs := (List.pairwise_append.1 hr.sorted).2.1
    rw [hpost] at hs hj
    rcases List.mem_cons.1 hj with rfl | h5
    · exact le_rfl
    · exact (List.pairwise_cons.1 hs).1 j h5
  have hS : 0 < esum logs post := esum_pos (by rw [hpost]; simp)
  have hmass := mass_le (nu := nu) (ξ := ξ) (logs := logs) pre post hsum
  have hc1 : 1 - (pre.length : ℝ) / nu ≤ 1 := by have : 0 ≤ (pre.length : ℝ) / nu := by positivity
                                                 linarith
  set c := 1 - (pre.length : ℝ) / nu with hcdef
  set S := esum logs post with hSdef
  set m := (post.map (free nu ξ logs)).sum with hmdef
  have hc0 : 1 / 1000 ≤ c := by rw [g1]; linarith
  rw [abs_of_pos (by linarith : 0 < c)] at hαS
  have hαS' := abs_le.mp hαS
  have hE0 := Real.exp_pos (lg logs k)
  set e := Real.exp (lg logs k) with hedef
  have hcapα : nu * α * e ≤ 1 - 1 / 10 ^ 9 := by
    by_contra hcon
    have hcon := not_le.mp hcon
    have a1 : α * S ≤ (1 + 31 / 10 ^ 7) * c := by linarith
    have a2 : (1 - 31 / 10 ^ 7) * c ≤ α * S := by linarith
    have hne : 0 < nu * e := by positivity
    -- from below
    have b1 : (1 - 1 / 10 ^ 9) * S ≤ (1 + 31 / 10 ^ 7) * (nu * c * e) := by
      have x1 := mul_le_mul_of_nonneg_right hcon.le hS.le
      have x2 := mul_le_mul_of_nonneg_left a1 hne.le
      calc _ ≤ nu * α * e * S := x1
        _ = nu * e * (α * S) := by ring
        _ ≤ _ := x2
        _ = _ := by ring
    have b2 : (1 - 31 / 10 ^ 7) * (nu * c * e) ≤ (1 + 1 / 10 ^ 9) * S := by
      have x1 := mul_le_mul_of_nonneg_right hαd hS.le
      have x2 := mul_le_mul_of_nonneg_left a2 hne.le
      calc _ = nu * e * ((1 - 31 / 10 ^ 7) * c) := by ring
        _ ≤ _ := x2
        _ = nu * α * e * S := by ring
        _ ≤ _ := x1
    have hx : 101 / 100 ≤ nu * (ξ * e) := by
      apply hup k (by simp [hkp])
      have x1 : nu * c * e ≤ nu * (ξ * S) * e := by
        apply mul_le_mul_of_nonneg_right _ hE0.le
        exact mul_le_mul_of_nonneg_left (hmass.1.trans hmass.2) hnu.le
      have x2 : (1 - 1 / 1000) * S ≤ nu * (ξ * e) * S := by
        have : nu * (ξ * S) * e = nu * (ξ * e) * S := by ring
        linarith
      exact le_of_mul_le_mul_right x2 hS
    have b3 : S + 1 / 102 * (nu * m * e) ≤ nu * c * e := by
      have x1 := sum_map_le_sum (fun j => Real.exp (lg logs j) + 1 / 102 * (nu * e) * free nu ξ logs j) (fun j => nu * e * capped nu ξ logs j) post (by
        intro j hj
        have y1 := Real.exp_pos (lg logs j)
        unfold free
        split_ifs with h
        · have : capped nu ξ logs j = ξ * Real.exp (lg logs j) := min_eq_right h.le
          rw [this]
          have y2 : 101 / 100 * Real.exp (lg logs j) ≤ nu * (ξ * e) * Real.exp (lg logs j) := mul_le_mul_of_nonneg_right hx y1.le
          have y3 : nu * e * (ξ * Real.exp (lg logs j)) = nu * (ξ * e) * Real.exp (lg logs j) := by ring
          have y4 : 1 / 102 * (nu * e) * (ξ * Real.exp (lg logs j)) = 1 / 102 * (nu * (ξ * e) * Real.exp (lg logs j)) := by ring
          rw [y3, y4]
          linarith
        · have : capped nu ξ logs j = 1 / nu := min_eq_left (not_lt.mp h)
          rw [this, mul_zero, add_zero]
          have y5 : nu * e * (1 / nu) = e := by field_simp
          rw [y5]
          exact Real.exp_le_exp.mpr (hsorted j hj))
      rw [sum_map_mul_left', ← g1, List.sum_map_add, sum_map_mul_left'] at x1
      have y6 : (post.map fun j => Real.exp (lg logs j)).sum = S := rfl
      rw [y6] at x1
      calc _ = S + 1 / 102 * (nu * e) * m := by ring
        _ ≤ _ := x1
        _ = _ := by ring
    have b4 : nu * c * e ≤ nu * e := by
      have := mul_le_mul_of_nonneg_left hc1 hne.le
      calc _ = nu * e * c := by ring
        _ ≤ _ := this
        _ = _ := by ring
    have b5 : 1 / 1000 * (nu * e) ≤ nu * m * e := by
      have := mul_le_mul_of_nonneg_right g2 hne.le
      calc _ ≤ _ := this
        _ = _ := by ring
    linarith only [b1, b2, b3, b4, b5, hS, hne]
  have hpostub : ∀ j ∈ post, xs.getD j 0 ≤ b := by
    intro j hj
    have x1 := (abs_le.mp (hE j hj).2).2
    have x2 : α * Real.exp (lg logs j) ≤ α * e := mul_le_mul_of_nonneg_left (Real.exp_le_exp.mpr (hsorted j hj)) hα
    have x3 : α * e ≤ (1 - 1 / 10 ^ 9) * (1 / nu) := by
      rw [mul_one_div, le_div_iff₀ hnu]; linarith
    linarith
  constructor
  · intro j hj
    rcases List.mem_append.1 hj with hj | hj
    · rw [hr.atCap j hj]; exact ⟨by linarith, le_rfl⟩
    · exact ⟨(hE j hj).1, hpostub j hj⟩
  · have x1 := abs_le.mp (sum_post (logs := logs) (fun k => xs.getD k 0) post (fun j hj => (hE j hj).2))
    rw [List.map_append, List.sum_append, List.map_congr_left (fun k hk => hr.atCap k hk), sum_const]
    have hlen : pre.length + post.length = logs.length := by simpa using hr.perm.length_eq
    have hlen' : (pre.length : ℝ) + post.length ≤ 10 ^ 5 := by
      have : pre.length + post.length ≤ 10 ^ 5 := by omega
      exact_mod_cast this
    have hp0 : (0 : ℝ) ≤ pre.length := Nat.cast_nonneg _
    have hp1 : (0 : ℝ) ≤ post.length := Nat.cast_nonneg _
    have x2 : (post.length : ℝ) * eta ≤ 10 ^ 5 * (1 / 10 ^ 60) := mul_le_mul (by linarith) heta heta0.le (by norm_num)
    have e1 : (pre.length : ℝ) / nu = pre.length * (1 / nu) := by ring
    have x3 : |(pre.length : ℝ) * b - pre.length / nu| ≤ 10 ^ 5 * (2 * u) := by
      have : (pre.length : ℝ) * b - pre.length / nu = pre.length * (b - 1 / nu) := by ring
      rw [this, abs_mul, abs_of_nonneg hp0]
      apply mul_le_mul (by linarith) _ (abs_nonneg _) (by norm_num)
      have hv1 : 1 / nu ≤ 1 := by rw [div_le_one hnu]; exact h1
      have : 2 * u * (1 / nu) ≤ 2 * u * 1 := mul_le_mul_of_nonneg_left hv1 (by positivity)
      linarith [hr.cap]
    have x4 := abs_le.mp x3
    have x5 : (pre.length : ℝ) / nu = 1 - c := by rw [hcdef]; ring
    rw [x5] at x4
    rw [abs_le]
    constructor <;> linarith only [x1.1, x1.2, x2, x4.1, x4.2, hαS'.1, hαS'.2, hc1, hu]

end

end Miniboosts.F64
