import Verif.Lemmas.FrankWolfe
import Verif.Props.Hypothesis

/-! # Properties of the Frank-Wolfe steps (C30, C31, C32) -/

namespace Miniboosts.Props

open Real FrankWolfe

variable {H X : Type*} [Classifier H X ℝ]

/-- The bisection always finishes within 31 rounds on an interval of length at most one, and what it returns
is a sub-interval. -/
theorem bisect_some (dot : ℝ → Except Panic ℝ) (fuel : Nat) (lb ub : ℝ) (hle : lb ≤ ub)
    (hlen : ub - lb ≤ 2 ^ fuel / 10 ^ 9) (r : Option (ℝ × ℝ)) (h : bisect dot fuel lb ub = .ok r) :
    ∃ l u, r = some (l, u) ∧ lb ≤ l ∧ l ≤ u ∧ u ≤ ub := by
  induction fuel generalizing lb ub with
  | zero =>
    unfold bisect at h
    rw [if_neg (by unfold subTolerance; simpa using hlen), Except.ok.injEq] at h
    exact ⟨lb, ub, h.symm, le_rfl, hle, le_rfl⟩
  | succ fuel ih =>
    unfold bisect at h
    by_cases h1 : subTolerance < ub - lb
    · rw [if_pos h1] at h
      simp only [] at h
      have hp : (2 : ℝ) ^ (fuel + 1) = 2 * 2 ^ fuel := by ring
      rw [hp] at hlen
      cases hd : dot ((lb + ub) / 2) with
      | error e => rw [hd] at h; simp at h
      | ok v =>
        rw [hd] at h
        simp only [] at h
        by_cases h2 : v < 0
        · rw [if_pos h2] at h
          obtain ⟨l, u, hr, h3, h4, h5⟩ := ih _ _ (by linarith) (by linarith) h
          exact ⟨l, u, hr, by linarith, h4, h5⟩
        · rw [if_neg h2] at h
          by_cases h3 : 0 < v
          · rw [if_pos h3] at h
            obtain ⟨l, u, hr, h3, h4, h5⟩ := ih _ _ (by linarith) (by linarith) h
            exact ⟨l, u, hr, h3, h4, by linarith⟩
          · rw [if_neg h3, Except.ok.injEq] at h
            exact ⟨lb, ub, h.symm, le_rfl, hle, le_rfl⟩
    · rw [if_neg h1, Except.ok.injEq] at h
      exact ⟨lb, ub, h.symm, le_rfl, hle, le_rfl⟩

theorem setOne_prob (n pos : Nat) (hp : pos < n) : Spec.IsProb ((List.replicate n (0 : ℝ)).set pos 1) := by
  constructor
  · intro x hx
    rcases List.mem_or_eq_of_mem_set hx with h | h
    · rw [(List.mem_replicate.1 h).2]
    · rw [h]; norm_num
  · rw [List.sum_set]
    simp [hp]

/-- C31, the part that holds: the line search returns a probability vector of the same length.  Missing: that
the step is the best one (false, see `lineSearch_ignores_better_hypothesis` and
`lineSearch_jumps_to_worse_hypothesis`). -/
theorem lineSearch_simplex_partial (fw : FrankWolfe) (S : Examples X ℝ) (hs : List H) (pos : Nat) (w w' : List ℝ)
    (hw : Spec.IsProb w) (hp : pos < w.length) (h : lineSearch fw S hs pos w = .ok w') :
    Spec.IsProb w' ∧ w'.length = w.length := by
  unfold lineSearch at h
  simp only [] at h
  cases hd : expDistribution fw.eta fw.nu S (w.mapIdx fun j w => if j = pos then 1 - w else -w) hs with
  | error e => rw [hd] at h; simp at h
  | ok dist =>
    rw [hd] at h
    simp only [] at h
    split at h
    · rw [Except.ok.injEq] at h
      subst h
      exact ⟨setOne_prob _ _ hp, by simp⟩
    · split at h
      · simp at h
      · simp at h
      · exact interior_prob hw hp h

/-- C30: one step of the classic, short-step or line-search strategy turns a probability vector of hypothesis
weights into a probability vector of the same length. -/
theorem nextIterate_simplex (fw : FrankWolfe) (hfw : fw.fwType ≠ .blendedPairwise) (it : Nat)
    (S : Examples X ℝ) (dist : List ℝ) (hs : List H) (pos : Nat) (w w' : List ℝ) (hw : Spec.IsProb w)
    (hl : w.length = hs.length) (h : fw.nextIterate it S dist hs pos w = .ok w') :
    Spec.IsProb w' ∧ w'.length = w.length := by
  unfold nextIterate at h
  by_cases hp : pos < hs.length
  · rw [if_pos hp] at h
    cases ht : fw.fwType with
    | blendedPairwise => exact absurd ht hfw
    | classic =>
      rw [ht] at h
      exact interior_prob hw (by omega) h
    | lineSearch =>
      rw [ht] at h
      exact lineSearch_simplex_partial fw S hs pos w w' hw (by omega) h
    | shortStep =>
      rw [ht] at h
      simp only [shortStep] at h
      split at h
      · rename_i h1
        simp only [Except.ok.injEq] at h
        subst h
        exact ⟨⟨by simp, by simp⟩, by simp [hl, h1]⟩
      · split at h
        · simp at h
        · split at h
          · simp at h
          · exact interior_prob hw (by omega) h
  · rw [if_neg hp] at h; simp at h

/-- C30: the classic step never panics in the course of a run (iterations count from 1), and its result is the
convex combination with step `2/(t+1)`. -/
theorem classic_step (it pos : Nat) (hit : 1 ≤ it) (w : List ℝ) :
    FrankWolfe.classic it pos w =
      .ok (w.mapIdx fun j b => (1 - 2 / ((it : ℝ) + 1)) * b + if j = pos then 2 / ((it : ℝ) + 1) else 0) := by
  unfold FrankWolfe.classic
  have h1 : (1 : ℝ) ≤ it := by exact_mod_cast hit
  rw [interiorPoint_eq (by positivity) (by rw [div_le_one (by linarith)]; linarith)]
  congr 2
  funext j b
  split <;> ring

/-- A prefix-max fold is the maximum. -/
theorem foldl_max_spec (l : List ℝ) (a : ℝ) :
    a ≤ l.foldl max a ∧ (∀ x ∈ l, x ≤ l.foldl max a) ∧ (l.foldl max a = a ∨ l.foldl max a ∈ l) := by
  induction l generalizing a with
  | nil => simp
  | cons b l ih =>
    obtain ⟨h1, h2, h3⟩ := ih (max a b)
    simp only [List.foldl_cons]
    refine ⟨(le_max_left a b).trans h1, ?_, ?_⟩
    · intro x hx
      rcases List.mem_cons.1 hx with rfl | hx
      · exact (le_max_right a x).trans h1
      · exact h2 x hx
    · rcases h3 with h3 | h3
      · rcases max_choice a b with h4 | h4
        · left; rw [h3, h4]
        · right; rw [h3, h4]; simp
      · right; exact List.mem_cons_of_mem _ h3

/-- C30: the short step is the best step for the quadratic bound
`s ↦ s (edge of h - edge of F) - s² η c² / 2`, where `c` is the largest change of a margin: it is in `[0,1]`
and no other step in `[0,1]` has a larger value. -/
theorem shortStepSize_optimal (eta : ℝ) (heta : 0 < eta) (S : Examples X ℝ) (F G : X → ℝ) (d : List ℝ)
    (hl : d.length = S.length) (hg : Spec.edge S d F < Spec.edge S d G) :
    ∃ s c, shortStepSize eta (S.map fun e => e.2 * G e.1) (S.map fun e => e.2 * F e.1) d = .ok s ∧
      0 ≤ s ∧ s ≤ 1 ∧ 0 < c ∧ (∀ p ∈ S, |p.2 * G p.1 - p.2 * F p.1| ≤ c) ∧
      (∃ p ∈ S, c = |p.2 * G p.1 - p.2 * F p.1|) ∧
      ∀ t, 0 ≤ t → t ≤ 1 → t * (Spec.edge S d G - Spec.edge S d F) - t ^ 2 * (eta * c ^ 2) / 2 ≤
        s * (Spec.edge S d G - Spec.edge S d F) - s ^ 2 * (eta * c ^ 2) / 2 := by
  unfold shortStepSize
  simp only []
  set diffs := List.zip (List.zipWith (fun ae aw => ae - aw) (S.map fun e => e.2 * G e.1)
    (S.map fun e => e.2 * F e.1)) d with hdiffs
  have hfst : diffs.map Prod.fst = S.map fun p => p.2 * G p.1 - p.2 * F p.1 := by
    rw [hdiffs, List.map_fst_zip (by simp [hl]), zipWith_map_map]
  have hnum : (diffs.map fun p => p.2 * p.1).sum = Spec.edge S d G - Spec.edge S d F := by
    have h3 := edge_sub S d G F 1 (-1)
    rw [edge_eq_inner] at h3
    have h4 : (S.map fun e => e.2 * (1 * G e.1 + -1 * F e.1)) = S.map fun p => p.2 * G p.1 - p.2 * F p.1 := by
      apply List.map_congr_left
      intro p _; ring
    rw [h4] at h3
    have h5 : (diffs.map fun p => p.2 * p.1).sum =
        innerProduct d (S.map fun p => p.2 * G p.1 - p.2 * F p.1) := by
      rw [hdiffs, zipWith_map_map]
      unfold innerProduct
      rw [List.zipWith_comm, List.map_zip_eq_zipWith]
      congr 2
    rw [h5, h3]; ring
  have habs : (diffs.map fun p => |p.1|) = S.map fun p => |p.2 * G p.1 - p.2 * F p.1| := by
    have : (diffs.map fun p => |p.1|) = (diffs.map Prod.fst).map fun x => |x| := by
      rw [List.map_map]; rfl
    rw [this, hfst, List.map_map]; rfl
  rw [hnum, habs]
  set c := (S.map fun p => |p.2 * G p.1 - p.2 * F p.1|).foldl max 0 with hc
  obtain ⟨hm1, hm2, hm3⟩ := foldl_max_spec (S.map fun p => |p.2 * G p.1 - p.2 * F p.1|) 0
  rw [← hc] at hm1 hm2 hm3
  have hbound : ∀ p ∈ S, |p.2 * G p.1 - p.2 * F p.1| ≤ c := fun p hp =>
    hm2 _ (List.mem_map.2 ⟨p, hp, rfl⟩)
  have hcpos : 0 < c := by
    rcases hm1.eq_or_lt with h0 | h0
    · exfalso
      have : Spec.edge S d G = Spec.edge S d F := by
        unfold Spec.edge
        congr 1
        apply List.map_congr_left
        intro p hp
        have := hbound p.1 (List.of_mem_zip hp).1
        rw [← h0] at this
        have := abs_nonpos_iff.1 this
        rw [sub_eq_zero] at this
        rw [this]
      linarith
    · exact h0
  have hq : 0 < eta * c ^ 2 := by positivity
  rw [if_neg hq.ne']
  set N := Spec.edge S d G - Spec.edge S d F with hN
  have hNpos : 0 < N := by rw [hN]; linarith
  set q := eta * c ^ 2
  refine ⟨_, c, rfl, le_max_left _ _, max_le (by norm_num) (min_le_left _ _), hcpos, hbound, ?_, ?_⟩
  · rcases hm3 with h | h
    · linarith
    · obtain ⟨p, hp, he⟩ := List.mem_map.1 h
      exact ⟨p, hp, he.symm⟩
  · intro t ht0 ht1
    rw [max_eq_right (le_min (by norm_num) (by positivity))]
    rcases le_total (N / q) 1 with h | h
    · rw [min_eq_right h]
      have hs : N / q * q = N := div_mul_cancel₀ _ hq.ne'
      set s := N / q
      rw [← hs]
      nlinarith [sq_nonneg (t - s)]
    · rw [min_eq_left h]
      rw [le_div_iff₀ hq] at h
      nlinarith [mul_nonneg (sub_nonneg.2 ht1) (sub_nonneg.2 h), mul_nonneg (mul_nonneg (sub_nonneg.2 ht1) (sub_nonneg.2 ht1)) hq.le]

theorem sum_nonpos'' (l : List ℝ) (h : ∀ x ∈ l, x ≤ 0) : l.sum ≤ 0 := by
  induction l with
  | nil => simp
  | cons a l ih =>
    have h1 := h a (by simp)
    have h2 := ih fun x hx => h x (by simp [hx])
    rw [List.sum_cons]; linarith

theorem weightedConf_dir (w : List ℝ) (hs : List H) (pos : Nat) (h : H) (hl : w.length = hs.length)
    (hp : hs[pos]? = some h) (x : X) :
    weightedConf (w.mapIdx fun j w => if j = pos then 1 - w else -w) hs x =
      conf h x - weightedConf w hs x := by
  have h1 := interior_conf (X := X) 1 w hs pos h hl hp x
  have hz : ∀ (a b : List ℝ) (g : List H), a.length = b.length →
      weightedConf (List.zipWith (· + ·) a b) g x = weightedConf a g x + weightedConf b g x := by
    intro a
    induction a with
    | nil => intro b g hab; match b, hab with | [], _ => simp [weightedConf]
    | cons y a ih =>
      intro b g hab
      match b, hab, g with
      | z :: b, hab, [] => simp [weightedConf]
      | z :: b, hab, k :: g =>
        have := ih b g (by simpa using hab)
        simp only [weightedConf, List.zipWith_cons_cons, List.sum_cons] at this ⊢
        rw [this]; ring
  have h2 : (w.mapIdx fun j b => b + 1 * (if j = pos then 1 - b else -b)) =
      List.zipWith (· + ·) w (w.mapIdx fun j w => if j = pos then 1 - w else -w) := by
    apply List.ext_getElem
    · simp
    · intro i _ _; simp
  rw [h2, hz _ _ _ (by simp)] at h1
  linarith

/-- C31 is false of the code: the bisection moves in the wrong direction.  When the new hypothesis has a
strictly larger margin than the current vote on every example -- so the best step is 1 -- the line search
returns a step of at most `10⁻⁹`, i.e. (almost) ignores the hypothesis. -/
theorem lineSearch_ignores_better_hypothesis (fw : FrankWolfe) (S : Examples X ℝ) (hs : List H) (pos : Nat)
    (h : H) (w : List ℝ) (hl : w.length = hs.length) (hp : hs[pos]? = some h) (hnu : 1 ≤ fw.nu)
    (hnu' : fw.nu ≤ S.length) (hbetter : ∀ e ∈ S, e.2 * weightedConf w hs e.1 < e.2 * conf h e.1) :
    ∃ s, 0 ≤ s ∧ s ≤ 1 / 10 ^ 9 ∧ lineSearch fw S hs pos w =
      .ok (w.mapIdx fun j b => b + s * (if j = pos then 1 - b else -b)) := by
  have hpos : pos < w.length := by
    rw [hl]; exact (List.getElem?_eq_some_iff.1 hp).1
  have hdir := fun x : X => weightedConf_dir w hs pos h hl hp x
  have hdm : weightedMargins S (w.mapIdx fun j w => if j = pos then 1 - w else -w) hs =
      S.map fun e => e.2 * conf h e.1 - e.2 * weightedConf w hs e.1 := by
    unfold weightedMargins
    apply List.map_congr_left
    intro e _
    rw [hdir]; ring
  have hdot : ∀ d : List ℝ, d.length = S.length → Spec.IsPosProb d →
      (0 : ℝ) < innerProduct d (S.map fun e => e.2 * conf h e.1 - e.2 * weightedConf w hs e.1) := by
    intro d hdl hd
    have hne : d ≠ [] := by rintro rfl; have := hd.2; simp at this
    unfold innerProduct
    apply sum_pos'
    · intro h0
      have := congrArg List.length h0
      simp [hdl] at this
      exact hne (List.length_eq_zero_iff.1 (by rw [hdl, this]; rfl))
    · intro x hx
      rw [List.zipWith_map_right, ← List.map_uncurry_zip_eq_zipWith] at hx
      obtain ⟨q, hq, rfl⟩ := List.mem_map.1 hx
      obtain ⟨hq1, hq2⟩ := List.of_mem_zip hq
      have := hbetter _ hq2
      exact mul_pos (hd.1 _ hq1) (by linarith)
  have hbis : ∀ fuel (ub : ℝ), 0 ≤ ub → ub ≤ 2 ^ fuel / 10 ^ 9 →
      ∃ u, bisect (gradAt fw (weightedMargins S w hs)
        (S.map fun e => e.2 * conf h e.1 - e.2 * weightedConf w hs e.1)) fuel 0 ub = .ok (some (0, u)) ∧
        0 ≤ u ∧ u ≤ 1 / 10 ^ 9 := by
    intro fuel
    induction fuel with
    | zero =>
      intro ub h0 h1
      unfold bisect
      rw [if_neg (by unfold subTolerance; simpa using h1)]
      exact ⟨ub, rfl, h0, by simpa using h1⟩
    | succ fuel ih =>
      intro ub h0 h1
      unfold bisect
      by_cases h2 : subTolerance < ub - 0
      · rw [if_pos h2]
        simp only []
        obtain ⟨d, hd⟩ := (project_ok_iff fw.nu ((List.zipWith (fun b d => b + (0 + ub) / 2 * d)
          (weightedMargins S w hs) (S.map fun e => e.2 * conf h e.1 - e.2 * weightedConf w hs e.1)).map
            fun yf => -fw.eta * yf)).2 ⟨hnu, by simpa [weightedMargins] using hnu'⟩
        obtain ⟨hdl, -, hdp⟩ := project_capped _ _ _ hd
        have hg : gradAt fw (weightedMargins S w hs)
            (S.map fun e => e.2 * conf h e.1 - e.2 * weightedConf w hs e.1) ((0 + ub) / 2) =
            .ok (innerProduct d (S.map fun e => e.2 * conf h e.1 - e.2 * weightedConf w hs e.1)) := by
          unfold gradAt expDistributionFromMargins
          rw [hd]
        have hv := hdot d (by simpa [weightedMargins] using hdl) hdp
        rw [hg]
        simp only []
        rw [if_neg (not_lt.2 hv.le), if_pos hv]
        have hp2 : (2 : ℝ) ^ (fuel + 1) = 2 * 2 ^ fuel := by ring
        rw [hp2] at h1
        exact ih _ (by linarith) (by linarith)
      · rw [if_neg h2]
        exact ⟨ub, rfl, h0, by unfold subTolerance at h2; linarith⟩
  obtain ⟨d0, hd0⟩ := (project_ok_iff fw.nu (logExpDistribution fw.eta S
    (w.mapIdx fun j w => if j = pos then 1 - w else -w) hs)).2
      ⟨hnu, by simpa [logExpDistribution, weightedMargins] using hnu'⟩
  obtain ⟨hdl0, -, hdp0⟩ := project_capped _ _ _ hd0
  have hv0 := hdot d0 (by simpa [logExpDistribution, weightedMargins] using hdl0) hdp0
  obtain ⟨u, hu, hu0, hu1⟩ := hbis 31 1 (by norm_num) (by norm_num)
  refine ⟨(0 + u) / 2, by linarith, by linarith, ?_⟩
  unfold lineSearch expDistribution
  simp only [hd0, hdm, if_neg (not_le.2 hv0), hu]
  exact interiorPoint_eq (by linarith) (by linarith) pos w

/-- C31, the other direction: when the new hypothesis has a strictly smaller margin than the current vote on
every example -- so the best step is 0 -- the line search jumps all the way to the new hypothesis. -/
theorem lineSearch_jumps_to_worse_hypothesis (fw : FrankWolfe) (S : Examples X ℝ) (hs : List H) (pos : Nat)
    (h : H) (w : List ℝ) (hl : w.length = hs.length) (hp : hs[pos]? = some h) (hnu : 1 ≤ fw.nu)
    (hnu' : fw.nu ≤ S.length) (hworse : ∀ e ∈ S, e.2 * conf h e.1 ≤ e.2 * weightedConf w hs e.1) :
    lineSearch fw S hs pos w = .ok ((List.replicate w.length 0).set pos 1) := by
  have hpos : pos < w.length := by
    rw [hl]; exact (List.getElem?_eq_some_iff.1 hp).1
  obtain ⟨d0, hd0⟩ := (project_ok_iff fw.nu (logExpDistribution fw.eta S
    (w.mapIdx fun j w => if j = pos then 1 - w else -w) hs)).2
      ⟨hnu, by simpa [logExpDistribution, weightedMargins] using hnu'⟩
  obtain ⟨hdl0, -, hdp0⟩ := project_capped _ _ _ hd0
  have hdir := fun x : X => weightedConf_dir w hs pos h hl hp x
  have hdot : innerProduct d0 (weightedMargins S (w.mapIdx fun j w => if j = pos then 1 - w else -w) hs) ≤ (0 : ℝ) := by
    unfold innerProduct weightedMargins
    rw [List.zipWith_map_right, ← List.map_uncurry_zip_eq_zipWith]
    apply sum_nonpos''
    intro x hx
    obtain ⟨q, hq, rfl⟩ := List.mem_map.1 hx
    obtain ⟨hq1, hq2⟩ := List.of_mem_zip hq
    have h1 := hworse _ hq2
    have h2 := hdp0.1 _ hq1
    simp only [hdir]
    have h3 : q.2.2 * (conf h q.2.1 - weightedConf w hs q.2.1) ≤ (0 : ℝ) := by linarith
    exact mul_nonpos_of_nonneg_of_nonpos h2.le h3
  unfold lineSearch expDistribution
  simp only [hd0, if_pos hdot, if_pos hpos]

/-- The away hypothesis found by the scan has a positive weight. -/
theorem scan_worst (S : Examples X ℝ) (dist : List ℝ) (hs : List H) (pos : Nat) (w : List ℝ) :
    (scan S dist hs pos w).posWorst = hs.length ∨
      ∃ b, w[(scan S dist hs pos w).posWorst]? = some b ∧ 0 < b := by
  set cands := (List.zip w hs).zipIdx.filterMap fun p : (ℝ × H) × Nat =>
    if p.1.1 ≤ 0 then none else some (p.2, Miniboosts.edge S dist p.1.2) with hc
  have hcand : ∀ je ∈ cands, ∃ b, w[je.1]? = some b ∧ 0 < b := by
    intro je hje
    rw [hc, List.mem_filterMap] at hje
    obtain ⟨⟨⟨b, h⟩, j⟩, hm, he⟩ := hje
    by_cases hb : b ≤ 0
    · simp [hb] at he
    · simp only [if_neg hb, Option.some.injEq] at he
      subst he
      have := List.mem_zipIdx_iff_getElem?.1 hm
      refine ⟨b, ?_, not_le.1 hb⟩
      rw [List.getElem?_zip_eq_some] at this
      exact this.1
  have key : ∀ (l : List (Nat × ℝ)) (st : Scan), (∀ je ∈ l, ∃ b, w[je.1]? = some b ∧ 0 < b) →
      (st.posWorst = hs.length ∨ ∃ b, w[st.posWorst]? = some b ∧ 0 < b) →
      ((l.foldl (scanStep pos) st).posWorst = hs.length ∨
        ∃ b, w[(l.foldl (scanStep pos) st).posWorst]? = some b ∧ 0 < b) := by
    intro l
    induction l with
    | nil => intro st _ h; exact h
    | cons je l ih =>
      intro st hl h
      rw [List.foldl_cons]
      refine ih _ (fun x hx => hl x (by simp [hx])) ?_
      unfold scanStep
      simp only []
      have h1 := hl je (by simp)
      by_cases h2 : je.1 ≠ pos ∧ st.localBest < je.2
      · simp only [if_pos h2]
        by_cases h3 : st.globalBest < je.2
        · simp only [if_pos h3]
          by_cases h4 : je.2 < st.worstEdge
          · simp only [if_pos h4]; exact Or.inr h1
          · simp only [if_neg h4]; exact h
        · simp only [if_neg h3]
          by_cases h4 : je.2 < st.worstEdge
          · simp only [if_pos h4]; exact Or.inr h1
          · simp only [if_neg h4]; exact h
      · simp only [if_neg h2]
        by_cases h3 : st.globalBest < je.2
        · simp only [if_pos h3]
          by_cases h4 : je.2 < st.worstEdge
          · simp only [if_pos h4]; exact Or.inr h1
          · simp only [if_neg h4]; exact h
        · simp only [if_neg h3]
          by_cases h4 : je.2 < st.worstEdge
          · simp only [if_pos h4]; exact Or.inr h1
          · simp only [if_neg h4]; exact h
  have := key cands ⟨2, -2, -2, hs.length, hs.length, pos⟩ hcand (Or.inl rfl)
  unfold scan
  simp only [← hc]
  split <;> exact this

theorem sum_modify (l : List ℝ) (i : Nat) (s : ℝ) (h : i < l.length) :
    (l.modify i (· + s)).sum = l.sum + s := by
  induction l generalizing i with
  | nil => simp at h
  | cons a l ih =>
    match i with
    | 0 => simp [List.modify_cons]; ring
    | i + 1 => rw [List.modify_succ_cons, List.sum_cons, List.sum_cons, ih i (by simpa using h)]; ring

theorem sum_set' (l : List ℝ) (i : Nat) (a b : ℝ) (h : l[i]? = some a) :
    (l.set i b).sum = l.sum - a + b := by
  induction l generalizing i with
  | nil => simp at h
  | cons x l ih =>
    match i with
    | 0 => simp at h; subst h; simp; ring
    | i + 1 => rw [List.set_cons_succ, List.sum_cons, List.sum_cons, ih i (by simpa using h)]; ring

/-- C32, the part that holds: when the chosen hypothesis is fresh (has weight 0, as it does in the round in
which it is first added), a blended-pairwise step turns a probability vector into a probability vector of the
same length.  Missing: the same for a hypothesis that already has weight (false, see
`blendedPairwise_loses_mass`), and that the mass goes to the best hypothesis. -/
theorem blendedPairwise_simplex_partial (fw : FrankWolfe) (S : Examples X ℝ) (dist : List ℝ) (hs : List H)
    (pos : Nat) (w w' : List ℝ) (hw : Spec.IsProb w) (hl : w.length = hs.length) (hpos : w[pos]? = some 0)
    (h : blendedPairwise fw S dist hs pos w = .ok w') : Spec.IsProb w' ∧ w'.length = w.length := by
  have hp : pos < w.length := (List.getElem?_eq_some_iff.1 hpos).1
  unfold blendedPairwise at h
  simp only [] at h
  by_cases hc : (scan S dist hs pos w).globalBest - weightedEdge S dist w hs ≤
      (scan S dist hs pos w).localBest - (scan S dist hs pos w).worstEdge
  · rw [if_pos hc] at h
    have hworst := scan_worst S dist hs pos w
    generalize scan S dist hs pos w = st at h hworst
    cases hm : w[st.posWorst]? with
    | none => rw [hm] at h; simp at h
    | some mx =>
      have hmx : 0 < mx := by
        rcases hworst with h1 | ⟨b, h1, h2⟩
        · rw [h1, ← hl] at hm; simp at hm
        · rw [h1] at hm; cases hm; exact h2
      have hmem : mx ∈ w := List.mem_of_getElem? hm
      have hmx1 : mx ≤ 1 := by
        rw [← hw.2]; exact List.single_le_sum hw.1 _ hmem
      have hwl : st.posWorst < w.length := (List.getElem?_eq_some_iff.1 hm).1
      have hne : pos ≠ st.posWorst := by
        intro h0; rw [← h0, hpos] at hm; cases hm; exact lt_irrefl _ hmx
      rw [hm] at h
      cases h1 : hs[st.posLocal]? with
      | none => rw [h1] at h; simp at h
      | some hloc =>
        cases h2 : hs[st.posWorst]? with
        | none => rw [h1, h2] at h; simp at h
        | some hwor =>
          rw [h1, h2] at h
          simp only [] at h
          split at h
          · simp at h
          · split at h
            · rw [Except.ok.injEq] at h
              subst h
              refine ⟨⟨?_, ?_⟩, by simp⟩
              · intro x hx
                rcases List.mem_or_eq_of_mem_set hx with h3 | h3
                · rcases List.mem_or_eq_of_mem_set h3 with h4 | h4
                  · exact hw.1 x h4
                  · rw [h4]; exact hmx.le
                · rw [h3]
              · rw [sum_set' _ st.posWorst mx 0 (by rw [List.getElem?_set_ne hne]; exact hm),
                  sum_set' w pos 0 mx hpos, hw.2]
                ring
            · split at h
              · simp at h
              · simp at h
              · rename_i lb ub hb
                obtain ⟨l, u, hr, h3, h4, h5⟩ := bisect_some _ 31 0 mx hmx.le (by norm_num; linarith) _ hb
                cases hr
                by_cases h6 : st.posLocal < w.length
                · rw [if_pos h6, Except.ok.injEq] at h
                  subst h
                  refine ⟨⟨?_, ?_⟩, by simp⟩
                  · intro x hx
                    obtain ⟨i, hi⟩ := List.mem_iff_getElem?.1 hx
                    rw [List.getElem?_modify, List.getElem?_modify] at hi
                    cases hwi : w[i]? with
                    | none => rw [hwi] at hi; simp at hi
                    | some a =>
                      have ha := hw.1 a (List.mem_of_getElem? hwi)
                      rw [hwi] at hi
                      by_cases h7 : st.posWorst = i
                      · have : a = mx := by rw [← h7, hm] at hwi; cases hwi; rfl
                        by_cases h8 : st.posLocal = i
                        · simp [h7, h8] at hi; linarith
                        · simp [h7, h8] at hi; linarith
                      · by_cases h8 : st.posLocal = i
                        · simp [h7, h8] at hi; linarith
                        · simp [h7, h8] at hi; linarith
                  · have h9 := sum_modify (w.modify st.posLocal (· + (lb + ub) / 2)) st.posWorst
                      (-((lb + ub) / 2)) (by simpa using hwl)
                    simp only [← sub_eq_add_neg] at h9
                    rw [h9, sum_modify _ _ _ h6, hw.2]
                    ring
                · rw [if_neg h6] at h; simp at h
  · rw [if_neg hc] at h
    exact lineSearch_simplex_partial fw S hs pos w w' hw hp h

/-- C32 is false of the code: when the chosen hypothesis already has weight, its weight is overwritten
instead of increased.  Here two hypotheses with weight one half each become `[1/2, 0]`: half of the mass is
lost (and the `[1, 0]` of a pairwise step is not reached). -/
theorem blendedPairwise_loses_mass : ∃ (S : Examples Bool ℝ) (hs : List (Fn Bool ℝ)) (dist w : List ℝ),
    Spec.PmLabels S ∧ Spec.IsProb dist ∧ Spec.IsProb w ∧ (∀ h ∈ hs, ∀ x, |h.f x| ≤ 1) ∧
    ∀ eta, 0 < eta → FrankWolfe.nextIterate ⟨eta, 1, .blendedPairwise⟩ 2 S dist hs 0 w = .ok [1 / 2, 0] := by
  refine ⟨[(true, 1), (false, 1)], [⟨fun x => if x then 1 else 0⟩, ⟨fun x => if x then 0 else 1⟩],
    [1, 0], [1 / 2, 1 / 2], by simp [Spec.PmLabels], by simp [Spec.IsProb],
    by constructor <;> norm_num, ?_, ?_⟩
  · intro h hh x
    simp at hh
    rcases hh with rfl | rfl <;> cases x <;> simp
  · intro eta heta
    set h0 : Fn Bool ℝ := ⟨fun x => if x then 1 else 0⟩
    set h1 : Fn Bool ℝ := ⟨fun x => if x then 0 else 1⟩
    have hcands : ((List.zip [(1 / 2 : ℝ), 1 / 2] [h0, h1]).zipIdx.filterMap fun p : (ℝ × Fn Bool ℝ) × Nat =>
        if p.1.1 ≤ 0 then none else
          some (p.2, Miniboosts.edge [(true, (1 : ℝ)), (false, 1)] [1, 0] p.1.2)) = [(0, 1), (1, 0)] := by
      have hh : ¬ ((1 : ℝ) / 2 ≤ 0) := by norm_num
      simp only [List.zip_cons_cons, List.zip_nil_right, List.zipIdx_cons, List.zipIdx_nil,
        List.filterMap_cons, List.filterMap_nil, if_neg hh]
      norm_num [Miniboosts.edge, margins, innerProduct, h0, h1, conf]
    have hscan : scan [(true, (1 : ℝ)), (false, 1)] [1, 0] [h0, h1] 0 [1 / 2, 1 / 2] =
        { worstEdge := 0, localBest := 1, globalBest := 1, posWorst := 1, posLocal := 0, posGlobal := 0 } := by
      unfold scan
      simp only [hcands]
      norm_num [scanStep]
    have hcur : weightedEdge [(true, (1 : ℝ)), (false, 1)] [1, 0] [1 / 2, 1 / 2] [h0, h1] = 1 / 2 := by
      norm_num [weightedEdge, weightedMargins, weightedConf, innerProduct, h0, h1, conf]
    unfold nextIterate
    rw [if_pos (by simp)]
    simp only [blendedPairwise, hscan, hcur]
    have hm0 : margins [(true, (1 : ℝ)), (false, 1)] h0 = [1, 0] := by
      norm_num [margins, h0, conf]
    have hm1 : margins [(true, (1 : ℝ)), (false, 1)] h1 = [0, 1] := by
      norm_num [margins, h1, conf]
    have hmw : weightedMargins [(true, (1 : ℝ)), (false, 1)] [1 / 2, 1 / 2] [h0, h1] = [1 / 2, 1 / 2] := by
      norm_num [weightedMargins, weightedConf, h0, h1, conf]
    have hexp : expDistribution eta 1 [(true, (1 : ℝ)), (false, 1)] [1 / 2 + 1 / 2 * (1 - 0), 1 / 2 + 1 / 2 * (0 - 1)]
        [h0, h1] = .ok (Spec.softmax [-eta, 0]) := by
      rw [expDistribution, logExpDistribution, ← project_one _ (by simp)]
      congr 1
      norm_num [weightedMargins, weightedConf, h0, h1, conf]
    rw [if_pos (by norm_num)]
    simp only [List.getElem?_cons_zero, List.getElem?_cons_succ, hm0, hm1, hmw, List.zipWith_cons_cons,
      List.zipWith_nil_left, hexp]
    rw [if_pos, if_pos (by simp)]
    · simp
    · have hE : exp (-eta) ≤ 1 := by rw [exp_le_one_iff]; linarith
      have hZ : 0 < exp (-eta) + 1 := by positivity
      simp [Spec.softmax, innerProduct]
      apply div_le_of_le_mul₀ (by positivity) (by positivity)
      rw [inv_mul_cancel₀ hZ.ne']
      exact hE

end Miniboosts.Props
