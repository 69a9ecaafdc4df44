import Verif.Model.Projection
import Verif.Spec.Basic
import Verif.Lemmas.Basic

namespace Miniboosts

open Real

theorem suffixLogSums_length (l : List ℝ) : (suffixLogSums l).length = l.length := by
  induction l with
  | nil => rfl
  | cons a l ih => simp [suffixLogSums, ih]

theorem suffixLogSums_head (a : ℝ) (l : List ℝ) : ∃ v, suffixLogSums (a :: l) = v :: suffixLogSums l ∧
    exp v = ((a :: l).map exp).sum := by
  induction l generalizing a with
  | nil => exact ⟨a, rfl, by simp⟩
  | cons b l ih =>
    obtain ⟨v, hv, he⟩ := ih b
    refine ⟨_, rfl, ?_⟩
    rw [hv]
    simp only [List.head?_cons]
    have : exp (max v a + log (1 + exp (min v a - max v a))) = exp v + exp a := by
      rw [exp_add, exp_log (by positivity), mul_add, mul_one, ← exp_add]
      rcases le_total v a with h | h
      · rw [max_eq_right h, min_eq_left h]
        rw [show a + (v - a) = v by ring]; ring
      · rw [max_eq_left h, min_eq_right h]
        rw [show v + (a - v) = a by ring]
    rw [this, he]
    simp only [List.map_cons, List.sum_cons]; ring

/-- Writing `f k` at the positions `ks`. -/
def writeAll (f : Nat → ℝ) (ks : List Nat) (D : List ℝ) : List ℝ := ks.foldl (fun D k => D.set k (f k)) D

theorem writeAll_getElem? (f : Nat → ℝ) (ks : List Nat) (D : List ℝ) (j : Nat) :
    (writeAll f ks D)[j]? = if j ∈ ks ∧ j < D.length then some (f j) else D[j]? := by
  induction ks generalizing D with
  | nil => simp [writeAll]
  | cons k ks ih =>
    have : writeAll f (k :: ks) D = writeAll f ks (D.set k (f k)) := rfl
    rw [this, ih]
    simp only [List.length_set, List.mem_cons]
    by_cases hj : j ∈ ks ∧ j < D.length
    · rw [if_pos hj, if_pos ⟨.inr hj.1, hj.2⟩]
    · rw [if_neg hj]
      by_cases hk : k = j
      · subst hk
        by_cases hl : k < D.length
        · rw [if_pos ⟨.inl rfl, hl⟩, List.getElem?_set_self hl]
        · rw [if_neg (by simp [hl]), List.getElem?_eq_none (by simp; omega), List.getElem?_eq_none (by omega)]
      · rw [List.getElem?_set_ne hk, if_neg]
        rintro ⟨rfl | h, h2⟩
        · exact hk rfl
        · exact hj ⟨h, h2⟩

theorem writeAll_length (f : Nat → ℝ) (ks : List Nat) (D : List ℝ) : (writeAll f ks D).length = D.length := by
  induction ks generalizing D with
  | nil => rfl
  | cons k ks ih => show (writeAll f ks (D.set k (f k))).length = _; rw [ih]; simp

theorem writeAll_congr {f g : Nat → ℝ} {ks : List Nat} (h : ∀ k ∈ ks, f k = g k) (D : List ℝ) :
    writeAll f ks D = writeAll g ks D := by
  induction ks generalizing D with
  | nil => rfl
  | cons k ks ih =>
    show writeAll f ks (D.set k (f k)) = writeAll g ks (D.set k (g k))
    rw [h k (by simp)]; exact ih (fun j hj => h j (by simp [hj])) _

theorem projTail_eq (logXi : ℝ) (l : Nat → ℝ) (ks : List Nat) (ss : List ℝ) (hs : ss.length = ks.length)
    (hnd : ks.Nodup) (D : List ℝ) (hD : ∀ k ∈ ks, D[k]? = some (l k)) :
    projTail logXi (List.zip ks ss) D = .ok (writeAll (fun k => exp (logXi + l k)) ks D) := by
  induction ks generalizing D ss with
  | nil => simp [projTail, writeAll]
  | cons k ks ih =>
    match ss, hs with
    | s :: ss, hs =>
      simp only [List.zip_cons_cons, projTail, hD k (by simp)]
      rw [List.nodup_cons] at hnd
      rw [ih ss (by simpa using hs) hnd.2]
      · rfl
      · intro j hj
        rw [List.getElem?_set_ne]
        · exact hD j (by simp [hj])
        · rintro rfl; exact hnd.1 hj

theorem sum_map_pos_exp (ks : List Nat) (l : Nat → ℝ) (h : ks ≠ []) : 0 < (ks.map fun k => exp (l k)).sum :=
  sum_map_pos ks _ h (fun _ _ => exp_pos _)

/-- The search loop finds the multiplier. -/
theorem projLoop_eq (nu : ℝ) (hnu : 0 < nu) (l : Nat → ℝ) (ks : List Nat) (i : Nat) (D : List ℝ)
    (hne : ks ≠ []) (hnd : ks.Nodup) (hsort : ks.Pairwise fun a b => l b ≤ l a)
    (hD : ∀ k ∈ ks, D[k]? = some (l k)) (harg : 0 < 1 - 1 / nu * (i : ℝ))
    (hcap : nu ≤ (i : ℝ) + ks.length) :
    ∃ ξ, 0 < ξ ∧ (1 - 1 / nu * (i : ℝ)) / (ks.map fun k => exp (l k)).sum ≤ ξ ∧
      projLoop nu i (List.zip ks (suffixLogSums (ks.map l))) D =
        .ok (writeAll (fun k => min (1 / nu) (ξ * exp (l k))) ks D) ∧
      (ks.map fun k => min (1 / nu) (ξ * exp (l k))).sum = 1 - 1 / nu * (i : ℝ) := by
  induction ks generalizing i D with
  | nil => exact absurd rfl hne
  | cons k ks ih =>
    obtain ⟨v, hv, hexp⟩ := suffixLogSums_head (l k) (ks.map l)
    have hW : exp v = ((k :: ks).map fun k => exp (l k)).sum := by
      rw [hexp]; simp [List.map_map, Function.comp_def]
    have hWpos := sum_map_pos_exp (k :: ks) l hne
    set W := ((k :: ks).map fun k => exp (l k)).sum with hWdef
    set arg := 1 - 1 / nu * (i : ℝ) with hargdef
    have hlogv : v = log W := by rw [← hW, log_exp]
    have hxi : ∀ x, exp (log arg - v + x) = arg / W * exp x := by
      intro x; rw [exp_add, exp_sub, exp_log harg, hW]
    have hstop : log arg - v + l k + log nu ≤ 0 ↔ arg / W * exp (l k) ≤ 1 / nu := by
      rw [le_div_iff₀ hnu, ← hxi, ← exp_log hnu, ← exp_add, exp_log hnu, ← exp_zero, exp_le_exp]
    have hsplit : W = exp (l k) + (ks.map fun k => exp (l k)).sum := by simp [hWdef]
    rw [List.nodup_cons] at hnd
    rw [List.pairwise_cons] at hsort
    rw [List.map_cons, hv]
    simp only [List.zip_cons_cons, projLoop]
    rw [if_neg (by push Not; exact ⟨harg, hnu⟩)]
    simp only [hD k (by simp)]
    have hDtail : ∀ x, ∀ j ∈ ks, (D.set k x)[j]? = some (l j) := by
      intro x j hj
      rw [List.getElem?_set_ne]
      · exact hD j (by simp [hj])
      · rintro rfl; exact hnd.1 hj
    by_cases hc : arg / W * exp (l k) ≤ 1 / nu
    · rw [if_pos (hstop.2 hc)]
      have hmin : ∀ j ∈ k :: ks, min (1 / nu) (arg / W * exp (l j)) = arg / W * exp (l j) := by
        intro j hj
        apply min_eq_right
        refine le_trans ?_ hc
        apply mul_le_mul_of_nonneg_left _ (by positivity)
        rw [exp_le_exp]
        rcases List.mem_cons.1 hj with rfl | hj
        · exact le_rfl
        · exact hsort.1 j hj
      refine ⟨arg / W, by positivity, le_rfl, ?_, ?_⟩
      · rw [projTail_eq _ l ks _ (by simp [suffixLogSums_length]) hnd.2 _ (hDtail _)]
        congr 1
        rw [writeAll_congr (g := fun k => exp (log arg - v + l k)) (ks := k :: ks)]
        · rfl
        · intro j hj; simp only [hmin j hj, hxi]
      · rw [List.map_congr_left hmin, sum_map_mul_left', ← hWdef]
        field_simp
    · rw [if_neg (fun h => hc (hstop.1 h))]
      push Not at hc
      have hk : exp (l k) ≤ W := by
        rw [hsplit]; linarith [sum_map_nonneg ks (fun k => exp (l k)) (fun _ _ => (exp_pos _).le)]
      have hne' : ks ≠ [] := by
        rintro rfl
        have : W = exp (l k) := by rw [hsplit]; simp
        rw [this, div_mul_cancel₀ _ (exp_pos _).ne'] at hc
        simp only [List.length_cons, List.length_nil] at hcap
        rw [hargdef] at hc
        have h1 : 1 / nu * nu = 1 := by field_simp
        have h2 := mul_lt_mul_of_pos_right hc hnu
        have h3 : (1 - 1 / nu * (i : ℝ)) * nu = nu - (1 / nu * nu) * i := by ring
        rw [h3, h1] at h2
        push_cast at hcap
        linarith
      set W' := (ks.map fun k => exp (l k)).sum with hW'
      have hW'pos : 0 < W' := sum_map_pos_exp ks l hne'
      have harg' : arg / W * W' < 1 - 1 / nu * ((i + 1 : ℕ) : ℝ) := by
        have : arg / W * W = arg := by field_simp
        have h2 : arg / W * W' = arg - arg / W * exp (l k) := by
          have h4 : arg / W * W = arg / W * exp (l k) + arg / W * W' := by
            rw [← mul_add, ← hsplit]
          linarith
        rw [h2]; push_cast; rw [hargdef] at *; linarith
      have hpos' : 0 < 1 - 1 / nu * ((i + 1 : ℕ) : ℝ) := lt_of_le_of_lt (by positivity) harg'
      obtain ⟨ξ, h0, h1, h2, h3⟩ := ih (i + 1) (D.set k (1 / nu)) hne' hnd.2 hsort.2 (hDtail _) hpos'
        (by push_cast; simp only [List.length_cons] at hcap; push_cast at hcap; linarith)
      have hξ : arg / W ≤ ξ := by
        refine le_trans (le_of_lt ?_) h1
        rw [lt_div_iff₀ hW'pos]; exact harg'
      have hmin : min (1 / nu) (ξ * exp (l k)) = 1 / nu := by
        apply min_eq_left
        exact hc.le.trans (mul_le_mul_of_nonneg_right hξ (exp_pos _).le)
      refine ⟨ξ, h0, hξ, ?_, ?_⟩
      · rw [h2]
        congr 1
        show _ = writeAll _ ks (D.set k (min (1 / nu) (ξ * exp (l k))))
        rw [hmin]
      · rw [List.map_cons, List.sum_cons, h3, hmin, hargdef]; push_cast; ring

theorem projTail_length {logXi : ℝ} {ps : List (Nat × ℝ)} {D D' : List ℝ}
    (h : projTail logXi ps D = .ok D') : D'.length = D.length := by
  induction ps generalizing D with
  | nil => simp only [projTail, Except.ok.injEq] at h; rw [h]
  | cons p ps ih =>
    obtain ⟨k, s⟩ := p
    simp only [projTail] at h
    cases hk : D[k]? with
    | none => simp [hk] at h
    | some d => simp only [hk] at h; rw [ih h]; simp

theorem projLoop_length {nu : ℝ} {i : Nat} {ps : List (Nat × ℝ)} {D D' : List ℝ}
    (h : projLoop nu i ps D = .ok D') : D'.length = D.length := by
  induction ps generalizing D i with
  | nil => simp only [projLoop, Except.ok.injEq] at h; rw [h]
  | cons p ps ih =>
    obtain ⟨k, s⟩ := p
    simp only [projLoop] at h
    split at h
    · simp at h
    · cases hk : D[k]? with
      | none => simp [hk] at h
      | some d =>
        simp only [hk] at h
        split at h
        · rw [projTail_length h]; simp
        · rw [ih h]; simp

/-- The whole function: the result is the clipped rescaling of the exponentials. -/
theorem projectCapped_eq (nu : ℝ) (logs : List ℝ) (h1 : 1 ≤ nu) (h2 : nu ≤ logs.length) :
    ∃ ξ, 0 < ξ ∧ projectCapped nu logs = .ok (logs.map fun a => min (1 / nu) (ξ * exp a)) ∧
      (logs.map fun a => min (1 / nu) (ξ * exp a)).sum = 1 := by
  have hnu : 0 < nu := by linarith
  unfold projectCapped
  simp only []
  set le := fun i j : Nat => decide (logs.getD j 0 ≤ logs.getD i 0) with hle
  set ix := (List.range logs.length).mergeSort le with hix
  have hperm : ix.Perm (List.range logs.length) := List.mergeSort_perm _ _
  have hmem : ∀ k, k ∈ ix ↔ k < logs.length := by intro k; rw [hperm.mem_iff, List.mem_range]
  have hnd : ix.Nodup := hperm.nodup_iff.2 List.nodup_range
  have hpw : ix.Pairwise fun a b => le a b = true := by
    apply List.pairwise_mergeSort
    · intro a b c hab hbc
      simp only [hle, decide_eq_true_eq] at *; exact le_trans hbc hab
    · intro a b
      simp only [hle, Bool.or_eq_true, decide_eq_true_eq]
      exact le_total _ _
  have hlen0 : 0 < logs.length := by
    have : (0 : ℝ) < logs.length := by linarith
    exact_mod_cast this
  have hne : ix ≠ [] := by
    intro h
    have := hperm.length_eq
    rw [h] at this; simp at this; omega
  have hD : ∀ k ∈ ix, logs[k]? = some (logs.getD k 0) := by
    intro k hk
    have := (hmem k).1 hk
    simp [List.getD, List.getElem?_eq_getElem this]
  obtain ⟨ξ, h0, _, hloop, hsum⟩ := projLoop_eq nu hnu (fun k => logs.getD k 0) ix 0 logs hne hnd
    (hpw.imp fun h => by simpa [hle] using h) hD (by simp) (by
      rw [hperm.length_eq]; simpa using h2)
  have hres : writeAll (fun k => min (1 / nu) (ξ * exp (logs.getD k 0))) ix logs =
      logs.map fun a => min (1 / nu) (ξ * exp a) := by
    apply List.ext_getElem?
    intro j
    rw [writeAll_getElem?]
    by_cases hj : j < logs.length
    · rw [if_pos ⟨(hmem j).2 hj, hj⟩]
      simp [List.getD, List.getElem?_eq_getElem hj]
    · rw [if_neg (fun h => hj h.2), List.getElem?_eq_none (by omega), List.getElem?_eq_none (by simp; omega)]
  have hsum' : (logs.map fun a => min (1 / nu) (ξ * exp a)).sum = 1 := by
    have hp := (hperm.map (fun k => min (1 / nu) (ξ * exp (logs.getD k 0)))).sum_eq
    rw [hsum] at hp
    have hm : (List.range logs.length).map (fun k => min (1 / nu) (ξ * exp (logs.getD k 0))) =
        logs.map fun a => min (1 / nu) (ξ * exp a) := by
      apply List.ext_getElem?
      intro j
      by_cases hj : j < logs.length
      · simp [List.getD, List.getElem?_eq_getElem hj, List.getElem?_range hj]
      · rw [List.getElem?_eq_none (by simp; omega), List.getElem?_eq_none (by simp; omega)]
    rw [hm] at hp
    simpa using hp.symm
  refine ⟨ξ, h0, ?_, hsum'⟩
  rw [hloop, hres]
  simp only []
  have hcheck : checkCappedSimplex (logs.map fun a => min (1 / nu) (ξ * exp a)) nu = .ok () := by
    unfold checkCappedSimplex checkNu
    rw [if_pos (by simpa using ⟨h1, h2⟩)]
    simp only []
    rw [if_pos]
    refine ⟨by rw [hsum']; norm_num, ?_⟩
    intro s hs
    obtain ⟨a, _, rfl⟩ := List.mem_map.1 hs
    exact ⟨le_min (by positivity) (by positivity), min_le_left _ _⟩
  rw [hcheck]

end Miniboosts
