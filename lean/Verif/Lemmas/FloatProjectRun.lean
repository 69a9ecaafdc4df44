import Verif.Lemmas.FloatProject

/-! # The projection in `f64`: the vector it computes before the final check -/

namespace Miniboosts.F64

/-- The `k`-th logarithm. -/
noncomputable def lg (logs : List ℝ) (k : Nat) : ℝ := logs.getD k 0

/-- The sum of the exponentials of the logarithms at the indices `ks`. -/
noncomputable def esum (logs : List ℝ) (ks : List Nat) : ℝ := (ks.map fun k => Real.exp (lg logs k)).sum

/-- What is known about the computed vector `xs`: the entries at `pre` were set to the cap `b`, those at `post` were rescaled by `α`. -/
structure ProjRun (nu : ℝ) (logs xs : List ℝ) (b : ℝ) (pre post : List Nat) : Prop where
  len : xs.length = logs.length
  perm : (pre ++ post).Perm (List.range logs.length)
  sorted : (pre ++ post).Pairwise fun i j => lg logs j ≤ lg logs i
  cap : |b - 1 / nu| ≤ 2 * u * (1 / nu)
  atCap : ∀ k ∈ pre, xs.getD k 0 = b
  go : ∀ p k q, pre = p ++ k :: q → 1 - (p.length : ℝ) / nu ≤ 1 / 10 ^ 14 ∨ (0 < 1 - (p.length : ℝ) / nu ∧
    (1 - 2 / 10 ^ 6) * esum logs (k :: (q ++ post)) ≤ nu * (1 - (p.length : ℝ) / nu) * Real.exp (lg logs k))
  stop : post = [] ∨ ∃ k t α, post = k :: t ∧ -(1 / 10 ^ 14) ≤ 1 - (pre.length : ℝ) / nu ∧ 0 ≤ α ∧ nu * α * Real.exp (lg logs k) ≤ 1 + 1 / 10 ^ 9 ∧
    |α * esum logs post - (1 - (pre.length : ℝ) / nu)| ≤ 3 / 10 ^ 6 * |1 - (pre.length : ℝ) / nu| + 1 / 10 ^ 14 ∧
    ∀ j ∈ post, 0 ≤ xs.getD j 0 ∧ |xs.getD j 0 - α * Real.exp (lg logs j)| ≤ 1 / 10 ^ 11 * (α * Real.exp (lg logs j)) + eta

theorem esum_pos {logs : List ℝ} {ks : List Nat} (h : ks ≠ []) : 0 < esum logs ks := sum_map_pos ks _ h (fun _ _ => Real.exp_pos _)

theorem sumHead_fin (L : Libm) (logs : List ℝ) (hx : ∀ x ∈ logs, |x| ≤ 10 ^ 4) (hl : logs.length ≤ 10 ^ 5) (ks : List Nat) (hne : ks ≠ [])
    (hk : ks.length ≤ logs.length) :
    ∃ s, sumHead L (fun k => (logs.map fin).getD k (fin 0)) ks = fin s ∧ |s - Real.log (esum logs ks)| ≤ 11 / 10 ^ 7 ∧
      |Real.log (esum logs ks)| ≤ 10012 := by
  have hb : ∀ x ∈ ks.map (lg logs), |x| ≤ 10 ^ 4 := by
    intro x h
    obtain ⟨k, -, rfl⟩ := List.mem_map.1 h
    unfold lg
    by_cases h2 : k < logs.length
    · have : logs.getD k 0 = logs[k] := by simp [List.getD, List.getElem?_eq_getElem h2]
      rw [this]; exact hx _ (List.getElem_mem h2)
    · have : logs.getD k 0 = 0 := by simp [List.getD, List.getElem?_eq_none (not_lt.mp h2)]
      rw [this]; norm_num
  have hlen : (ks.map (lg logs)).length ≤ 10 ^ 5 := by rw [List.length_map]; omega
  have hne' : ks.map (lg logs) ≠ [] := by simpa using hne
  obtain ⟨s, h1, h2⟩ := suffix_fin L (ks.map (lg logs)) hne' hb hlen
  have e : ((ks.map (lg logs)).map Real.exp).sum = esum logs ks := by rw [esum, List.map_map]; rfl
  have h3 := log_lsum_bound (ks.map (lg logs)) hne' hb hlen
  rw [e] at h2 h3
  refine ⟨s, ?_, h2.trans ?_, h3⟩
  · rw [← h1, sumHead]
    congr 2
    rw [List.map_map]
    apply List.map_congr_left
    intro k _
    simp [lg, List.getD, Function.comp]
  · have : ((ks.map (lg logs)).length : ℝ) ≤ 10 ^ 5 := by exact_mod_cast hlen
    linarith

theorem run_shape (L : Libm) (nu : ℝ) (logs : List ℝ) (h1 : 1 ≤ nu) (h2 : nu ≤ logs.length) (hl : logs.length ≤ 10 ^ 5)
    (hx : ∀ x ∈ logs, |x| ≤ 10 ^ 4) :
    ∃ xs b pre post, ProjRun nu logs xs b pre post ∧ div (fin 1) (fin nu) = fin b ∧
      (∀ p k q, pre = p ++ k :: q → ¬ Stops L (div (fin 1) (fin nu)) (ln L (fin nu)) p.length
        (sumHead L (fun k => fin (lg logs k)) (k :: (q ++ post))) (fin (lg logs k))) ∧
      (∀ j ∈ post, exp L (add (logXi L (div (fin 1) (fin nu)) pre.length (sumHead L (fun k => fin (lg logs k)) post)) (fin (lg logs j))) =
        fin (xs.getD j 0)) ∧
      projectCapped L (fin nu) (logs.map fin) = (match checkCapped (xs.map fin) (fin nu) with | .error e => .error e | .ok () => .ok (xs.map fin)) := by
  have hl' : (logs.length : ℝ) ≤ 10 ^ 5 := by exact_mod_cast hl
  have h2' : nu ≤ 10 ^ 5 := h2.trans hl'
  obtain ⟨b, hb, hbe, -⟩ := cap_fin h1 h2'
  set v : Nat → F64 := fun k => (logs.map fin).getD k (fin 0) with hv
  have hvl : ∀ k, v k = fin (lg logs k) := by
    intro k
    simp [hv, lg, List.getD]
  set ix := (List.range (logs.map fin).length).mergeSort (fun i j => @decide (Le ((logs.map fin).getD j (fin 0)) ((logs.map fin).getD i (fin 0))) (Classical.propDecidable _)) with hix
  have hperm : ix.Perm (List.range logs.length) := by
    have := List.mergeSort_perm (List.range (logs.map fin).length) (fun i j => @decide (Le ((logs.map fin).getD j (fin 0)) ((logs.map fin).getD i (fin 0))) (Classical.propDecidable _))
    rw [List.length_map] at this
    rw [hix, List.length_map]; exact this
  have hnd : ix.Nodup := hperm.nodup_iff.2 List.nodup_range
  have hmem : ∀ k, k ∈ ix ↔ k < logs.length := by intro k; rw [hperm.mem_iff, List.mem_range]
  have hle : ∀ i j, Le ((logs.map fin).getD j (fin 0)) ((logs.map fin).getD i (fin 0)) ↔ lg logs j ≤ lg logs i := by
    intro i j
    have e1 : (logs.map fin).getD j (fin 0) = fin (lg logs j) := hvl j
    have e2 : (logs.map fin).getD i (fin 0) = fin (lg logs i) := hvl i
    rw [e1, e2]; exact Iff.rfl
  have hpw : ix.Pairwise fun i j => lg logs j ≤ lg logs i := by
    have : ix.Pairwise fun i j => (@decide (Le ((logs.map fin).getD j (fin 0)) ((logs.map fin).getD i (fin 0))) (Classical.propDecidable _)) = true := by
      apply List.pairwise_mergeSort
      · intro a b c hab hbc
        simp only [decide_eq_true_eq, hle] at *
        exact le_trans hbc hab
      · intro a b
        simp only [Bool.or_eq_true, decide_eq_true_eq, hle]
        exact le_total _ _
    exact this.imp fun h => by simpa only [decide_eq_true_eq, hle] using h
  have hD : ∀ k ∈ ix, (logs.map fin)[k]? = some (v k) := by
    intro k hk
    have h := (hmem k).1 hk
    rw [hvl]
    simp [lg, List.getD, List.getElem?_eq_getElem h]
  obtain ⟨D', hloop, hlen, -, pre, post, hsplit, hpre, hgo, hstop⟩ := projLoop_spec L (div (fin 1) (fin nu)) (ln L (fin nu)) v ix 0 (logs.map fin) hnd hD
  have hplen : pre.length + post.length = logs.length := by
    have := hperm.length_eq
    rw [hsplit] at this
    simpa using this
  have hbnd : ∀ k, |lg logs k| ≤ 10 ^ 4 := by
    intro k
    unfold lg
    by_cases h3 : k < logs.length
    · have : logs.getD k 0 = logs[k] := by simp [List.getD, List.getElem?_eq_getElem h3]
      rw [this]; exact hx _ (List.getElem_mem h3)
    · have : logs.getD k 0 = 0 := by simp [List.getD, List.getElem?_eq_none (not_lt.mp h3)]
      rw [this]; norm_num
  have hexp : ∀ k t, Real.exp (lg logs k) ≤ esum logs (k :: t) := by
    intro k t
    rw [esum, List.map_cons, List.sum_cons]
    have := sum_map_nonneg t (fun k => Real.exp (lg logs k)) (fun _ _ => (Real.exp_pos _).le)
    linarith
  have hfin : ∀ j : Nat, j < logs.length → ∃ x, D'[j]? = some (fin x) := by
    intro j hj
    have hj' := (hmem j).2 hj
    rw [hsplit, List.mem_append] at hj'
    rcases hj' with hj' | hj'
    · exact ⟨b, by rw [hpre j hj', hb]⟩
    · rcases hstop with rfl | ⟨k, t, rfl, hs, he⟩
      · cases hj'
      · obtain ⟨s, hs1, hs2, hs3⟩ := sumHead_fin L logs hx hl (k :: t) (by simp) (by omega)
        rw [hs1, hvl k] at hs
        have := (stop_cases L h1 h2' (i := 0 + pre.length) (by omega) (esum_pos (by simp)) hs2 hs3 (hbnd k) (hexp k t)).2 hs
        obtain ⟨-, α, -, -, -, hE⟩ := this
        have hjk : lg logs j ≤ lg logs k := by
          rw [hsplit] at hpw
          have h4 := (List.pairwise_append.1 hpw).2.1
          rcases List.mem_cons.1 hj' with rfl | h5
          · exact le_rfl
          · exact (List.pairwise_cons.1 h4).1 j h5
        obtain ⟨E, hE1, -, -⟩ := hE _ hjk (hbnd j)
        refine ⟨E, ?_⟩
        rw [he j hj', hs1, hvl j, hE1]
  set xs : List ℝ := D'.map val with hxs
  have hDx : D' = xs.map fin := by
    apply List.ext_getElem?
    intro j
    rw [hxs, List.map_map, List.getElem?_map]
    by_cases hj : j < logs.length
    · obtain ⟨x, hx'⟩ := hfin j hj
      rw [hx']; rfl
    · rw [List.getElem?_eq_none (by rw [hlen, List.length_map]; omega)]; rfl
  have hget : ∀ j x, D'[j]? = some (fin x) → xs.getD j 0 = x := by
    intro j x h
    rw [hxs]
    simp [List.getD, h, val]
  have hvf : (fun k => fin (lg logs k)) = v := funext fun k => (hvl k).symm
  refine ⟨xs, b, pre, post, ⟨?_, hsplit ▸ hperm, hsplit ▸ hpw, hbe, ?_, ?_, ?_⟩, hb, ?_, ?_, ?_⟩
  · rw [hxs, List.length_map, hlen, List.length_map]
  · intro k hk
    exact hget k b (by rw [hpre k hk, hb])
  · intro p k q hpq
    have h3 := hgo p k q hpq
    have h4 : p.length + (k :: (q ++ post)).length = logs.length := by
      rw [← hplen, hpq]; simp; omega
    obtain ⟨s, hs1, hs2, hs3⟩ := sumHead_fin L logs hx hl (k :: (q ++ post)) (by simp) (by omega)
    rw [hs1, hvl k] at h3
    have := (stop_cases L h1 h2' (i := 0 + p.length) (by omega) (esum_pos (by simp)) hs2 hs3 (hbnd k) (hexp k _)).1 h3
    simpa using this
  · rcases hstop with rfl | ⟨k, t, rfl, hs, he⟩
    · exact .inl rfl
    · right
      obtain ⟨s, hs1, hs2, hs3⟩ := sumHead_fin L logs hx hl (k :: t) (by simp) (by omega)
      rw [hs1, hvl k] at hs
      obtain ⟨g1, α, g2, g3, g4, g5⟩ := (stop_cases L h1 h2' (i := 0 + pre.length) (by omega) (esum_pos (by simp)) hs2 hs3 (hbnd k) (hexp k t)).2 hs
      rw [Nat.zero_add] at g1 g4 g5
      refine ⟨k, t, α, rfl, g1, g2, g3, g4, ?_⟩
      intro j hj'
      have hjk : lg logs j ≤ lg logs k := by
        rw [hsplit] at hpw
        have h4 := (List.pairwise_append.1 hpw).2.1
        rcases List.mem_cons.1 hj' with rfl | h5
        · exact le_rfl
        · exact (List.pairwise_cons.1 h4).1 j h5
      obtain ⟨E, hE1, hE2, hE3⟩ := g5 _ hjk (hbnd j)
      have h7 : xs.getD j 0 = E := by
        apply hget
        rw [he j hj', hs1, hvl j, Nat.zero_add, hE1]
      rw [h7]; exact ⟨hE2, hE3⟩
  · intro p k q hp
    have := hgo p k q hp
    rwa [Nat.zero_add, hvl k, ← hvf] at this
  · intro j hj
    rcases hstop with rfl | ⟨k, t, rfl, hs, he⟩
    · cases hj
    · have h7 := he j hj
      obtain ⟨x, hx'⟩ := hfin j ((hmem j).1 (by rw [hsplit]; exact List.mem_append_right _ hj))
      rw [hget j x hx', hvf]
      rw [h7, Nat.zero_add, Option.some.injEq, hvl j] at hx'
      exact hx'
  · unfold projectCapped
    rw [if_neg (by simp)]
    have hsum : suffixLogSums L (ix.map v) = suffixLogSums L (ix.map fun i => (logs.map fin).getD i (fin 0)) := rfl
    simp only []
    rw [← hix, ← hsum, hloop]
    rw [← hDx]
    simp only []
    rcases checkCapped D' (fin nu) with e | ⟨⟩ <;> rfl

end Miniboosts.F64
