import Verif.Model.FloatTree
import Verif.Lemmas.Rounding
import Verif.Lemmas.Bins

/-! # Cutting a column into bins in `f64` -/

namespace Miniboosts.FTree

open F64

theorem eps_eq : ∃ e : ℝ, eps = fin e ∧ |e - 1 / 1000| ≤ 1 / 10 ^ 15 := by
  refine ⟨F64.round (1 / 1000), rnd_small (by norm_num), (round_err _).trans ?_⟩
  have := u_small
  have := eta_tiny
  rw [abs_of_pos (by norm_num : (0 : ℝ) < 1 / 1000)]
  linarith

theorem tol_eq : ∃ t : ℝ, numTolerance = fin t ∧ |t - 1 / 10 ^ 9| ≤ 1 / 10 ^ 15 := by
  refine ⟨F64.round (1 / 10 ^ 9), rnd_small (by norm_num), (round_err _).trans ?_⟩
  have := u_small
  have := eta_tiny
  rw [abs_of_pos (by norm_num : (0 : ℝ) < 1 / 10 ^ 9)]
  linarith

theorem le_abs_of_dist {a b c : ℝ} (h : |a - b| ≤ c) : |a| ≤ |b| + c := by
  have := abs_add_le (a - b) b
  rw [sub_add_cancel] at this
  linarith

theorem cutLoop_stop {mx ic left : F64} {fuel : ℕ} (h : ¬ Lt left mx) : cutLoop mx ic (fuel + 1) left = some [] := by
  unfold cutLoop; exact if_neg h

theorem cutLoop_last {mx ic left r : F64} {fuel : ℕ} (h : Lt left mx) (hr : add left ic = r) (hl : Lt (F64.abs (sub r mx)) numTolerance) :
    cutLoop mx ic (fuel + 1) left = some [⟨left, r⟩] := by
  subst hr
  unfold cutLoop; exact (if_pos h).trans (if_pos hl)

theorem cutLoop_next {mx ic left r : F64} {fuel : ℕ} (h : Lt left mx) (hr : add left ic = r) (hl : ¬ Lt (F64.abs (sub r mx)) numTolerance) :
    cutLoop mx ic (fuel + 1) left = (cutLoop mx ic fuel r).map fun bs => ⟨left, r⟩ :: bs := by
  subst hr
  conv_lhs => unfold cutLoop
  exact (if_pos h).trans (if_neg hl)

set_option maxHeartbeats 1000000 in
/-- The loop of `cut` makes `n` bins, whatever the rounding. -/
theorem cutLoop_ok {mn mx M i : ℝ} {n : ℕ} (hM : 1 ≤ M) (h1 : |mn| ≤ M) (h2 : |mx| ≤ M) (hlt : mn < mx)
    (hn : ((n : ℝ) + 8) * M ≤ 2200000) (hn0 : 1 ≤ n) (hi : |i - (mx - mn) / n| ≤ (41 / 10 * u * M) / n + 2 * eta)
    (hw : n = 1 ∨ 29 / 10 ^ 10 * (n : ℝ) ≤ mx - mn) :
    ∀ (j k : ℕ) (r : ℝ), k + j = n → 0 < j → |r - (mn + k * ((mx - mn) / n))| ≤ k * (2 * u * M + eta + ((41 / 10 * u * M) / n + 2 * eta)) →
      (k = 0 → r = mn) →
      ∃ bs : List (ℝ × ℝ), (∀ fuel, j ≤ fuel → cutLoop (fin mx) (fin i) fuel (fin r) = some (bs.map fun b => ⟨fin b.1, fin b.2⟩)) ∧ bs.length = j ∧
        bs.IsChain (fun a b => a.2 = b.1) ∧ (∀ b ∈ bs, (n ≠ 1 → b.1 < b.2) ∧ |b.1| ≤ 2 * M + 1 ∧ |b.2| ≤ 2 * M + 1) ∧ bs.head?.map Prod.fst = some r := by
  have hu := u_small
  have hu0 := u_pos
  have he := eta_tiny
  have he0 := eta_pos
  have hn1 : (1 : ℝ) ≤ n := by exact_mod_cast hn0
  obtain ⟨t, ht, ht2⟩ := tol_eq
  set δ := 2 * u * M + eta + ((41 / 10 * u * M) / n + 2 * eta) with hδ
  have hnM : (n : ℝ) ≤ 2200000 := by nlinarith
  have hM2 : M ≤ 2200000 := by nlinarith
  have hδ0 : 0 ≤ δ := by positivity
  have huM : 0 < u * M := by positivity
  have hnδ : n * δ ≤ 49 / 10 ^ 11 := by
    have e1 : n * δ = 2 * u * (n * M) + 41 / 10 * u * M + 3 * n * eta := by
      rw [hδ]; field_simp; ring
    have e2 : u * (n * M) + 8 * (u * M) ≤ 2200000 * u := by nlinarith
    have e3 : 3 * (n : ℝ) * eta ≤ 1 / 10 ^ 40 := by nlinarith
    rw [e1]; nlinarith
  set w := (mx - mn) / (n : ℝ) with hwdef
  have hnw : n * w = mx - mn := by rw [hwdef]; field_simp
  have hw0 : 0 < w := by rw [hwdef]; apply div_pos <;> linarith
  have hww : n = 1 ∨ 29 / 10 ^ 10 ≤ w := by
    rcases hw with h | h
    · exact Or.inl h
    · right; rw [hwdef, le_div_iff₀ (by linarith)]; exact h
  have hwM : w ≤ 2 * M := by
    rw [abs_le] at h1 h2
    have : w * 1 ≤ w * n := by gcongr
    linarith
  have hε : (41 / 10 * u * M) / n + 2 * eta ≤ δ := by
    rw [hδ]; have : 0 ≤ 2 * u * M + eta := by positivity
    linarith
  have hδs : δ ≤ 49 / 10 ^ 11 := by nlinarith
  rw [abs_le] at h1 h2 ht2
  intro j
  induction j with
  | zero => intro k r _ h; omega
  | succ j ih =>
    intro k r hk _ hr hk0
    have hkn : (k : ℝ) + (j + 1) = n := by exact_mod_cast hk
    have hkle : (k : ℝ) + 1 ≤ n := by have : (0 : ℝ) ≤ j := by positivity
                                      linarith
    have hk0' : (0 : ℝ) ≤ k := by positivity
    have hkδ : k * δ ≤ 49 / 10 ^ 11 := le_trans (by gcongr; linarith) hnδ
    have hkw : mn + k * w ≤ mx - w := by nlinarith
    have hkw0 : 0 ≤ k * w := by positivity
    rw [abs_le] at hr
    -- the loop goes on
    have hlt' : r < mx := by
      by_cases h0 : k = 0
      · rw [hk0 h0]; exact hlt
      · rcases hww with h | h
        · omega
        · linarith
    -- the right end
    have hi' := hi
    rw [abs_le] at hi'
    have hri : |r + i| ≤ 2 * M := by rw [abs_le]; constructor <;> linarith
    obtain ⟨r', hr'1, hr'2⟩ := add_fin (a := r) (b := i) (2 * M) (by linarith) hri
    have hr'2' := hr'2
    rw [abs_le] at hr'2'
    have hcast : ((k + 1 : ℕ) : ℝ) = k + 1 := by push_cast; ring
    have hnew : |r' - (mn + ((k + 1 : ℕ) : ℝ) * w)| ≤ ((k + 1 : ℕ) : ℝ) * δ := by
      rw [hcast, abs_le]
      constructor
      · linarith only [hr.1, hi'.1, hr'2'.1, hδ]
      · linarith only [hr.2, hi'.2, hr'2'.2, hδ]
    have hnew' := hnew
    rw [hcast, abs_le] at hnew'
    have hk1δ : ((k : ℝ) + 1) * δ ≤ 49 / 10 ^ 11 := le_trans (by gcongr) hnδ
    have hrr : n ≠ 1 → r < r' := by
      intro hne
      rcases hww with h | h
      · exact absurd h hne
      · linarith
    have hr'M : |r'| ≤ 2 * M + 1 := by
      refine (le_abs_of_dist hr'2).trans ?_
      have : u * (2 * M) + eta ≤ 1 := by nlinarith
      linarith
    have hrM : |r| ≤ 2 * M + 1 := by rw [abs_le]; constructor <;> linarith
    -- the test for the last bin
    have hbig : |r' - mx| ≤ 10 ^ 20 := by rw [abs_le] at hr'M ⊢; constructor <;> linarith
    obtain ⟨d, hd1, hd2⟩ := sub_fin (a := r') (b := mx) |r' - mx| hbig le_rfl
    have hd3 : |d - (r' - mx)| ≤ |r' - mx| / 100 + eta := by
      refine hd2.trans ?_
      have : u * |r' - mx| ≤ 1 / 100 * |r' - mx| := by gcongr; linarith
      linarith
    rw [abs_le] at hd3
    rcases Nat.eq_zero_or_pos j with hj | hj
    · subst hj
      have hkn' : (k : ℝ) + 1 = n := by simpa using hkn
      have hlast : |d| < t := by
        rw [hkn', hnw] at hnew'
        rw [hkn'] at hk1δ
        have hsm : |r' - mx| ≤ 49 / 10 ^ 11 := by
          rw [abs_le]; constructor
          · linarith only [hnew'.1, hk1δ]
          · linarith only [hnew'.2, hk1δ]
        have hsm' := abs_le.mp hsm
        rw [abs_lt]; constructor
        · linarith only [hd3.1, hsm, hsm'.1, ht2.1, he]
        · linarith only [hd3.2, hsm, hsm'.2, ht2.1, he]
      refine ⟨[(r, r')], ?_, rfl, List.isChain_singleton _, ?_, by simp⟩
      · intro fuel hf
        obtain ⟨fuel, rfl⟩ : ∃ m, fuel = m + 1 := ⟨fuel - 1, by omega⟩
        rw [cutLoop_last (show Lt (fin r) (fin mx) from hlt') hr'1 (by rw [hd1, ht]; exact hlast)]
        rfl
      · simp only [List.mem_singleton, forall_eq]
        exact ⟨hrr, hrM, hr'M⟩
    · have hj1 : (1 : ℝ) ≤ j := by exact_mod_cast hj
      have hn2 : n ≠ 1 := by omega
      have hw3 : 29 / 10 ^ 10 ≤ w := hww.resolve_left hn2
      have hmore : ¬ |d| < t := by
        have h2w : ((k : ℝ) + 2) * w ≤ n * w := by gcongr; linarith only [hkn, hj1]
        rw [hnw] at h2w
        have hle : r' ≤ mx - 24 / 10 ^ 10 := by linarith only [h2w, hnew'.2, hk1δ, hw3]
        rw [not_lt]
        refine le_trans ?_ (neg_le_abs d)
        have hneg : |r' - mx| = mx - r' := by rw [abs_of_neg (by linarith only [hle])]; ring
        rw [hneg] at hd3
        linarith only [hd3.2, hle, ht2.2, he]
      obtain ⟨bs, hb1, hb2, hb3, hb4, hb5⟩ := ih (k + 1) r' (by omega) hj hnew (by omega)
      refine ⟨(r, r') :: bs, ?_, by simp [hb2], ?_, ?_, by simp⟩
      · intro fuel hf
        obtain ⟨fuel, rfl⟩ : ∃ m, fuel = m + 1 := ⟨fuel - 1, by omega⟩
        rw [cutLoop_next (show Lt (fin r) (fin mx) from hlt') hr'1 (by rw [hd1, ht]; exact hmore), hb1 fuel (by omega)]
        rfl
      · cases bs with
        | nil => simp
        | cons b bs =>
          simp only [List.head?_cons, Option.map_some, Option.some.injEq] at hb5
          exact List.isChain_cons_cons.mpr ⟨hb5.symm, hb3⟩
      · intro b hb
        rcases List.mem_cons.mp hb with rfl | hb
        · exact ⟨hrr, hrM, hr'M⟩
        · exact hb4 b hb

/-- A bin with real bounds as a bin of `f64`s. -/
def toF (b : Bin ℝ) : Bin F64 := ⟨fin b.start, fin b.stop⟩

/-- The platform, for the parts of the exact model that are used for comparisons only. -/
noncomputable def realEnv : TreeEnv ℝ := ⟨-maxVal, maxVal, Real.log, id⟩

theorem maxVal_big : (10 : ℝ) ^ 20 < maxVal := by
  unfold maxVal
  have h : (2 : ℝ) ^ 100 ≤ 2 ^ 971 := pow_le_pow_right₀ (by norm_num) (by norm_num)
  generalize (2 : ℝ) ^ 971 = z at h
  nlinarith [h]

theorem setLastStop_toF (v : ℝ) (l : List (Bin ℝ)) : Bins.setLastStop (fin v) (l.map toF) = (Bins.setLastStop v l).map toF := by
  induction l with
  | nil => rfl
  | cons b l ih =>
    cases l with
    | nil => rfl
    | cons c l =>
      simp only [List.map_cons, Bins.setLastStop] at ih ⊢
      rw [ih]

theorem chain_tiles (v : ℝ) : ∀ (l : List (ℝ × ℝ)) (b : ℝ × ℝ) (a : ℝ), (b :: l).IsChain (fun a b => a.2 = b.1) →
    (∀ c ∈ l, c.1 < c.2) → a < v → (l ≠ [] → a < b.2) → (∀ c ∈ l, c.1 < v) →
    Spec.Tiles a (Bins.setLastStop v (⟨a, b.2⟩ :: l.map fun c => ⟨c.1, c.2⟩)) v ∧
      (Bins.setLastStop v (⟨a, b.2⟩ :: l.map fun c => (⟨c.1, c.2⟩ : Bin ℝ))).length = l.length + 1 := by
  intro l
  induction l with
  | nil => intro b a _ _ hv _ _; exact ⟨⟨rfl, hv, rfl⟩, rfl⟩
  | cons c l ih =>
    intro b a hc hlt hv ha hb
    rw [List.isChain_cons_cons] at hc
    have h := ih c c.1 hc.2 (fun d hd => hlt d (List.mem_cons_of_mem _ hd)) (hb c (by simp)) (fun _ => hlt c (by simp))
      (fun d hd => hb d (List.mem_cons_of_mem _ hd))
    simp only [List.map_cons, Bins.setLastStop]
    refine ⟨⟨rfl, ha (by simp), ?_⟩, ?_⟩
    · rw [hc.1]; exact h.1
    · simp only [List.length_cons]; rw [h.2]

theorem ofInt_nat {n : ℕ} (h : (n : ℝ) ≤ 10 ^ 9) : ofInt n = fin n := by
  unfold ofInt
  have hn : (n : ℤ) ≤ 10 ^ 9 := by exact_mod_cast h
  rw [rnd_small (by rw [Int.cast_natCast, abs_of_nonneg (by positivity)]; linarith)]
  have := round_exact (k := n) (j := 0) (by rw [abs_of_nonneg (by positivity)]; linarith) (by norm_num)
  simp only [zpow_zero, mul_one, Int.cast_natCast] at this ⊢
  rw [this]

/-- The interval between two reals is cut into the number of bins asked for. -/
theorem cutRange_ok {mn mx M : ℝ} {n : ℕ} (hM : 1 ≤ M) (h1 : |mn| ≤ M) (h2 : |mx| ≤ M) (hlt : mn < mx)
    (hn : ((n : ℝ) + 8) * M ≤ 2200000) (hn0 : 1 ≤ n) (hw : n = 1 ∨ 29 / 10 ^ 10 * (n : ℝ) ≤ mx - mn) :
    ∃ (b : ℝ × ℝ) (l : List (ℝ × ℝ)), l.length + 1 = n ∧ (b :: l).IsChain (fun a b => a.2 = b.1) ∧
      (∀ c ∈ b :: l, (n ≠ 1 → c.1 < c.2) ∧ |c.1| ≤ 2 * M + 1 ∧ |c.2| ≤ 2 * M + 1) ∧
      ∀ fuel, n ≤ fuel → cutRange fuel n (fin mn, fin mx) = some (.ok ((b :: l).map fun c => ⟨fin c.1, fin c.2⟩)) := by
  have hu := u_small
  have hu0 := u_pos
  have he := eta_tiny
  have he0 := eta_pos
  have hn1 : (1 : ℝ) ≤ n := by exact_mod_cast hn0
  have hnM : (n : ℝ) ≤ 2200000 := by nlinarith
  have hM2 : M ≤ 2200000 := by nlinarith
  have h1' := abs_le.mp h1
  have h2' := abs_le.mp h2
  have hsub : |mx - mn| ≤ 2 * M := by rw [abs_le]; constructor <;> linarith
  obtain ⟨d, hd1, hd2⟩ := sub_fin (a := mx) (b := mn) (2 * M) (by linarith) hsub
  have hdn : |d / n| ≤ (2 * M + 1 / 100) / n := by
    rw [abs_div, abs_of_pos (by linarith : (0 : ℝ) < n)]
    gcongr
    refine (le_abs_of_dist hd2).trans ?_
    nlinarith
  have hdn' : (2 * M + 1 / 100) / n ≤ 2 * M + 1 / 100 := div_le_self (by linarith) hn1
  obtain ⟨i, hi1, hi2⟩ := div_fin (a := d) (b := n) ((2 * M + 1 / 100) / n) (by linarith) (by linarith) hdn
  have hi : |i - (mx - mn) / n| ≤ (41 / 10 * u * M) / n + 2 * eta := by
    have e1 : i - (mx - mn) / n = (i - d / n) + (d - (mx - mn)) / n := by ring
    rw [e1]
    refine (abs_add_le _ _).trans ?_
    have e2 : |(d - (mx - mn)) / (n : ℝ)| ≤ (u * (2 * M) + eta) / n := by
      rw [abs_div, abs_of_pos (by linarith : (0 : ℝ) < n)]
      gcongr
    have e3 : u * ((2 * M + 1 / 100) / n) + eta + (u * (2 * M) + eta) / n ≤ (41 / 10 * u * M) / n + 2 * eta := by
      have e4 : u * ((2 * M + 1 / 100) / n) + (u * (2 * M) + eta) / n = (u * (2 * M + 1 / 100) + (u * (2 * M) + eta)) / n := by ring
      have e5 : (u * (2 * M + 1 / 100) + (u * (2 * M) + eta)) / n ≤ (41 / 10 * u * M + eta) / n := by
        refine div_le_div_of_nonneg_right ?_ (by linarith)
        have huM : u ≤ u * M := le_mul_of_one_le_right hu0.le hM
        linarith
      have e6 : (41 / 10 * u * M + eta) / n ≤ (41 / 10 * u * M) / n + eta := by
        rw [add_div]
        have : eta / n ≤ eta := div_le_self he0.le hn1
        linarith
      linarith
    linarith
  obtain ⟨bs, b1, b2, b3, b4, b5⟩ := cutLoop_ok hM h1 h2 hlt hn hn0 hi hw n 0 mn (by omega) (by omega) (by simp) (fun _ => rfl)
  cases bs with
  | nil => simp at b2; omega
  | cons b l =>
    refine ⟨b, l, by simpa using b2, b3, b4, ?_⟩
    intro fuel hf
    unfold cutRange
    simp only [hd1, ofInt_nat (n := n) (by linarith)]
    rw [hi1, b1 fuel hf]
    simp only [Option.map_some, List.length_map, b2, if_true]

/-- What `Bins::cut` makes of the least and the greatest value. -/
noncomputable def ends (fuel n : ℕ) (mm : F64 × F64) : Option (Except Panic (List (Bin F64))) :=
  (cutRange fuel n mm).map fun r => match r with
    | .error e => .error e
    | .ok [] => .error .unwrapNone
    | .ok (b :: l) => .ok (Bins.setLastStop (fin maxVal) ({ b with start := fin (-maxVal) } :: l))

theorem cut_eq (fuel n : ℕ) (f : Feature ℝ) : cut fuel f n = ends fuel n (perturb (Bins.range realEnv f)) := by
  cases f <;> rfl

/-- The ends of the bins that the loop makes are sums, hence doubles. -/
theorem cutLoop_rep {mx ic : F64} : ∀ (fuel : ℕ) (left : F64) (bs : List (Bin F64)), cutLoop mx ic fuel left = some bs → ∀ b ∈ bs, ∀ x, b.stop = fin x → F64.Rep x := by
  have key : ∀ (l : F64) (x : ℝ), add l ic = fin x → F64.Rep x := by
    intro l x h
    cases l with
    | nan => cases h
    | inf s =>
      cases ic with
      | nan => cases h
      | inf t => simp only [add] at h; split at h <;> cases h
      | fin y => cases h
    | fin y =>
      cases ic with
      | nan => cases h
      | inf t => cases h
      | fin z =>
        simp only [add, rnd] at h
        split at h
        · cases h
        · cases h; exact rep_round _
  intro fuel
  induction fuel with
  | zero => intro left bs h; cases h
  | succ fuel ih =>
    intro left bs h
    unfold cutLoop at h
    split at h
    · simp only at h
      split at h
      · cases h
        intro b hb x hx
        rw [List.mem_singleton.mp hb] at hx
        exact key _ _ hx
      · obtain ⟨bs', h1, rfl⟩ := Option.map_eq_some_iff.mp h
        intro b hb x hx
        rcases List.mem_cons.mp hb with rfl | hb
        · exact key _ _ hx
        · exact ih _ _ h1 b hb x hx
    · cases h
      intro b hb
      cases hb

theorem setLastStop_stop (v : ℝ) : ∀ (l : List (Bin ℝ)), ∀ β ∈ Bins.setLastStop v l, β.stop = v ∨ ∃ c ∈ l, β.stop = c.stop := by
  intro l
  induction l with
  | nil => intro β h; cases h
  | cons b l ih =>
    cases l with
    | nil =>
      intro β h
      rw [List.mem_singleton.mp (show β ∈ [_] from h)]
      exact Or.inl rfl
    | cons c l =>
      intro β h
      rcases List.mem_cons.mp (show β ∈ b :: Bins.setLastStop v (c :: l) from h) with rfl | h
      · exact Or.inr ⟨_, by simp, rfl⟩
      · rcases ih β h with h | ⟨d, hd, h⟩
        · exact Or.inl h
        · exact Or.inr ⟨d, List.mem_cons_of_mem _ hd, h⟩

theorem ends_ok {mn mx M : ℝ} {n : ℕ} (hM : 1 ≤ M) (h1 : |mn| ≤ M) (h2 : |mx| ≤ M) (hlt : mn < mx)
    (hn : ((n : ℝ) + 8) * M ≤ 2200000) (hn0 : 1 ≤ n) (hw : n = 1 ∨ 29 / 10 ^ 10 * (n : ℝ) ≤ mx - mn) :
    ∃ rb : List (Bin ℝ), rb.length = n ∧ Spec.Tiles (-maxVal) rb maxVal ∧
      (∀ fuel, n ≤ fuel → ends fuel n (fin mn, fin mx) = some (.ok (rb.map toF))) ∧ ∀ β ∈ rb, β.stop = maxVal ∨ (F64.Rep β.stop ∧ |β.stop| ≤ 10 ^ 9) := by
  obtain ⟨b, l, e1, e2, e3, e4⟩ := cutRange_ok hM h1 h2 hlt hn hn0 hw
  have hb := maxVal_big
  have hM2 : M ≤ 2200000 := by
    have : (1 : ℝ) ≤ n := by exact_mod_cast hn0
    nlinarith
  obtain ⟨t1, t2⟩ := chain_tiles maxVal l b (-maxVal) e2 (by
    intro c hc
    refine (e3 c (List.mem_cons_of_mem _ hc)).1 ?_
    have := List.length_pos_of_mem hc
    omega) (by linarith) (by
    intro _
    have := (abs_le.mp (e3 b (by simp)).2.2).1
    linarith) (by
    intro c hc
    have := (abs_le.mp (e3 c (List.mem_cons_of_mem _ hc)).2.1).2
    linarith)
  refine ⟨_, t2.trans e1, t1, ?_, ?_⟩
  · intro fuel hf
    unfold ends
    rw [e4 fuel hf, ← setLastStop_toF]
    simp only [Option.map_some, List.map_cons, List.map_map]
    rfl
  · have hrep : ∀ c ∈ b :: l, F64.Rep c.2 := by
      have h := e4 n le_rfl
      unfold cutRange at h
      obtain ⟨bs, h1, h2⟩ := Option.map_eq_some_iff.mp h
      split at h2
      · cases h2
        intro c hc
        exact cutLoop_rep _ _ _ h1 _ (List.mem_map.mpr ⟨c, hc, rfl⟩) _ rfl
      · cases h2
    have hok : ∀ c ∈ b :: l, F64.Rep c.2 ∧ |c.2| ≤ 10 ^ 9 := fun c hc => ⟨hrep c hc, by have := (e3 c hc).2.2; norm_num at this ⊢; linarith⟩
    intro β hβ
    rcases setLastStop_stop _ _ β hβ with h | ⟨c, hc, h⟩
    · exact Or.inl h
    · right
      rw [h]
      rcases List.mem_cons.mp hc with rfl | hc
      · exact hok b (by simp)
      · obtain ⟨d, hd, rfl⟩ := List.mem_map.mp hc
        exact hok d (List.mem_cons_of_mem _ hd)

theorem cut_ok {rows : ℕ} (hr : 0 < rows) {f : Feature ℝ} (hf : Spec.ColumnOk rows f) {M : ℝ} (hM : 1 ≤ M)
    (hb : ∀ v, Spec.ValueOf rows f v → |v| ≤ M) {n : ℕ} (hn0 : 1 ≤ n) (hn : ((n : ℝ) + 8) * M ≤ 2 ^ 21) {lo hi : ℝ}
    (hlo : Spec.ValueOf rows f lo) (hhi : Spec.ValueOf rows f hi) (hall : ∀ v, Spec.ValueOf rows f v → lo ≤ v ∧ v ≤ hi)
    (hw : n = 1 ∨ 3 / 10 ^ 9 ≤ (if lo = hi then 2 * (1 / 1000) else hi - lo) / (n : ℝ)) :
    ∃ rb : List (Bin ℝ), rb.length = n ∧ Spec.Tiles (-maxVal) rb maxVal ∧
      (∀ fuel, n ≤ fuel → cut fuel f n = some (.ok (rb.map toF))) ∧ ∀ β ∈ rb, β.stop = maxVal ∨ (F64.Rep β.stop ∧ |β.stop| ≤ 10 ^ 9) := by
  have hbig := maxVal_big
  have hn1 : (1 : ℝ) ≤ n := by exact_mod_cast hn0
  have hM2 : M ≤ 2 ^ 21 := by nlinarith
  obtain ⟨r1, r2, r3⟩ := range_spec (env := realEnv) (by simp only [realEnv]; constructor <;> linarith) hr hf (by
    intro v hv
    have := abs_le.mp (hb v hv)
    simp only [realEnv]
    constructor <;> linarith)
  have e1 : (Bins.range realEnv f).1 = lo := le_antisymm (r3 lo hlo).1 (hall _ r1).1
  have e2 : (Bins.range realEnv f).2 = hi := le_antisymm (hall _ r2).2 (r3 hi hhi).2
  simp only [cut_eq]
  unfold perturb
  rw [e1, e2]
  have hlM := hb lo hlo
  have hhM := hb hi hhi
  by_cases h : lo = hi
  · simp only [h, if_true] at hw ⊢
    obtain ⟨e, he1, he2⟩ := eps_eq
    rw [he1]
    rw [abs_le] at he2
    have hhM' := abs_le.mp hhM
    have hu := u_small
    have hu0 := u_pos
    have het := eta_tiny
    obtain ⟨a, ha1, ha2⟩ := sub_fin (a := hi) (b := e) (2 * M) (by linarith) (by rw [abs_le]; constructor <;> linarith)
    obtain ⟨c, hc1, hc2⟩ := add_fin (a := hi) (b := e) (2 * M) (by linarith) (by rw [abs_le]; constructor <;> linarith)
    rw [ha1, hc1]
    have hsm : u * (2 * M) + eta ≤ 1 / 10 ^ 6 := by nlinarith
    have ha3 := abs_le.mp (ha2.trans hsm)
    have hc3 := abs_le.mp (hc2.trans hsm)
    refine ends_ok (M := M + 1 / 100) (by linarith) ?_ ?_ (by linarith) ?_ hn0 ?_
    · rw [abs_le]; constructor <;> linarith
    · rw [abs_le]; constructor <;> linarith
    · nlinarith
    · rcases hw with hw | hw
      · exact Or.inl hw
      · right
        rw [le_div_iff₀ (by linarith)] at hw
        linarith
  · simp only [h, if_false] at hw ⊢
    refine ends_ok hM hlM hhM (lt_of_le_of_ne (hall hi hhi).1 h) (by linarith) hn0 ?_
    rcases hw with hw | hw
    · exact Or.inl hw
    · right; rw [le_div_iff₀ (by linarith)] at hw; linarith

end Miniboosts.FTree
