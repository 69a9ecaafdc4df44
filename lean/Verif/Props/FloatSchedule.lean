import Verif.Lemmas.Float
import Verif.Lemmas.Rayon
import Verif.Props.AdaBoost

/-! # Rounding: the schedule decides (C90) -/

namespace Miniboosts.Props

open Miniboosts F64

theorem rnd_near {x : ℝ} (e k : ℤ) (he : -1074 ≤ e) (h0 : |x| ≤ 1) (h1 : (2 : ℝ) ^ (e + 52) ≤ |x|) (h2 : |x| < 2 ^ (e + 53))
    (h : |x / 2 ^ e - k| < 1 / 2) : rnd x = fin (k * 2 ^ e) := by
  rw [rnd_fin (big_le (h0.trans (one_le_pow₀ (by norm_num)))), round_of_log he h1 h2, roundEven_eq_of_lt h]

theorem rnd_tie {x : ℝ} (e k : ℤ) (he : -1074 ≤ e) (h0 : |x| ≤ 1) (h1 : (2 : ℝ) ^ (e + 52) ≤ |x|) (h2 : |x| < 2 ^ (e + 53))
    (h : x / 2 ^ e = k + 1 / 2) : rnd x = fin ((if Even k then k else k + 1 : ℤ) * 2 ^ e) := by
  rw [rnd_fin (big_le (h0.trans (one_le_pow₀ (by norm_num)))), round_of_log he h1 h2, roundEven_tie _ h]

/-- The `f64` next to `1/10`. -/
noncomputable def tenth : ℝ := 7205759403792794 / 2 ^ 56

theorem rnd_tenth : div (fin 1) (fin 10) = fin tenth := by
  have : rnd (1 / 10) = fin (((7205759403792794 : ℤ) : ℝ) * 2 ^ (-56 : ℤ)) :=
    rnd_near _ _ (by norm_num) (by norm_num) (by norm_num [abs_of_pos]) (by norm_num [abs_of_pos]) (by norm_num [abs_lt])
  simp only [div, show (10 : ℝ) ≠ 0 by norm_num, if_false, this]
  congr 1

theorem rnd_exact {k j : ℤ} {x : ℝ} (hk : |k| < 2 ^ 53) (hj : -1074 ≤ j) (hx : x = (k : ℝ) * 2 ^ j) (h0 : |x| ≤ 1) : rnd x = fin x := by
  rw [rnd_fin (big_le (h0.trans (one_le_pow₀ (by norm_num))))]
  rw [hx, round_exact hk hj]

theorem mul_tenth : mul (fin 1) (fin tenth) = fin tenth := by
  simp only [mul, one_mul]
  exact rnd_exact (k := 7205759403792794) (j := -56) (by norm_num) (by norm_num) (by norm_num [tenth]) (by norm_num [tenth, abs_le])

theorem add_zero_tenth : add (fin 0) (fin tenth) = fin tenth := by
  simp only [add, zero_add]
  exact rnd_exact (k := 7205759403792794) (j := -56) (by norm_num) (by norm_num) (by norm_num [tenth]) (by norm_num [tenth, abs_le])

theorem add1 : add (fin tenth) (fin tenth) = fin (7205759403792794 / 2 ^ 55) := by
  simp only [add]
  rw [rnd_exact (k := 7205759403792794) (j := -55) (by norm_num) (by norm_num) (by norm_num [tenth]) (by norm_num [tenth, abs_le])]
  congr 1; norm_num [tenth]

theorem add2 : add (fin (7205759403792794 / 2 ^ 55)) (fin tenth) = fin (5404319552844596 / 2 ^ 54) := by
  simp only [add]
  rw [rnd_tie (-54) 5404319552844595 (by norm_num) (by norm_num [tenth, abs_le]) (by norm_num [tenth, abs_of_pos]) (by norm_num [tenth, abs_of_pos])
    (by norm_num [tenth])]
  rw [if_neg (by decide)]
  congr 1

theorem add3 : add (fin (5404319552844596 / 2 ^ 54)) (fin tenth) = fin (7205759403792794 / 2 ^ 54) := by
  simp only [add]
  rw [rnd_tie (-54) 7205759403792794 (by norm_num) (by norm_num [tenth, abs_le]) (by norm_num [tenth, abs_of_pos]) (by norm_num [tenth, abs_of_pos])
    (by norm_num [tenth])]
  rw [if_pos (by decide)]
  congr 1

theorem add_near {a c : ℝ} (e k : ℤ) (he : -1074 ≤ e) (h0 : |a + tenth| ≤ 1) (h1 : (2 : ℝ) ^ (e + 52) ≤ |a + tenth|)
    (h2 : |a + tenth| < 2 ^ (e + 53)) (h : |(a + tenth) / 2 ^ e - k| < 1 / 2) (hc : (k : ℝ) * 2 ^ e = c) : add (fin a) (fin tenth) = fin c := by
  simp only [add]
  rw [rnd_near e k he h0 h1 h2 h, hc]

theorem add4 : add (fin (7205759403792794 / 2 ^ 54)) (fin tenth) = fin (1 / 2) :=
  add_near (-53) 4503599627370496 (by norm_num) (by norm_num [tenth, abs_le]) (by norm_num [tenth, abs_of_pos]) (by norm_num [tenth, abs_of_pos])
    (by norm_num [tenth, abs_lt]) (by norm_num)

theorem add5 : add (fin (1 / 2)) (fin tenth) = fin (5404319552844595 / 2 ^ 53) :=
  add_near (-53) 5404319552844595 (by norm_num) (by norm_num [tenth, abs_le]) (by norm_num [tenth, abs_of_pos]) (by norm_num [tenth, abs_of_pos])
    (by norm_num [tenth, abs_lt]) (by norm_num)

theorem add6 : add (fin (5404319552844595 / 2 ^ 53)) (fin tenth) = fin (6305039478318694 / 2 ^ 53) :=
  add_near (-53) 6305039478318694 (by norm_num) (by norm_num [tenth, abs_le]) (by norm_num [tenth, abs_of_pos]) (by norm_num [tenth, abs_of_pos])
    (by norm_num [tenth, abs_lt]) (by norm_num)

theorem add7 : add (fin (6305039478318694 / 2 ^ 53)) (fin tenth) = fin (7205759403792793 / 2 ^ 53) :=
  add_near (-53) 7205759403792793 (by norm_num) (by norm_num [tenth, abs_le]) (by norm_num [tenth, abs_of_pos]) (by norm_num [tenth, abs_of_pos])
    (by norm_num [tenth, abs_lt]) (by norm_num)

theorem add8 : add (fin (7205759403792793 / 2 ^ 53)) (fin tenth) = fin (8106479329266892 / 2 ^ 53) :=
  add_near (-53) 8106479329266892 (by norm_num) (by norm_num [tenth, abs_le]) (by norm_num [tenth, abs_of_pos]) (by norm_num [tenth, abs_of_pos])
    (by norm_num [tenth, abs_lt]) (by norm_num)

theorem add9 : add (fin (8106479329266892 / 2 ^ 53)) (fin tenth) = fin (9007199254740991 / 2 ^ 53) :=
  add_near (-53) 9007199254740991 (by norm_num) (by norm_num [tenth, abs_le]) (by norm_num [tenth, abs_of_pos]) (by norm_num [tenth, abs_of_pos])
    (by norm_num [tenth, abs_lt]) (by norm_num)

theorem add_halves : add (fin (1 / 2)) (fin (1 / 2)) = fin 1 := by
  simp only [add]
  rw [rnd_exact (k := 1) (j := 0) (by norm_num) (by norm_num) (by norm_num) (by norm_num)]
  congr 1; norm_num

/-- Ten tenths added up by one thread. -/
theorem ten_tenths_seq : (List.replicate 10 (fin tenth)).foldl add (fin 0) = fin (9007199254740991 / 2 ^ 53) := by
  simp only [List.replicate, List.foldl, add_zero_tenth, add1, add2, add3, add4, add5, add6, add7, add8, add9]

theorem five_tenths : (List.replicate 5 (fin tenth)).foldl add (fin 0) = fin (1 / 2) := by
  simp only [List.replicate, List.foldl, add_zero_tenth, add1, add2, add3, add4]

/-- Ten examples, five of each label. -/
def exTen : Examples Nat ℝ := (List.range 10).map fun i => (i, if i < 5 then 1 else -1)

/-- The hypothesis that answers with the label. -/
def exPerfect : Fn Nat F64 := ⟨fun i => if i < 5 then fin 1 else fin (-1)⟩

theorem exTen_valid : checkBinary exTen = .ok () := by
  have h1 : ⌊(1 : ℝ)⌋ = 1 := by norm_num
  have h2 : ⌈(-1 : ℝ)⌉ = -1 := by norm_num
  have h3 : ¬ (0 : ℝ) ≤ -1 := by norm_num
  simp [checkBinary, isValidBinary, exTen, trunc, asI32, List.range, List.range.loop, h1, h2, h3]

theorem rnd_one : rnd 1 = fin 1 := rnd_exact (k := 1) (j := 0) (by norm_num) (by norm_num) (by norm_num) (by norm_num)

theorem exTen_margins : F64.margins exTen exPerfect = List.replicate 10 (fin 1) := by
  have hm : mul (fin 1) (fin 1) = fin 1 := by simp [mul, rnd_one]
  have hn : mul (fin (-1)) (fin (-1)) = fin 1 := by simp [mul, rnd_one]
  simp [F64.margins, exTen, exPerfect, conf, List.range, List.range.loop, hm, hn, List.replicate]

theorem exTen_items : List.zipWith mul (F64.margins exTen exPerfect) (List.replicate 10 (fin tenth)) = List.replicate 10 (fin tenth) := by
  simp [exTen_margins, mul_tenth]

/-- C90: what one thread computes for the edge of the perfect hypothesis, and what two threads compute. -/
theorem edge_depends_on_schedule :
    Inner (F64.margins exTen exPerfect) (List.replicate 10 (fin tenth)) (fin (9007199254740991 / 2 ^ 53)) ∧
    Inner (F64.margins exTen exPerfect) (List.replicate 10 (fin tenth)) (fin 1) := by
  constructor
  · exact ⟨.seq (List.replicate 10 (fin tenth)), exTen_items.symm, ten_tenths_seq.symm⟩
  · refine ⟨.join (.seq (List.replicate 5 (fin tenth))) (.seq (List.replicate 5 (fin tenth))), exTen_items.symm, ?_⟩
    simp only [Split.sum, Split.foldWith, five_tenths, add_halves]

/-- A total order that agrees with `<=` on everything but NaN. -/
noncomputable def key : F64 → EReal
  | nan => ⊥
  | inf true => ⊥
  | inf false => ⊤
  | fin x => (x : EReal)

theorem le_of_key {a b : F64} (ha : a ≠ nan) (hb : b ≠ nan) (h : key a ≤ key b) : F64.Le a b := by
  rcases a with _ | ⟨_ | _⟩ | _ <;> rcases b with _ | ⟨_ | _⟩ | _ <;> simp_all [key, F64.Le]

/-- Without NaN among the entries the sorting succeeds. -/
theorem exists_sortedIdx {v : List F64} (hv : nan ∉ v) : ∃ idx, SortedIdx v idx := by
  obtain ⟨idx, hp, hs⟩ := exists_sortedIndices (v.map key)
  refine ⟨idx, by simpa using hp, hs.imp fun {i j} h a b ha hb => ?_⟩
  refine le_of_key (fun h => hv (h ▸ List.mem_of_getElem? ha)) (fun h => hv (h ▸ List.mem_of_getElem? hb)) (h _ _ ?_ ?_)
  · simp [List.getElem?_map, ha]
  · simp [List.getElem?_map, hb]

variable {H X : Type*} [Classifier H X F64]

theorem exists_parUpdate {α β : Type*} (f : α → β → α) (v : List α) (w : List β) : ∃ r, ParUpdate f v w r := ⟨_, (parUpdate_iff _ _ _ _).mpr rfl⟩

theorem exists_reweight (L : Libm) (dist ms : List F64) (w : F64) : ∃ r, Reweight L dist ms w r := by
  obtain ⟨l, hl⟩ := exists_parUpdate (fun d p => sub (ln L d) (mul w p)) dist ms
  by_cases hn : 2 ≤ l.length ∧ nan ∈ l
  · exact ⟨_, l, hl, by rw [if_pos hn]⟩
  · have : ∃ idx, SortedIdx l idx := by
      by_cases hm : nan ∈ l
      · have hlen : l.length < 2 := by by_contra hc; exact hn ⟨by omega, hm⟩
        refine ⟨List.range l.length, .refl _, ?_⟩
        have : l.length = 0 ∨ l.length = 1 := by omega
        rcases this with h | h <;> simp [h, List.range, List.range.loop]
      · exact exists_sortedIdx hm
    obtain ⟨idx, hidx⟩ := this
    cases hz : normalizer L l idx with
    | none => exact ⟨_, l, hl, by rw [if_neg hn]; exact ⟨idx, hidx, by rw [hz]⟩⟩
    | some z =>
      exact ⟨.ok _, l, hl, by rw [if_neg hn]; exact ⟨idx, hidx, by rw [hz]; exact ⟨_, (parMap_iff _ _ _).mpr rfl, rfl⟩⟩⟩

/-- Every call of `boost` has a result. -/
theorem exists_boost (L : Libm) (S : Examples X ℝ) (s : AdaBoostF H) (wl : WeakLearner F64 H) (it : Nat) : ∃ r, AdaBoostF.Boost L S s wl it r := by
  unfold AdaBoostF.Boost
  split
  · exact ⟨_, rfl⟩
  · obtain ⟨e, he⟩ : ∃ e, Inner (F64.margins S (wl it s.dist)) s.dist e := ⟨_, .seq _, rfl, rfl⟩
    by_cases h : F64.Le (fin 1) e.abs
    · exact ⟨_, e, he, Or.inl ⟨h, rfl⟩⟩
    · obtain ⟨d, hd⟩ := exists_reweight L s.dist (F64.margins S (wl it s.dist)) (F64.hypWeight L e)
      exact ⟨_, e, he, Or.inr ⟨h, d, hd, rfl⟩⟩

theorem boost_queries {L : Libm} {S : Examples X ℝ} {s : AdaBoostF H} {wl : WeakLearner F64 H} {it : Nat} {out : BoostOut (AdaBoostF H) F64}
    (h : AdaBoostF.Boost L S s wl it (.ok out)) :
    out.state.maxIter = s.maxIter ∧ (it ≤ s.maxIter → out.queries = [s.dist]) ∧ (s.maxIter < it → out.flow = .brk s.maxIter) := by
  unfold AdaBoostF.Boost at h
  split at h
  · cases h; exact ⟨rfl, fun hc => by omega, fun _ => rfl⟩
  · rename_i hi
    obtain ⟨e, -, ⟨-, h⟩ | ⟨-, d, -, h⟩⟩ := h
    · cases h; exact ⟨rfl, fun _ => rfl, fun hc => by omega⟩
    · cases d with
      | error e => cases h
      | ok d => cases h; exact ⟨rfl, fun _ => rfl, fun hc => by omega⟩

/-- The loop ends, whatever the schedule. -/
theorem exists_loop (L : Libm) (S : Examples X ℝ) (wl : WeakLearner F64 H) :
    ∀ (k : Nat) (s : AdaBoostF H) (it : Nat), s.maxIter + 1 - it = k → ∃ r, (AdaBoostF.booster L S).Loop wl s it r := by
  intro k
  induction k with
  | zero =>
    intro s it hk
    obtain ⟨r, hr⟩ := exists_boost L S s wl it
    cases r with
    | error e => exact ⟨_, .panic hr⟩
    | ok out => exact ⟨_, .stop hr ((boost_queries hr).2.2 (by omega))⟩
  | succ k ih =>
    intro s it hk
    obtain ⟨r, hr⟩ := exists_boost L S s wl it
    cases r with
    | error e => exact ⟨_, .panic hr⟩
    | ok out =>
      cases hf : out.flow with
      | brk n => exact ⟨_, .stop hr hf⟩
      | cont =>
        obtain ⟨r, h⟩ := ih out.state (it + 1) (by rw [(boost_queries hr).1]; omega)
        exact ⟨_, .next hr hf h⟩

theorem loop_queries {L : Libm} {S : Examples X ℝ} {wl : WeakLearner F64 H} {s s' : AdaBoostF H} {it : Nat} {qs : List (List F64)}
    (h : (AdaBoostF.booster L S).Loop wl s it (.ok (s', qs))) (hi : it ≤ s.maxIter) : 1 ≤ qs.length := by
  generalize hr : (Except.ok (s', qs) : Except Panic _) = r at h
  cases h with
  | panic h => cases hr
  | stop h hf => cases hr; rw [(boost_queries h).2.1 hi]; simp
  | @next _ _ out r h hf hl =>
    cases r with
    | error e => cases hr
    | ok p => cases hr; rw [(boost_queries h).2.1 hi]; simp

/-- C90 is false of the code: AdaBoost with default parameters on ten examples, with a learner that knows the labels.  When two threads
share the first sum evenly, the perfect hypothesis is recognised and returned after one call of the learner; when one thread does it,
the edge is rounded to a number below one and the learner is called again. -/
theorem adaboost_float_schedule_dependent (L : Libm) :
    (AdaBoostF.booster L exTen).Runs (fun _ _ => exPerfect) (AdaBoostF.init exTen)
      (.ok ({ weights := [fin 1], hypotheses := [exPerfect] }, [List.replicate 10 (fin tenth)])) ∧
    ∃ r, (AdaBoostF.booster L exTen).Runs (fun _ _ => exPerfect) (AdaBoostF.init exTen) r ∧ ∀ f qs, r = .ok (f, qs) → 2 ≤ qs.length := by
  obtain ⟨s₁, hp, hd, hm⟩ : ∃ s₁, AdaBoostF.preprocess exTen (AdaBoostF.init (H := Fn Nat F64) exTen) = .ok s₁ ∧
      s₁.dist = List.replicate 10 (fin tenth) ∧ 2 ≤ s₁.maxIter := by
    unfold AdaBoostF.preprocess
    rw [exTen_valid]
    refine ⟨_, rfl, ?_, ?_⟩
    · simp only [exTen, List.length_map, List.length_range, Nat.cast_ofNat, rnd_tenth]
    · simp only [AdaBoostF.init, exTen, List.length_map, List.length_range]
      apply Nat.le_floor
      have h2 := Real.log_two_gt_d9
      have h3 : Real.log 2 ≤ Real.log 10 := Real.log_le_log (by norm_num) (by norm_num)
      norm_num
      linarith
  have hm1 : ¬ s₁.maxIter < 1 := by omega
  obtain ⟨he1, he2⟩ := edge_depends_on_schedule
  constructor
  · have hpost : fromSlices [AdaBoostF.signum (fin 1)] [exPerfect] = .ok { weights := [fin 1], hypotheses := [exPerfect] } := by
      have h1 : AdaBoostF.signum (fin 1) = fin 1 := by unfold AdaBoostF.signum; rw [if_pos (show F64.Le (fin 0) (fin 1) from zero_le_one)]
      have h2 : F64.Lt (fin 0) (fin 1) := zero_lt_one
      have h3 : add (fin 0) (fin 1) = fin 1 := by simp [add, rnd_one]
      have h4 : div (fin 1) (fin 1) = fin 1 := by simp [div, rnd_one]
      have h5 : (fin 1 : F64) ≠ fin 0 := by simp
      rw [h1]
      have h6 : F64.normalize [fin 1] = .ok [fin 1] := by
        have hz : ([fin 1].map F64.abs).foldl add (fin 0) = fin 1 := by simp [F64.abs, h3]
        have hne : ([fin 1].map F64.abs).foldl add (fin 0) ≠ fin 0 := by rw [hz]; exact h5
        unfold F64.normalize
        refine (if_neg hne).trans ?_
        rw [hz]
        simp [h4]
      have hk : ([fin 1].zip [exPerfect]).filter (fun p => @decide (F64.Lt (fin 0) p.1) (Classical.propDecidable _)) = [(fin 1, exPerfect)] := by
        simp [h2]
      simp only [F64.fromSlices, hk, List.map_cons, List.map_nil, h6, Except.map]
    have hb : AdaBoostF.Boost L exTen s₁ (fun _ _ => exPerfect) 1
        (.ok ⟨{ s₁ with terminated := 1, weights := [AdaBoostF.signum (fin 1)], hypotheses := [exPerfect] }, .brk 1, [s₁.dist]⟩) := by
      unfold AdaBoostF.Boost
      rw [if_neg hm1]
      refine ⟨fin 1, hd ▸ he2, Or.inl ⟨?_, rfl⟩⟩
      show (1 : ℝ) ≤ |1|
      simp
    have hl : (AdaBoostF.booster L exTen).Loop (fun _ _ => exPerfect) s₁ 1 _ := .stop hb rfl
    rw [hd] at hl
    exact .ok hp hl hpost
  · obtain ⟨d, hrw⟩ := exists_reweight L s₁.dist (F64.margins exTen exPerfect) (F64.hypWeight L (fin (9007199254740991 / 2 ^ 53)))
    have hb : ∀ r, r = d.map (fun dist' => ({ state := { s₁ with dist := dist', weights := s₁.weights ++ [F64.hypWeight L (fin (9007199254740991 / 2 ^ 53))], hypotheses := s₁.hypotheses ++ [exPerfect] }, flow := .cont, queries := [s₁.dist] } : BoostOut (AdaBoostF (Fn Nat F64)) F64)) →
        AdaBoostF.Boost L exTen s₁ (fun _ _ => exPerfect) 1 r := by
      intro r hr
      unfold AdaBoostF.Boost
      rw [if_neg hm1]
      refine ⟨fin (9007199254740991 / 2 ^ 53), hd ▸ he1, Or.inr ⟨?_, d, hrw, hr⟩⟩
      show ¬ (1 : ℝ) ≤ |9007199254740991 / 2 ^ 53|
      rw [abs_of_pos (by norm_num)]
      norm_num
    cases d with
    | error e => exact ⟨.error e, .loop hp (.panic (hb _ rfl)), fun f qs h => by cases h⟩
    | ok d =>
      have hb := hb (.ok _) rfl
      obtain ⟨r, hr⟩ := exists_loop L exTen (fun _ _ => exPerfect) _ _ 2 rfl
      have hl := ParBooster.Loop.next (B := AdaBoostF.booster L exTen) (s := s₁) (it := 1) (wl := fun _ _ => exPerfect) hb rfl hr
      cases r with
      | error e => exact ⟨.error e, .loop hp hl, fun f qs h => by cases h⟩
      | ok p =>
        obtain ⟨s', qs⟩ := p
        have hq : 1 ≤ qs.length := loop_queries hr hm
        cases ho : (AdaBoostF.booster L exTen).postprocess s' with
        | error e => exact ⟨.error e, .post hp hl ho, fun f qs h => by cases h⟩
        | ok o =>
          refine ⟨_, .ok hp hl ho, fun f qs' h => ?_⟩
          cases h
          simp only [List.length_append, List.length_cons, List.length_nil]
          omega

end Miniboosts.Props
