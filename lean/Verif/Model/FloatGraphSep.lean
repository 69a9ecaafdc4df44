import Verif.Model.Float
import Verif.Model.GraphSepBoost

/-! # GraphSepBoost in `f64`: `src/booster/graph_separation_boosting/graph_separation_algorithm.rs`

The graph, its degrees and their sum are integers (`usize`), also in the code; the only `f64` values are the weights handed to the weak
learner and the confidences, of which only the signs are used. -/

namespace Miniboosts

open F64

variable {H X : Type*}

open Classical in
/-- `Classifier::predict`, `src/hypothesis/hypothesis_traits.rs:15-18`, for a hypothesis with `f64` confidences. -/
noncomputable def predictF [Classifier H X F64] (h : H) (x : X) : Int := if Le (fin 0) (conf h x) then 1 else -1

namespace GraphSepF

/-- `GraphSepBoost::update_params`, `src/booster/graph_separation_boosting/graph_separation_algorithm.rs:129-141`, with
`Classifier::predict_all`, `src/hypothesis/hypothesis_traits.rs:29-33`. -/
noncomputable def updateParams [Classifier H X F64] (S : Examples X ℝ) (E : List (Finset Nat)) (h : H) : List (Finset Nat) :=
  let predictions := S.map fun e => predictF h e.1
  (GraphSepBoost.pairs S.length).foldl
    (fun E p => if predictions[p.1]? ≠ predictions[p.2]? then
        (E.modify p.1 (fun s => s.erase p.2)).modify p.2 (fun s => s.erase p.1) else E) E

/-- `edge.len() as f64 / self.n_edges as f64`, `src/booster/graph_separation_boosting/graph_separation_algorithm.rs:209-211`: both
conversions round. -/
noncomputable def weight (degree total : Nat) : F64 := div (rnd (degree : ℝ)) (rnd (total : ℝ))

/-- `Booster::boost` of GraphSepBoost, `src/booster/graph_separation_boosting/graph_separation_algorithm.rs:197-229`, in `f64`. -/
noncomputable def boost [Classifier H X F64] (S : Examples X ℝ) (s : GraphSepBoost H) (wl : WeakLearner F64 H) (iteration : Nat) :
    Except Panic (BoostOut (GraphSepBoost H) F64) :=
  if s.nEdges = 0 then .ok { state := s, flow := .brk iteration, queries := [] }
  else
    let dist := s.edges.map fun e => weight e.card s.nEdges
    let h := wl iteration dist
    let edges := updateParams S s.edges h
    let hypotheses := s.hypotheses ++ [h]
    let nEdges := GraphSepBoost.countEdges edges
    if s.nEdges = nEdges then
      .ok { state := { s with edges := edges, hypotheses := hypotheses }, flow := .brk (iteration + 1), queries := [dist] }
    else
      .ok { state := { edges := edges, hypotheses := hypotheses, nEdges := nEdges }, flow := .cont, queries := [dist] }

/-- `NaiveAggregation::new`, `src/hypothesis/naive_aggregation.rs:55-83`, in `f64`. -/
noncomputable def aggregate [Classifier H X F64] (hypotheses : List H) (S : Examples X ℝ) : NaiveAggregation H :=
  { hypotheses := hypotheses
    prediction := (S.filter (fun e => decide (0 < e.2))).map fun e => hypotheses.map fun h => decide (0 < predictF h e.1) }

/-- `impl Classifier for NaiveAggregation`, `src/hypothesis/naive_aggregation.rs:106-123`, followed by `predict`, in `f64`. -/
noncomputable def predict [Classifier H X F64] (f : NaiveAggregation H) (x : X) : Int :=
  let bits := f.hypotheses.map fun h => decide (predictF h x = 1)
  let confidence : F64 := if f.prediction.any (fun p => p == bits) then fin 1 else fin (-1)
  open Classical in if Le (fin 0) confidence then 1 else -1

/-- `impl Booster for GraphSepBoost`, `src/booster/graph_separation_boosting/graph_separation_algorithm.rs:145-241`, in `f64`.
`preprocess` computes with integers and compares labels; it is the one of the exact model. -/
noncomputable def booster [Classifier H X F64] (S : Examples X ℝ) : Booster (GraphSepBoost H) F64 H (NaiveAggregation H) where
  preprocess s _ := GraphSepBoost.preprocess S s
  boost := boost S
  postprocess s := .ok (aggregate s.hypotheses S)

end GraphSepF

end Miniboosts
