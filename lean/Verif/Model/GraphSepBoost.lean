import Verif.Model.Utils
import Verif.Model.Label
import Mathlib.Data.Finset.Card

/-! # `src/booster/graph_separation_boosting/graph_separation_algorithm.rs` -/

namespace Miniboosts

variable {K : Type*} [Field K] [LinearOrder K] [FloorRing K] {H X : Type*}

/-- The fields of `GraphSepBoost`,
`src/booster/graph_separation_boosting/graph_separation_algorithm.rs:83-98`.
`HashSet<usize>` is `Finset Nat` (iteration order is never observed). -/
structure GraphSepBoost (H : Type*) where
  edges : List (Finset Nat)
  hypotheses : List H
  nEdges : Nat

namespace GraphSepBoost

/-- `GraphSepBoost::init`, `src/booster/graph_separation_boosting/graph_separation_algorithm.rs:106-113`. -/
def init : GraphSepBoost H := { edges := [], hypotheses := [], nEdges := 2 ^ 64 - 1 }

/-- The index pairs visited by `for i in 0..n { for j in i+1..n { .. } }`,
`src/booster/graph_separation_boosting/graph_separation_algorithm.rs:133-134, 180-181`. -/
def pairs (n : Nat) : List (Nat × Nat) :=
  (List.range n).flatMap fun i => (List.range' (i + 1) (n - (i + 1))).map fun j => (i, j)

/-- The double loop of `preprocess`,
`src/booster/graph_separation_boosting/graph_separation_algorithm.rs:179-187`.
All indices are in range, so comparing `target[i]` with `target[j]` is comparing the options. -/
def buildEdges (target : List K) : List (Finset Nat) :=
  (pairs target.length).foldl
    (fun E p => if target[p.1]? ≠ target[p.2]? then
        (E.modify p.1 (insert p.2)).modify p.2 (insert p.1) else E)
    (List.replicate target.length ∅)

/-- `GraphSepBoost::update_params`,
`src/booster/graph_separation_boosting/graph_separation_algorithm.rs:129-141`. -/
def updateParams [Classifier H X K] (S : Examples X K) (E : List (Finset Nat)) (h : H) :
    List (Finset Nat) :=
  let predictions := predictAll (K := K) h (S.map Prod.fst)
  (pairs S.length).foldl
    (fun E p => if predictions[p.1]? ≠ predictions[p.2]? then
        (E.modify p.1 (fun s => s.erase p.2)).modify p.2 (fun s => s.erase p.1) else E) E

/-- `self.edges.iter().map(|edges| edges.len()).sum()`,
`src/booster/graph_separation_boosting/graph_separation_algorithm.rs:189-192, 216-219`. -/
def countEdges (E : List (Finset Nat)) : Nat := (E.map Finset.card).sum

/-- `Booster::preprocess` of GraphSepBoost,
`src/booster/graph_separation_boosting/graph_separation_algorithm.rs:166-194`. -/
def preprocess (S : Examples X K) (_s : GraphSepBoost H) : Except Panic (GraphSepBoost H) :=
  match checkBinary S with
  | .error e => .error e
  | .ok () =>
    let edges := buildEdges (S.map Prod.snd)
    .ok { edges := edges, nEdges := countEdges edges, hypotheses := [] }

/-- `Booster::boost` of GraphSepBoost,
`src/booster/graph_separation_boosting/graph_separation_algorithm.rs:197-229`. -/
def boost [Classifier H X K] (S : Examples X K) (s : GraphSepBoost H) (wl : WeakLearner K H)
    (iteration : Nat) : Except Panic (BoostOut (GraphSepBoost H) K) :=
  if s.nEdges = 0 then .ok { state := s, flow := .brk iteration, queries := [] }
  else
    let dist := s.edges.map fun e => (e.card : K) / (s.nEdges : K)
    let h := wl iteration dist
    let edges := updateParams S s.edges h
    let hypotheses := s.hypotheses ++ [h]
    let nEdges := countEdges edges
    if s.nEdges = nEdges then
      .ok { state := { s with edges := edges, hypotheses := hypotheses },
            flow := .brk (iteration + 1), queries := [dist] }
    else
      .ok { state := { edges := edges, hypotheses := hypotheses, nEdges := nEdges },
            flow := .cont, queries := [dist] }

/-- `Booster::postprocess` and `current_hypothesis`,
`src/booster/graph_separation_boosting/graph_separation_algorithm.rs:232-240, 248-250`. -/
def postprocess [Classifier H X K] (S : Examples X K) (s : GraphSepBoost H) :
    Except Panic (NaiveAggregation H) :=
  .ok (NaiveAggregation.new s.hypotheses S)

/-- `impl Booster for GraphSepBoost`,
`src/booster/graph_separation_boosting/graph_separation_algorithm.rs:145-241`. -/
def booster [Classifier H X K] (S : Examples X K) : Booster (GraphSepBoost H) K H (NaiveAggregation H) where
  preprocess s _ := preprocess S s
  boost := boost S
  postprocess := postprocess S

end GraphSepBoost

end Miniboosts
