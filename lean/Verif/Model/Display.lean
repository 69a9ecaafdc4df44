import Verif.Model.DecisionTree
import Verif.Model.RegressionTree
import Mathlib.Data.Nat.Log

/-! # Printing tree learners: `Display` and `info`

The text of a number (`{x: >.2}` in decision trees, `{x: >.1}` in regression trees) is a parameter `fmt1`.  The columns come in the order in which the hash map is traversed (`order`). -/

namespace Miniboosts

/-- Spaces. -/
def spaces (n : Nat) : String := String.ofList (List.replicate n ' ')

/-- `{s: >w$}` (width counted in characters), `src/weak_learner/decision_tree/bin.rs:472`. -/
def padLeft (w : Nat) (s : String) : String := spaces (w - s.length) ++ s

/-- `{s: <w$}`, `src/weak_learner/decision_tree/decision_tree_algorithm.rs:301`. -/
def padRight (w : Nat) (s : String) : String := s ++ spaces (w - s.length)

variable {K : Type*} [Field K] [LinearOrder K]

/-- The sign in `Display for Bin`, `src/weak_learner/decision_tree/bin.rs:448-454` and 461-467. -/
def Bin.sgn (x : K) : String := if 0 < x then "+" else if x < 0 then "-" else " "

/-- `Display for Bin`, `src/weak_learner/decision_tree/bin.rs:442-474` and `src/weak_learner/regression_tree/bin.rs:318-350`. -/
def Bin.display (fmt1 : K → String) (env : TreeEnv K) (b : Bin K) : String :=
  let start := if b.start = env.fmin then "-Inf" else Bin.sgn b.start ++ fmt1 |b.start|
  let stop := if b.stop = env.fmax then "+Inf" else Bin.sgn b.stop ++ fmt1 |b.stop|
  "[" ++ padLeft 8 start ++ ", " ++ padLeft 8 stop ++ ")"

/-- `Display for Bins`, `src/weak_learner/decision_tree/bin.rs:419-439` and `src/weak_learner/regression_tree/bin.rs:295-315`. -/
def Bins.display (fmt1 : K → String) (env : TreeEnv K) (bins : List (Bin K)) : Except Panic String :=
  if 3 < bins.length then
    match bins.getLast? with
    | none => .error .unwrapNone
    | some b => .ok (", ".intercalate ((bins.take 2).map (Bin.display fmt1 env)) ++ ", ... , " ++ Bin.display fmt1 env b)
  else .ok (", ".intercalate (bins.map (Bin.display fmt1 env)))

/-- The `for` loop of `Display for DecisionTree`, `src/weak_learner/decision_tree/decision_tree_algorithm.rs:296-306` (for `RegressionTree`
`src/weak_learner/regression_tree/regression_tree_algorithm.rs:239-249`). -/
def Bins.displayLines (fmt1 : K → String) (env : TreeEnv K) (width binWidth : Nat) : List (String × List (Bin K)) → Except Panic (List String)
  | [] => .ok []
  | (name, bins) :: rest =>
    match Bins.display fmt1 env bins with
    | .error e => .error e
    | .ok text =>
      match Bins.displayLines fmt1 env width binWidth rest with
      | .error e => .error e
      | .ok lines => .ok (("\t* [" ++ padRight width name ++ " | " ++ padLeft binWidth (toString bins.length) ++ " bins]  " ++ text ++ "\n") :: lines)

/-- `Display for DecisionTree`, `src/weak_learner/decision_tree/decision_tree_algorithm.rs:287-306` (for `RegressionTree`
`src/weak_learner/regression_tree/regression_tree_algorithm.rs:230-249`): `expect` on the maximum of no keys, `ilog10` of zero. -/
def Bins.displayAll (fmt1 : K → String) (env : TreeEnv K) (order : List (String × List (Bin K))) : Except Panic (List String) :=
  match (order.map fun p => p.1.utf8ByteSize).max? with
  | none => .error .unwrapNone
  | some width =>
    if order.any fun p => p.2.length = 0 then .error .arith
    else
      match (order.map fun p => Nat.log 10 p.2.length).max? with
      | none => .error .unwrapNone
      | some w => Bins.displayLines fmt1 env width (w + 1) order

/-- `Display for Criterion`, `src/weak_learner/decision_tree/criterion.rs:88-99`. -/
def Criterion.display : Criterion → String
  | .entropy => "Entropy"
  | .edge => "Edge (Weighted accuracy)"
  | .gini => "Gini index"
  | .twoing => "Twoing Rule"

/-- `Display for DecisionTree`, `src/weak_learner/decision_tree/decision_tree_algorithm.rs:271-309`. -/
def DecisionTree.display (fmt1 : K → String) (env : TreeEnv K) (t : DecisionTree K) (order : List (String × List (Bin K))) : Except Panic String :=
  match Bins.displayAll fmt1 env order with
  | .error e => .error e
  | .ok lines =>
    .ok ("----------\n# Decision Tree Weak Learner\n\n- Max depth: " ++ toString t.maxDepth ++ "\n- Splitting criterion: " ++ t.criterion.display ++
      "\n- Bins:\n" ++ String.join lines ++ "----------")

/-- `Display for RegressionTree`, `src/weak_learner/regression_tree/regression_tree_algorithm.rs:212-252`; the name of the loss is a parameter. -/
def RegressionTree.display (fmt1 : K → String) (env : TreeEnv K) (lossName : String) (t : RegressionTree K) (order : List (String × List (Bin K))) :
    Except Panic String :=
  match Bins.displayAll fmt1 env order with
  | .error e => .error e
  | .ok lines =>
    .ok ("----------\n# Decision Tree Weak Learner\n\n- Max depth: " ++ toString t.maxDepth ++ "\n- Loss function: " ++ lossName ++
      "\n- Bins:\n" ++ String.join lines ++ "----------")

/-- The largest number of bins in `info`, `src/weak_learner/decision_tree/decision_tree_algorithm.rs:174-177` and
`src/weak_learner/regression_tree/regression_tree_algorithm.rs:171-174`: `reduce(usize::max).unwrap_or(0)`. -/
def Bins.largest (order : List (String × List (Bin K))) : Nat :=
  match order.map fun p => p.2.length with
  | [] => 0
  | a :: l => l.foldl max a

end Miniboosts
