import Verif.Model.Core

/-! # Logging: `src/research/logger.rs`, `src/research/logger_builder.rs`

The clock and the disk are parameters (`World`).  Not modelled: the text of the printed lines and of the file (a line of
the file is the record of the four numbers it shows), partial writes.  The accumulated time is a natural number (`u128` of
milliseconds in the code). -/

namespace Miniboosts

/-- `usize::MAX` on 64-bit targets. -/
def usizeMax : Nat := 2 ^ 64 - 1

/-- `u128::MAX`. -/
def u128Max : Nat := 2 ^ 128 - 1

/-- The outside world during one run of a logger: how long (in milliseconds) the `k`-th call of `boost` takes, whether the
log file can be created, whether its header and its `k`-th line can be written. -/
structure World where
  elapsed : Nat → Nat
  createOk : Bool
  headerOk : Bool
  writeOk : Nat → Bool

/-- A line of the log file, `src/research/logger.rs:254`. -/
structure LogLine (K : Type*) where
  obj : K
  train : K
  test : K
  time : Nat
  deriving DecidableEq, Repr

/-- What a run prints: settings, header, and lines marked `[LOG]`, `[FIN]`, `[TLE]` with their iteration,
`src/research/logger.rs:228, 236, 258-268, 272-282, 285-295`. -/
inductive Printed where
  | stats
  | header
  | log (iter : Nat)
  | fin (iter : Nat)
  | tle (iter : Nat)
  deriving DecidableEq, Repr

/-- `Logger`, `src/research/logger.rs:29-38`, without the weak learner.  `current` is `Research::current_hypothesis`,
`src/research/logger.rs:328-336`; `T` is the type of samples. -/
structure Logger (σ K H O T : Type*) where
  booster : Booster σ K H O
  current : σ → Except Panic O
  objective : T → O → Except Panic K
  loss : T → O → Except Panic K
  train : T
  test : T
  timeLimit : Nat
  round : Nat

/-- How `Logger::run` ends: `Err` of a file operation, a panic, or the final hypothesis (with, as a trace, the weight
vectors handed to the weak learner). -/
inductive LogOutcome (O K : Type*) where
  | ioError
  | panic (e : Panic)
  | ok (o : O) (queries : List (List K))

/-- Everything observable of a run: lines in the file (`none`: no file), printed lines, outcome. -/
structure LogRun (O K : Type*) where
  file : Option (List (LogLine K))
  printed : List Printed
  outcome : LogOutcome O K

namespace Logger

variable {σ K H O T : Type*}

/-- `Logger::new`, `src/research/logger.rs:43-63`. -/
def new (booster : Booster σ K H O) (current : σ → Except Panic O) (objective loss : T → O → Except Panic K) (train test : T) :
    Logger σ K H O T :=
  { booster := booster, current := current, objective := objective, loss := loss, train := train, test := test, timeLimit := u128Max, round := 100 }

/-- The three evaluations of one iteration, `src/research/logger.rs:247-251`. -/
def eval (L : Logger σ K H O T) (s : σ) : Except Panic (K × K × K) :=
  match L.current s with
  | .error e => .error e
  | .ok f =>
    match L.objective L.train f with
    | .error e => .error e
    | .ok obj =>
      match L.loss L.train f with
      | .error e => .error e
      | .ok train =>
        match L.loss L.test f with
        | .error e => .error e
        | .ok test => .ok (obj, train, test)

/-- The lines an iteration prints when the time limit is not exceeded, `src/research/logger.rs:271-295`. -/
def prints (L : Logger σ K H O T) (iter : Nat) (flow : Flow) : List Printed :=
  (if L.round ≠ usizeMax ∧ iter % L.round = 0 then [.log iter] else []) ++
  (if flow ≠ .cont ∧ L.round ≠ usizeMax then [.fin iter] else [])

/-- The loop of `Logger::run`, `src/research/logger.rs:237-297`: lines written, lines printed, and the final state with the
weight vectors handed out.  `iter % self.round` panics when `round` is zero.  `none`: not finished within `fuel` rounds. -/
def loop (L : Logger σ K H O T) (w : World) (wl : WeakLearner K H) :
    Nat → σ → Nat → Nat → Option (List (LogLine K) × List Printed × Except Panic (σ × List (List K)))
  | 0, _, _, _ => none
  | fuel + 1, s, iter, acc =>
    match L.booster.boost s wl iter with
    | .error e => some ([], [], .error e)
    | .ok out =>
      let acc := acc + w.elapsed iter
      match L.eval out.state with
      | .error e => some ([], [], .error e)
      | .ok (obj, train, test) =>
        if w.writeOk iter = false then some ([], [], .error .unwrapNone)
        else
          let line := { obj := obj, train := train, test := test, time := acc : LogLine K }
          if L.timeLimit < acc then some ([line], [.tle iter], .ok (out.state, out.queries))
          else if L.round = 0 then some ([line], [], .error .arith)
          else
            match out.flow with
            | .brk _ => some ([line], L.prints iter out.flow, .ok (out.state, out.queries))
            | .cont =>
              (loop L w wl fuel out.state (iter + 1) acc).map (fun r =>
                (line :: r.1, L.prints iter out.flow ++ r.2.1, r.2.2.map (fun p => (p.1, out.queries ++ p.2))))

/-- `Logger::run`, `src/research/logger.rs:213-302`. -/
def run (L : Logger σ K H O T) (w : World) (wl : WeakLearner K H) (fuel : Nat) (s : σ) : Option (LogRun O K) :=
  if w.createOk = false then some { file := none, printed := [], outcome := .ioError }
  else if w.headerOk = false then some { file := some [], printed := [], outcome := .ioError }
  else
    match L.booster.preprocess s wl with
    | .error e => some { file := some [], printed := [], outcome := .panic e }
    | .ok s₀ =>
      let before := Printed.stats :: (if L.round ≠ usizeMax then [Printed.header] else [])
      match L.loop w wl fuel s₀ 1 0 with
      | none => none
      | some (lines, printed, .error e) => some { file := some lines, printed := before ++ printed, outcome := .panic e }
      | some (lines, printed, .ok (s₁, qs)) =>
        match L.booster.postprocess s₁ with
        | .error e => some { file := some lines, printed := before ++ printed, outcome := .panic e }
        | .ok o => some { file := some lines, printed := before ++ printed, outcome := .ok o qs }

end Logger

/-- What `time_format` shows: seconds and milliseconds, minutes and seconds, or hours and minutes. -/
inductive TimeText where
  | secMs (sec ms : Nat)
  | minSec (min sec : Nat)
  | hourMin (hours min : Nat)
  deriving DecidableEq, Repr

/-- `time_format`, `src/research/logger.rs:306-323`, up to the padding of the digits. -/
def timeFormat (millisec : Nat) : TimeText :=
  if millisec < 1000 then .secMs 0 millisec
  else
    let sec := millisec / 1000
    let millisec := millisec % 1000
    if sec < 60 then .secMs sec millisec
    else
      let min := sec / 60
      let sec := sec % 60
      if min < 60 then .minSec min sec
      else .hourMin (min / 60) (min % 60)

/-- `LoggerBuilder`, `src/research/logger_builder.rs:75-84`; the components are opaque. -/
structure LoggerBuilder (B W F G T : Type*) where
  booster : Option B
  weakLearner : Option W
  objective : Option F
  loss : Option G
  train : Option T
  test : Option T
  timeLimit : Nat
  round : Nat

/-- The fields `LoggerBuilder::build` hands to `Logger`, `src/research/logger_builder.rs:206-216`. -/
structure LoggerParts (B W F G T : Type*) where
  booster : B
  weakLearner : W
  objective : F
  loss : G
  train : T
  test : T
  timeLimit : Nat
  round : Nat

/-- `checked_mul(..).expect(..)` on `u128`. -/
def checkedMul (a b : Nat) : Except Panic Nat := if a * b ≤ u128Max then .ok (a * b) else .error .unwrapNone

namespace LoggerBuilder

variable {B W F G T : Type*}

/-- `LoggerBuilder::new`, `src/research/logger_builder.rs:89-100`. -/
def new : LoggerBuilder B W F G T :=
  { booster := none, weakLearner := none, objective := none, loss := none, train := none, test := none, timeLimit := u128Max, round := 100 }

/-- A call of one of the setters of `LoggerBuilder`. -/
inductive Call (B W F G T : Type*) where
  | booster (b : B)
  | weakLearner (w : W)
  | objective (f : F)
  | loss (g : G)
  | train (t : T)
  | test (t : T)
  | millis (n : Nat)
  | secs (n : Nat)
  | mins (n : Nat)
  | printEvery (n : Nat)

/-- The setters, `src/research/logger_builder.rs:104-185`, also those of `Logger`, `src/research/logger.rs:76-101, 203-206`. -/
def apply (b : LoggerBuilder B W F G T) : Call B W F G T → Except Panic (LoggerBuilder B W F G T)
  | .booster x => .ok { b with booster := some x }
  | .weakLearner x => .ok { b with weakLearner := some x }
  | .objective x => .ok { b with objective := some x }
  | .loss x => .ok { b with loss := some x }
  | .train x => .ok { b with train := some x }
  | .test x => .ok { b with test := some x }
  | .millis n => .ok { b with timeLimit := n }
  | .secs n => (checkedMul n 1000).map (fun t => { b with timeLimit := t })
  | .mins n =>
    match checkedMul n 60 with
    | .error e => .error e
    | .ok s => (checkedMul s 1000).map (fun t => { b with timeLimit := t })
  | .printEvery n => .ok { b with round := n }

/-- `LoggerBuilder::build`, `src/research/logger_builder.rs:189-217`. -/
def build (b : LoggerBuilder B W F G T) : Except Panic (LoggerParts B W F G T) :=
  match b.booster, b.weakLearner, b.objective, b.loss, b.train, b.test with
  | some x, some w, some f, some g, some t, some u =>
    .ok { booster := x, weakLearner := w, objective := f, loss := g, train := t, test := u, timeLimit := b.timeLimit, round := b.round }
  | _, _, _, _, _, _ => .error .unwrapNone

end LoggerBuilder

end Miniboosts
