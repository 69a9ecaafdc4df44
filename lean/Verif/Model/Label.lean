import Verif.Model.Core
import Mathlib.Algebra.Order.Floor.Ring
import Mathlib.Data.List.Dedup

/-! # Label checks of `src/sample/sample_struct.rs` and `src/common/checker.rs` -/

namespace Miniboosts

variable {K : Type*} [Field K] [LinearOrder K] [FloorRing K]

/-- `f64::trunc` (used at `src/sample/sample_struct.rs:391`): rounding towards zero. -/
def trunc (y : K) : Int := if 0 ≤ y then ⌊y⌋ else ⌈y⌉

/-- `yi as i32` (`src/sample/sample_struct.rs:408`): truncation, saturating at the `i32` range. -/
def asI32 (y : K) : Int := max (-2147483648) (min 2147483647 (trunc y))

/-- The outcome of `Sample::is_valid_binary_instance`, `src/sample/sample_struct.rs:384-444`,
for a sample with `nSample` rows and target vector `target`: `ok` or a panic.
Lines 372-381 (`target_is_specified`), 390-402 (integer check), 406-426 (exactly two kinds).
The warning about labels other than `±1` (430-440) only prints. -/
def isValidBinary (nSample : Nat) (target : List K) : Except Panic Unit :=
  if nSample ≠ target.length then .error .assertion
  else if target.any (fun y => decide ((trunc y : K) ≠ y)) then .error .assertion
  else if (target.map asI32).dedup.length ≠ 2 then .error .assertion
  else .ok ()

/-- `Sample::is_valid_binary_instance` on the row/label list seen by a booster. -/
def checkBinary {X : Type*} (S : List (X × K)) : Except Panic Unit :=
  isValidBinary S.length (S.map Prod.snd)

/-- `checker::check_nu`, `src/common/checker.rs:30-33`. -/
def checkNu (nu : K) (nSample : Nat) : Except Panic Unit :=
  if 1 ≤ nu ∧ nu ≤ (nSample : K) then .ok () else .error .assertion

/-- `checker::check_stepsize`, `src/common/checker.rs:37-39`. -/
def checkStepsize (size : K) : Except Panic Unit :=
  if 0 ≤ size ∧ size ≤ 1 then .ok () else .error .assertion

/-- `checker::check_sample`, `src/common/checker.rs:12-25`. -/
def checkSample (nSample nFeature : Nat) : Except Panic Unit :=
  if 0 < nSample ∧ 0 < nFeature then .ok () else .error .assertion

/-- `checker::check_capped_simplex_condition`, `src/common/checker.rs:43-66`;
`SIMPLEX_TOLERANCE = 1e-5` (line 7). -/
def checkCappedSimplex (slice : List K) (nu : K) : Except Panic Unit :=
  match checkNu nu slice.length with
  | .error e => .error e
  | .ok () =>
    if |slice.sum - 1| < 1 / 100000 ∧ ∀ s ∈ slice, 0 ≤ s ∧ s ≤ 1 / nu then .ok ()
    else .error .assertion

end Miniboosts
