import Verif.Model.Frame

/-! # Data frames (C99) -/

namespace Miniboosts.Spec

variable {K : Type*}

/-- A series of numbers: type `f64`, no null. -/
def Numeric (s : Series K) : Prop := ∃ l : List K, s.data = .f64 (l.map some)

/-- What polars guarantees of a data frame: distinct column names, columns of equal length. -/
structure FrameOk (d : DataFrame K) : Prop where
  names : (d.columns.map Series.name).Nodup
  lengths : ∀ c ∈ d.columns, c.len = d.shape.1

/-- The cell in row `i` of the column called `nm`; `none` when there is no such column, no such row, or no number there. -/
def frameCell (d : DataFrame K) (i : Nat) (nm : String) : Option K :=
  match d.columns.find? fun c => c.name = nm with
  | none => none
  | some c =>
    match c.data with
    | .other _ => none
    | .f64 vs => (vs[i]?).join

end Miniboosts.Spec
