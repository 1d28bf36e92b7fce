import Verif.Core.Table

/-!
# Model of the assignment table containers (`blueprint/plonk/assignment.hpp`)

Columns are vectors which grow (filled with zeros) when a cell beyond their end is accessed for
writing. `alloc` is `assignment_allocated_rows`.
-/

namespace Verif

/-- The column vectors and the allocated-rows counter (assignment.hpp:120, base class tables). -/
structure Asg (F : Type*) where
  cols : ColType → ℕ → List F
  alloc : ℕ

namespace Asg
variable {F : Type*} [Field F]

/-- A fresh table (assignment.hpp:159-162). -/
def init : Asg F := ⟨fun _ _ => [], 0⟩

/-- `if (column.size() <= row) column.resize(row + 1)` (assignment.hpp:330-331, 421-422, 452-453,
484-485). -/
def grow (l : List F) (r : ℕ) : List F :=
  if l.length ≤ r then l ++ List.replicate (r + 1 - l.length) 0 else l

/-- The non-const accessors followed by assignment of a value: `selector` (326-334), `witness`
(418-426), `public_input` (447-456), `constant` (479-489). Witness and constant accesses bump the
allocated rows, the other two do not. -/
def write (a : Asg F) (ty : ColType) (i r : ℕ) (v : F) : Asg F where
  cols := fun ty' i' => if ty' = ty ∧ i' = i then (grow (a.cols ty i) r).set r v else a.cols ty' i'
  alloc := if ty = .witness ∨ ty = .constant then max a.alloc (r + 1) else a.alloc

/-- The const accessors (336-342, 428-433, 458-465, 491-498): asserting that the row is below the
column size; `none` is the failed assertion / out-of-range access. -/
def read? (a : Asg F) (ty : ColType) (i r : ℕ) : Option F := (a.cols ty i)[r]?

/-- `enable_selector(selector, row)` (364-368). -/
def enable (a : Asg F) (s r : ℕ) : Asg F :=
  let a' := a.write .selector s r 1
  { a' with alloc := max a'.alloc (r + 1) }

/-- The loop of the range version of `enable_selector` (375-377). A zero step (an endless loop in the
code) stops here; theorems assume `0 < step`. -/
def enableLoop (a : Asg F) (s : ℕ) (row last step : ℕ) : Asg F :=
  if row ≤ last ∧ 0 < step then enableLoop (a.enable s row) s (row + step) last step else a
  termination_by last + 1 - row

/-- `enable_selector(selector, begin, end, step)` (370-379). -/
def enableRange (a : Asg F) (s first last step : ℕ) : Asg F :=
  let a' := enableLoop a s first last step
  { a' with alloc := max a'.alloc last }

/-- The table content as a total function: cells beyond a column's end and negative rows are 0. -/
def toTable (a : Asg F) : Table F :=
  fun ty i r => if r < 0 then 0 else (a.cols ty i).getD r.toNat 0

end Asg

/-- `component.hpp:67-69` with the machine arithmetic spelled out: `index` is an `int32_t`, converted to
`size_t` (mod 2^64) before being added to `_W.size()`; `%` on `size_t`. `none` is the division by zero /
out-of-range access on an empty container. -/
def col64 (l : List ℕ) (i : ℤ) : Option ℕ :=
  if l.length = 0 then none
  else l[(((l.length + (i % 2 ^ 64).toNat) % 2 ^ 64) % l.length : ℕ)]?

end Verif
