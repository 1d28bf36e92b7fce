import Verif.Model.GateMover

/-!
# Constant batching (`blueprint/plonk/assignment.hpp:230-324`, `577-590`)

Values of constants requested by components are collected in a storage and written into one constant column when the
circuit is finished. Reading or writing `used_constants` out of range is undefined behaviour in C++ and is `none` here.
-/

namespace Verif
namespace ConstBatch

open GateMover

variable {F : Type*}

/-- `batch_constant_storage_index` (`assignment.hpp:157`). -/
def constIndex : ℕ := 2 ^ 64 - 3

/-- The variable of slot `n` (`assignment.hpp:584-588`). -/
def constVar (n : ℕ) : Var := ⟨constIndex, n, false, .constant⟩

/-- `add_batch_constant_variable` (`assignment.hpp:577-590`); the set of values with positions is the storage itself
read backwards. -/
def add [DecidableEq F] (store : List F) (x : F) : List F × Var :=
  if x ∈ store then (store, constVar (store.idxOf x)) else (store ++ [x], constVar store.length)

/-- A sequence of requests. -/
def addAll [DecidableEq F] : List F → List F → List F × List Var
  | store, [] => (store, [])
  | store, x :: l =>
    let r := add store x
    let r' := addAll r.1 l
    (r'.1, r.2 :: r'.2)

/-- `var_check` (`assignment.hpp:242-246`). The rotation is a signed number compared with a `std::size_t`, so it is
converted to an unsigned one first. -/
def varCheck (col srow : ℕ) (v : Var) : Bool :=
  v.type = .constant && v.index = col && decide ((srow : ℤ) ≤ if v.rotation < 0 then 2 ^ 64 + v.rotation else v.rotation)

/-- A gate or lookup gate: its selector (`selector_index`, `tag_index`) and the variables of its constraints or lookup
inputs (`assignment.hpp:255-266`, `277-290`). -/
structure Gate where
  selector : ℕ
  vars : List Var

/-- Positions set to `true` because of copy constraints (`assignment.hpp:247-253`). -/
def copyMarks (col srow : ℕ) (copies : List (Var × Var)) : List ℤ :=
  ((copies.flatMap fun p => [p.1, p.2]).filter (varCheck col srow)).map fun v => v.rotation - srow

/-- Positions set to `true` because of one gate (`assignment.hpp:267-274`, `291-298`). -/
def gateMarks [DecidableEq F] [One F] (col srow : ℕ) (selSize : ℕ → ℕ) (t : Table F) (g : Gate) : List ℤ :=
  (g.vars.filter (varCheck col srow)).flatMap fun v =>
    ((List.range (selSize g.selector)).filter fun row : ℕ => srow - 1 ≤ row && decide (t .selector g.selector row = 1)).map
      fun row : ℕ => (row : ℤ) + v.rotation - srow

/-- `used_constants[i] = true`. -/
def mark (u : List Bool) (i : ℤ) : Option (List Bool) :=
  if 0 ≤ i ∧ i < u.length then some (u.set i.toNat true) else none

/-- `used_constants` (`assignment.hpp:238-300`); `size` is the size of the constant column. -/
def used [DecidableEq F] [One F] (col srow size : ℕ) (selSize : ℕ → ℕ) (t : Table F) (copies : List (Var × Var))
    (gates : List Gate) : Option (List Bool) :=
  if size > srow then
    (copyMarks col srow copies ++ gates.flatMap (gateMarks col srow selSize t)).foldlM mark (List.replicate (size - srow) false)
  else some []

/-- The loop skipping used cells (`assignment.hpp:305-307`). -/
def skip (u : List Bool) (srow row : ℕ) : ℕ :=
  if row < u.length + srow ∧ u.getD (row - srow) false = true then skip u srow (row + 1) else row
  termination_by u.length + srow - row

/-- The loop over the constants (`assignment.hpp:303-314`): rows chosen, table, next row. -/
def placeConsts (col srow : ℕ) (u : List Bool) : List F → ℕ → Table F → List ℕ × Table F × ℕ
  | [], row, t => ([], t, row)
  | x :: l, row, t =>
    let r := skip u srow row
    let q := placeConsts col srow u l (r + 1) (t.set .constant col r x)
    (r :: q.1, q.2.1, q.2.2)

/-- Replacement of the variables of batched constants (`assignment.hpp:315-322`). -/
def substConst (col : ℕ) (rows : List ℕ) (v : Var) : Var :=
  if v.index = constIndex ∧ v.type = .constant ∧ v.relative = false ∧ 0 ≤ v.rotation then
    match rows[v.rotation.toNat]? with
    | some r => ⟨col, r, false, .constant⟩
    | none => v
  else v

/-- `finalize_constant_batches` (`assignment.hpp:230-324`): table, copy constraints and next row. -/
def finalize [DecidableEq F] [One F] (col srow size : ℕ) (selSize : ℕ → ℕ) (t : Table F) (copies : List (Var × Var))
    (gates : List Gate) (store : List F) : Option (Table F × List (Var × Var) × ℕ) :=
  if store = [] then some (t, copies, srow)
  else (used col srow size selSize t copies gates).map fun u =>
    let r := placeConsts col srow u store srow t
    (r.2.1, copies.map fun p => (substConst col r.1 p.1, substConst col r.1 p.2), r.2.2)

/-- `var_value` on the constant storage (`assignment.hpp:764-766`). -/
def val [Zero F] (t : Table F) (store : List F) (v : Var) : F :=
  if v.index = constIndex then store.getD v.rotation.toNat 0 else v.value t

end ConstBatch
end Verif
