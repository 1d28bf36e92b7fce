import Verif.Core.Table
import Verif.Core.UnionFind

/-!
# Connectedness checks (`utils/connectedness_check.hpp`)

`std::size_t` addresses are computed over the natural numbers; the range conditions under which the C++ computation
does not wrap are hypotheses of the theorems. `disjoint_sets` is modelled in `Core/UnionFind.lean`.
-/

namespace Verif
namespace Connectedness

/-- What the check looks at: amounts of witness and constant columns, the row range, the gates and lookup gates (set of
variables and where the selector is on) and the copy constraints. -/
structure Circ where
  nw : ℕ
  nc : ℕ
  start : ℕ
  rows : ℕ
  gates : List (List Var × (ℕ → Bool))
  copies : List (Var × Var)

/-- `row_size` (`connectedness_check.hpp:210`). -/
def Circ.rowSize (C : Circ) : ℕ := C.nw + C.nc

/-- `copy_var_address` (`connectedness_check.hpp:51-69`). -/
def copyAddr (C : Circ) (v : Var) : ℕ :=
  match v.type with
  | .publicInput => C.rowSize * C.rows + v.rotation.toNat
  | .witness => (v.rotation - C.start).toNat * C.rowSize + v.index
  | _ => (v.rotation - C.start).toNat * C.rowSize + C.rowSize - 1

/-- `gate_var_address` (`connectedness_check.hpp:214-221`). -/
def gateAddr (C : Circ) (row : ℕ) (v : Var) : ℕ :=
  match v.type with
  | .witness => ((row : ℤ) - C.start + v.rotation).toNat * C.rowSize + v.index
  | _ => ((row : ℤ) - C.start + v.rotation).toNat * C.rowSize + C.rowSize - 1

/-- The rows of the range where a selector is on (`connectedness_check.hpp:154-158`; a row beyond the selector column
reads as off). -/
def onRows (C : Circ) (sel : ℕ → Bool) : List ℕ := ((List.range C.rows).map (C.start + ·)).filter fun r => sel r

/-- `mark_set` (`connectedness_check.hpp:141-166`). -/
def markSet (C : Circ) (g : List Var × (ℕ → Bool)) : List (ℕ × ℕ) :=
  (onRows C g.2).flatMap fun row =>
    match g.1 with
    | [] => []
    | v0 :: _ => g.1.map fun v => (gateAddr C row v, gateAddr C row v0)

/-- `generate_connectedness_zones` (`connectedness_check.hpp:199-260`). -/
def unions (C : Circ) : List (ℕ × ℕ) :=
  C.gates.flatMap (markSet C) ++ C.copies.map fun c => (copyAddr C c.1, copyAddr C c.2)

/-- `zones.find_set`. -/
def find (C : Circ) : ℕ → ℕ := ufOf (unions C)

/-- `check_strong_connectedness` (`connectedness_check.hpp:364-393`). The code reads `input_variables[0]`. -/
def strong (C : Circ) (ins outs : List Var) : Bool :=
  match ins with
  | [] => true
  | v0 :: _ =>
    ins.all (fun v => find C (copyAddr C v) == find C (copyAddr C v0)) &&
      outs.all fun v => find C (copyAddr C v) == find C (copyAddr C v0)

/-- `check_weak_connectedness` (`connectedness_check.hpp:399-442`). -/
def weak (C : Circ) (ins outs : List Var) : Bool :=
  outs.all (fun v => (ins.map fun x => find C (copyAddr C x)).contains (find C (copyAddr C v))) &&
    ins.all fun v => (outs.map fun x => find C (copyAddr C x)).contains (find C (copyAddr C v))

/-- `check_islands` with `check_set` (`connectedness_check.hpp:168-197`, `282-357`). -/
def islands (C : Circ) (ins outs : List Var) : Bool :=
  let expected := (ins ++ outs).map fun x => find C (copyAddr C x)
  (C.gates.all fun g => (onRows C g.2).all fun row => g.1.all fun v => expected.contains (find C (gateAddr C row v))) &&
    C.copies.all fun c => expected.contains (find C (copyAddr C c.1)) && expected.contains (find C (copyAddr C c.2))

end Connectedness
end Verif
