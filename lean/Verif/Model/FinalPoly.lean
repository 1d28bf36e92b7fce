import Verif.Model.ExprEval

/-!
# `final_polynomial_check` (`components/systems/snark/plonk/verifier/final_polynomial_check.hpp`)

The polynomial with given coefficients, highest power first, is compared with given values at points `s` and `-s`. All work is
done by the expression evaluation component; nothing is placed at the component's own rows. The asserted sizes
(203-205, 247-249) are preconditions of the theorems. `std::unordered_map` is a function; a variable without an entry, for which
`at` would throw, is mapped to itself (it does not occur in the constraints).
-/

namespace Verif
namespace FinalPoly

open GateMover ExprEval

variable {F : Type*}

/-- `s_var` and `y_var` (`final_polynomial_check.hpp:168-169`). -/
def sVar : Var := ⟨0, 0, true, .witness⟩
def yVar : Var := ⟨0, 1, true, .witness⟩

/-- The loop building the value of the polynomial (170-173 with `add`, 175-178 with `sub`). -/
def horner [One F] (op : BinOp) (e : GExpr F) (cs : List Var) : GExpr F :=
  cs.foldl (fun e c => .bin op (.term [c] 1) (.bin .mult (.term [sVar] 1) e)) e

/-- `constraint_s` and `constraint_m_s` (170-174, 175-179). -/
def constr [One F] (op : BinOp) (cs : List Var) : GExpr F :=
  .bin .sub (horner op (.term [cs.headD sVar] 1) cs.tail) (.term [yVar] 1)

/-- The mapping (162-166, 213-214, 221-222, 259-260, 268-269): coefficients stand for themselves; `insert` does not replace
them. -/
def mapping (cs : List Var) (point value : Var) (u : Var) : Var :=
  if u ∈ cs then u else if u = sVar then point else if u = yVar then value else u

/-- The loop over the points in `generate_circuit` (254-273): storages and copy constraints. -/
def circuitLoop [Zero F] [One F] [DecidableEq F] (c : ℕ → Batch.Comp F) (le : List Var → List Var → Bool) (t : Table F)
    (cs values : List Var) (zero : Var) : List Var → ℕ → St F → St F × List (Var × Var)
  | [], _, s => (s, [])
  | p :: l, i, s =>
    let r := visit ⟨c, le, t, false, mapping cs p (values.getD (2 * i) sVar)⟩ (constr .add cs) s
    let r' := visit ⟨c, le, t, false, mapping cs p (values.getD (2 * i + 1) sVar)⟩ (constr .sub cs) r.1
    let q := circuitLoop c le t cs values zero l (i + 1) r'.1
    (q.1, (r.2, zero) :: (r'.2, zero) :: q.2)

/-- `generate_circuit` (231-276). -/
def circuit [Zero F] [One F] [DecidableEq F] (c : ℕ → Batch.Comp F) (le : List Var → List Var → Bool) (t : Table F)
    (cs points values : List Var) (s : St F) : St F × List (Var × Var) :=
  let z := con 0 s
  circuitLoop c le t cs values z.2 points 0 z.1

/-- `generate_assignments` (189-228): the same evaluations, called with the other flag. -/
def assignLoop [Zero F] [One F] [DecidableEq F] (c : ℕ → Batch.Comp F) (le : List Var → List Var → Bool) (t : Table F)
    (cs values : List Var) : List Var → ℕ → St F → St F
  | [], _, s => s
  | p :: l, i, s =>
    let r := visit ⟨c, le, t, true, mapping cs p (values.getD (2 * i) sVar)⟩ (constr .add cs) s
    let r' := visit ⟨c, le, t, true, mapping cs p (values.getD (2 * i + 1) sVar)⟩ (constr .sub cs) r.1
    assignLoop c le t cs values l (i + 1) r'.1

end FinalPoly
end Verif
