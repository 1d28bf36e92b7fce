import Verif.Model.RangeCheck

/-!
# Comparison and division built on range checks

`components/algebra/fields/plonk/non_native/{comparison_mode,comparison_unchecked,division_remainder}.hpp`.
-/

namespace Verif

/-- comparison_mode.hpp:34-40. -/
inductive CmpMode
  | flag | lt | le | gt | ge
  deriving DecidableEq

/-- `LESS_THAN` or `GREATER_THAN`. -/
def CmpMode.strict (m : CmpMode) : Bool := m = .lt ∨ m = .gt
/-- `GREATER_THAN` or `GREATER_EQUAL`: the operands are swapped. -/
def CmpMode.swaps (m : CmpMode) : Bool := m = .gt ∨ m = .ge

namespace CompUnchecked
variable {F : Type*} [Field F]

/-- comparison_unchecked.hpp:71-75. -/
def bonus (w : ℕ) (m : CmpMode) : ℕ := if w ≤ 3 ∧ m.strict then 1 else 0
/-- comparison_unchecked.hpp:77-81. -/
def rows (w bits : ℕ) (m : CmpMode) : ℕ := RangeCheck.rows w bits + 1 + bonus w m

/-- comparison_unchecked.hpp:209-245. -/
def gate (c : Cols) (w : ℕ) (m : CmpMode) : List (Expr F) :=
  (c.wv 2 - c.wv 1 + c.wv 0) ::
  (if m.strict then
    (if bonus w m = 0 then [c.wv 2 * c.wv 3 - 1] else [c.wv 2 * c.wv 0 1 - 1])
   else [])

/-- comparison_unchecked.hpp:282-309 with copies 248-278. -/
def circuit (c : Cols) (w bits : ℕ) (m : CmpMode) (x y : Var) (srow : ℤ) : List (Op F) :=
  let row : ℤ := srow + rows w bits m - 1 - bonus w m
  RangeCheck.circuit c w bits (c.wa 2 (srow + RangeCheck.rows w bits)) srow ++
  [.gate (gate c w m) [row],
   .copy x (if m.swaps then c.wa 1 row else c.wa 0 row),
   .copy y (if m.swaps then c.wa 0 row else c.wa 1 row)]

/-- comparison_unchecked.hpp:313-374. -/
def assign {p : ℕ} [Fact p.Prime] (c : Cols) (w bits : ℕ) (m : CmpMode) (x y : Var) (srow : ℤ)
    (t : Table (ZMod p)) : Table (ZMod p) :=
  let a := if m.swaps then y.value t else x.value t
  let b := if m.swaps then x.value t else y.value t
  let diff := b - a
  let row := srow + (RangeCheck.rows w bits : ℤ)
  let t1 := ((t.set .witness (c.w 0) row a).set .witness (c.w 1) row b).set .witness (c.w 2) row diff
  let t2 := RangeCheck.assign c w bits (c.wa 2 row) srow t1
  if m.strict then
    (if bonus w m = 0 then t2.set .witness (c.w 3) row diff⁻¹ else t2.set .witness (c.w 0) (row + 1) diff⁻¹)
  else t2

end CompUnchecked

namespace DivRem
variable {F : Type*} [Field F]

/-- division_remainder.hpp:68-70. -/
def bonus (w : ℕ) : ℕ := if w < 5 then 1 else 0
/-- division_remainder.hpp:72-77. -/
def rows (w bits : ℕ) (check : Bool) : ℕ :=
  (2 + 2 * check.toNat) * RangeCheck.rows w bits + 1 + bonus w

/-- `get_var_address` (156-161): variable number `k` of `X, Y, Q, R_, Y_MINUS_R`. -/
def addr (c : Cols) (w : ℕ) (srow : ℤ) (k : ℕ) : Var := c.wa ((k % w : ℕ) : ℤ) (srow + ((k / w : ℕ) : ℤ))
/-- `get_var_for_gate` (163-166). -/
def gvar (c : Cols) (w k : ℕ) : Expr F := c.wv ((k % w : ℕ) : ℤ) ((k / w : ℕ) : ℤ)

/-- division_remainder.hpp:241-269. -/
def gate (c : Cols) (w : ℕ) : List (Expr F) :=
  [gvar c w 0 - gvar c w 1 * gvar c w 2 - gvar c w 3, gvar c w 1 - gvar c w 3 - gvar c w 4]

/-- Start row of the `i`-th range check (322-341). -/
def rcRow (w bits : ℕ) (srow : ℤ) (i : ℕ) : ℤ :=
  srow + ((1 + bonus w + i * RangeCheck.rows w bits : ℕ) : ℤ)

/-- Which variable the `i`-th range check is applied to: `y - r`, `q`, then `x` and `y` (325-341). -/
def rcVar (i : ℕ) : ℕ := [4, 2, 0, 1].getD i 0

/-- division_remainder.hpp:296-348 with copies 272-293. -/
def circuit (c : Cols) (w bits : ℕ) (check : Bool) (x y : Var) (srow : ℤ) : List (Op F) :=
  [.gate (gate c w) [srow]] ++
  ((List.range (2 + 2 * check.toNat)).flatMap fun i =>
    RangeCheck.circuit c w bits (addr c w srow (rcVar i)) (rcRow w bits srow i)) ++
  [.copy x (addr c w srow 0), .copy y (addr c w srow 1)]

/-- division_remainder.hpp:179-186. -/
def quotient (c : Cols) (w : ℕ) (srow : ℤ) : Var := addr c w srow 2
/-- division_remainder.hpp:179-186. -/
def remainder (c : Cols) (w : ℕ) (srow : ℤ) : Var := addr c w srow 3

/-- The writes of division_remainder.hpp:385-389 for given quotient and remainder. -/
def heads (c : Cols) (w : ℕ) (x y q r : F) (srow : ℤ) : List (Write F) :=
  [(0, x), (1, y), (3, r), (2, q), (4, y - r)].map fun (k, v) =>
    ⟨.witness, c.w ((k % w : ℕ) : ℤ), srow + ((k / w : ℕ) : ℤ), v⟩

/-- division_remainder.hpp:385-408 for given quotient and remainder. -/
def assignWith {p : ℕ} [Fact p.Prime] (c : Cols) (w bits : ℕ) (check : Bool) (x y : Var) (q r : ZMod p) (srow : ℤ)
    (t : Table (ZMod p)) : Table (ZMod p) :=
  (List.range (2 + 2 * check.toNat)).foldl
    (fun t i => RangeCheck.assign c w bits (addr c w srow (rcVar i)) (rcRow w bits srow i) t)
    (writeAll (heads c w (x.value t) (y.value t) q r srow) t)

/-- division_remainder.hpp:369-376. `x / 0 = 0` in Lean as in the code; for the remainder the code takes 0. -/
def qr {p : ℕ} (x y : ZMod p) : ZMod p × ZMod p :=
  (((x.val / y.val : ℕ) : ZMod p), if y.val = 0 then 0 else ((x.val % y.val : ℕ) : ZMod p))

/-- division_remainder.hpp:351-413. -/
def assign {p : ℕ} [Fact p.Prime] (c : Cols) (w bits : ℕ) (check : Bool) (x y : Var) (srow : ℤ)
    (t : Table (ZMod p)) : Table (ZMod p) :=
  assignWith c w bits check x y (qr (x.value t) (y.value t)).1 (qr (x.value t) (y.value t)).2 srow t

end DivRem
end Verif
