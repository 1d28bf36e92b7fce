import Verif.Model.KimchiSponge
import Verif.Model.Arith

/-!
# `to_group` of kimchi: a field element to a point

`components/systems/snark/plonk/kimchi/detail/to_group.hpp`. `..._circuit` and `..._assignment` make the same calls on the same rows, so one list of calls
stands for both. Wires 0 to 14, constant column 0. The arithmetic components are those of Model/Arith; `div_component` is `division_or_zero`.
-/

namespace Verif
namespace KimchiGroup
open Kimchi (c3)
variable {p : ℕ} [Fact p.Prime]

/-- Wires of `division_or_zero` (to_group.hpp:69). -/
def c5 : Cols := ⟨[0, 1, 2, 3, 4], [0], []⟩

/-- The calls. `root src row` is the multiplication of `y(0, row)` by itself after `y` has got the square root of `src` (to_group.hpp:237-242, 266-269). -/
inductive G
  | add (x y : Var) (row : ℤ)
  | sub (x y : Var) (row : ℤ)
  | mul (x y : Var) (row : ℤ)
  | divz (x y : Var) (row : ℤ)
  | root (src : Var) (row : ℤ)

/-- The output of a call: W2 of its row. -/
def w2 (row : ℤ) : Var := c3.wa 2 row

/-- `var y(0, row)` (to_group.hpp:239, 267). -/
def w0 (row : ℤ) : Var := c3.wa 0 row

/-- `generate_circuit` of the components. -/
def G.ops : G → List (Op (ZMod p))
  | .add x y r => Addition.circuit c3 ⟨x, y⟩ r
  | .sub x y r => Subtraction.circuit c3 ⟨x, y⟩ r
  | .mul x y r => Multiplication.circuit c3 ⟨x, y⟩ r
  | .divz x y r => DivisionOrZero.circuit c5 ⟨x, y⟩ r
  | .root _ r => Multiplication.circuit c3 ⟨w0 r, w0 r⟩ r

/-- `generate_assignments` of the components; the root written at a row is `f row` of the value (`sqrt()` in to_group.hpp:237 for all rows). -/
def G.assign (f : ℤ → ZMod p → ZMod p) (t : Table (ZMod p)) : G → Table (ZMod p)
  | .add x y r => Addition.assign c3 ⟨x, y⟩ r t
  | .sub x y r => Subtraction.assign c3 ⟨x, y⟩ r t
  | .mul x y r => Multiplication.assign c3 ⟨x, y⟩ r t
  | .divz x y r => DivisionOrZero.assign c5 ⟨x, y⟩ r t
  | .root src r => Multiplication.assign c3 ⟨w0 r, w0 r⟩ r (t.set .witness 0 r (f r (src.value t)))

/-- Constants: `zero`, `one`, `minus_one` and `curve_params` (to_group.hpp:74-92, 364-368). -/
def kv (s : ℤ) (k : ℕ) : Var := ⟨0, s + k, false, .constant⟩

/-- `potential_xs_*` (to_group.hpp:98-216): the calls. -/
def xsCalls (s : ℤ) (t : Var) (r : ℤ) : List G :=
  [.mul t t r, .add (w2 r) (kv s 4) (r + 1), .mul (w2 (r + 1)) (w2 r) (r + 2), .divz (kv s 1) (w2 (r + 2)) (r + 3),
   .mul (w2 r) (w2 r) (r + 4), .mul (w2 (r + 4)) (w2 (r + 3)) (r + 5), .mul (w2 (r + 5)) (kv s 6) (r + 6), .sub (kv s 7) (w2 (r + 6)) (r + 7),
   .sub (kv s 0) (kv s 3) (r + 8), .sub (w2 (r + 8)) (w2 (r + 7)) (r + 9), .add (w2 r) (kv s 4) (r + 10),
   .mul (w2 (r + 10)) (w2 (r + 3)) (r + 11), .mul (w2 (r + 10)) (w2 (r + 10)) (r + 12), .mul (w2 (r + 12)) (w2 (r + 11)) (r + 13),
   .mul (w2 (r + 13)) (kv s 5) (r + 14), .sub (kv s 3) (w2 (r + 14)) (r + 15)]

/-- `potential_xs_rows` (to_group.hpp:94-96). -/
def xsRows : ℕ := 9 + 2 + 1 + 4

/-- The three results of `potential_xs_*` (to_group.hpp:146, 215). -/
def xsOut (r : ℤ) : ℕ → Var
  | 0 => w2 (r + 7)
  | 1 => w2 (r + 9)
  | _ => w2 (r + 15)

/-- `get_y_*` (to_group.hpp:221-275). -/
def yCalls (s : ℤ) (x : Var) (r : ℤ) : List G :=
  [.mul x x r, .mul (w2 r) x (r + 1), .add (w2 (r + 1)) (kv s 8) (r + 2), .root (w2 (r + 2)) (r + 3)]

/-- `get_y_rows` (to_group.hpp:218-219). -/
def yRows : ℕ := 3 + 1

/-- The first pass of the loop of 388-436: E1, E2 (to_group.hpp:389-411). -/
def e2Calls (s : ℤ) (y : Var) (r : ℤ) : List G :=
  [.sub y (kv s 2) r, .divz (kv s 1) (w2 r) (r + 1), .mul (w2 r) (w2 (r + 1)) (r + 2), .sub (w2 (r + 2)) (kv s 1) (r + 3), .add (w2 (r + 3)) (kv s 1) (r + 4)]

/-- The other passes: E3, E4, E5 with the nullifier before (to_group.hpp:413-435). -/
def e5Calls (s : ℤ) (n : Var) (r : ℤ) : List G :=
  [.divz (kv s 1) n (r + 5), .mul n (w2 (r + 5)) (r + 6), .sub (w2 (r + 6)) (kv s 1) (r + 7), .mul (w2 (r + 7)) (kv s 2) (r + 8),
   .mul (w2 (r + 4)) (w2 (r + 8)) (r + 9)]

/-- One pass of the last loop (to_group.hpp:443-456). -/
def sumCalls (x y n ax ay : Var) (r : ℤ) : List G :=
  [.mul x n r, .add ax (w2 r) (r + 1), .mul y n (r + 2), .add ay (w2 (r + 2)) (r + 3)]

/-- The variables of `x`s and `y`s (to_group.hpp:370-378). -/
def xv (s : ℤ) (i : ℕ) : Var := xsOut s i
def yRow (s : ℤ) (i : ℕ) : ℤ := s + 16 + 4 * i
def yv (s : ℤ) (i : ℕ) : Var := w0 (yRow s i + 3)

/-- The nullifiers (to_group.hpp:380-436): the first pass takes five rows, the others ten. -/
def nv (s : ℤ) : ℕ → Var
  | 0 => w2 (s + 32)
  | 1 => w2 (s + 42)
  | _ => w2 (s + 52)

/-- All calls (to_group.hpp:355-463). -/
def calls (s : ℤ) (t : Var) : List G :=
  xsCalls s t s ++ yCalls s (xv s 0) (yRow s 0) ++ yCalls s (xv s 1) (yRow s 1) ++ yCalls s (xv s 2) (yRow s 2) ++
  e2Calls s (yv s 0) (s + 28) ++
  (e2Calls s (yv s 1) (s + 33) ++ e5Calls s (nv s 0) (s + 33)) ++
  (e2Calls s (yv s 2) (s + 43) ++ e5Calls s (nv s 1) (s + 43)) ++
  sumCalls (xv s 0) (yv s 0) (nv s 0) (kv s 0) (kv s 0) (s + 53) ++
  sumCalls (xv s 1) (yv s 1) (nv s 1) (w2 (s + 54)) (w2 (s + 56)) (s + 57) ++
  sumCalls (xv s 2) (yv s 2) (nv s 2) (w2 (s + 58)) (w2 (s + 60)) (s + 61)

/-- `rows_amount` (to_group.hpp:277-323). -/
def rows : ℕ := xsRows + 3 * yRows + (5 + 2 * 10) + 3 * 4

/-- `x` and `y` at the end of `generate_circuit` (to_group.hpp:438-456). -/
def outX (s : ℤ) : Var := w2 (s + 62)
def outY (s : ℤ) : Var := w2 (s + 64)

/-- `result_type` (to_group.hpp:332-352): `row` starts from `rows_amount - 12`; `start_row_index` is not used. -/
def resultX (_ : ℤ) : Var := w2 ((rows : ℤ) - 12 + 8 + 1)
def resultY (_ : ℤ) : Var := w2 ((rows : ℤ) - 12 + 8 + 3)

/-- The constants of a curve (to_group.hpp:585-613). -/
structure Curve (F : Type*) where
  u : F
  fu : F
  inv3 : F
  sq : F
  half : F
  b : F

/-- `generate_assignments_constants` (to_group.hpp:572-632). -/
def consts (K : Curve (ZMod p)) (s : ℤ) : List (Op (ZMod p)) :=
  [.constant 0 s 0, .constant 0 (s + 1) 1, .constant 0 (s + 2) (-1), .constant 0 (s + 3) K.u, .constant 0 (s + 4) K.fu, .constant 0 (s + 5) K.inv3,
   .constant 0 (s + 6) K.sq, .constant 0 (s + 7) K.half, .constant 0 (s + 8) K.b]

/-- `generate_circuit` (to_group.hpp:355-463). -/
def circuit (K : Curve (ZMod p)) (s : ℤ) (t : Var) : List (Op (ZMod p)) := (calls s t).flatMap G.ops ++ consts K s

/-- `generate_assignments` (to_group.hpp:465-555). -/
def assign (f : ℤ → ZMod p → ZMod p) (s : ℤ) (t : Var) (T : Table (ZMod p)) : Table (ZMod p) := (calls s t).foldl (G.assign f) T

/-- The constants of to_group.hpp:592-602 (pallas). -/
def pallasK : Curve ℕ where
  u := 1
  fu := 6
  inv3 := 0x2AAAAAAAAAAAAAAAAAAAAAAAAAAAAAAAC18465FD5B88A612661E209E00000001
  sq := 0x25999506959B74E25955ABB8AF5563603A3F17A46F5A62923B5ABD7BFBFC9573
  half := 0x12CCCA834ACDBA712CAAD5DC57AAB1B01D1F8BD237AD31491DAD5EBDFDFE4AB9
  b := 5

/-- The constants of to_group.hpp:603-612 (vesta). -/
def vestaK : Curve ℕ where
  u := 1
  fu := 6
  inv3 := 0x2AAAAAAAAAAAAAAAAAAAAAAAAAAAAAAAC18465FD5BB87093B2D9F21600000001
  sq := 0x0D0334B0507CA51CA23B69B039EE1EB41FDA8CFA8F80675E5553A5C0A1541C9F
  half := 0x06819A58283E528E511DB4D81CF70F5A0FED467D47C033AF2AA9D2E050AA0E4F
  b := 5

/-- The constants as elements of the field. -/
def Curve.cast (p : ℕ) (K : Curve ℕ) : Curve (ZMod p) := ⟨K.u, K.fu, K.inv3, K.sq, K.half, K.b⟩

end KimchiGroup
end Verif
