import Verif.Model.UnifiedAddition
import Verif.Core.Grid
import Mathlib.Algebra.Field.ZMod

/-!
# Variable base scalar multiplication (`components/algebra/curves/pasta/plonk/variable_base_scalar_mul.hpp`)

Fifteen witness columns, 104 rows: one row of `unified_addition` for `2T`, 51 pairs of rows with five steps
`P ↦ 2P ± T` each, and a last row with the result. The curve enters through `Kind`.
-/

namespace Verif
namespace VarBaseMul

/-- The choice of the curve: `std::is_same<CurveType, pallas>` and the constants, variable_base_scalar_mul.hpp:81-100,
155-161. -/
structure Kind (F : Type*) where
  /-- `CurveType` is pallas. -/
  pallas : Bool
  shiftedMinusOne : F
  shiftedZero : F
  shiftedOne : F
  tq : F
  tp : F

/-- `input_type`, variable_base_scalar_mul.hpp:163-182 (`bHigh` is read for pallas only). -/
structure In where
  tx : Var
  ty : Var
  b : Var
  bHigh : Var

section circuit
variable {F : Type*} [Field F]

/-- Constraints 1 to 5: the slope of the line through `P` and `±T`, variable_base_scalar_mul.hpp:473-487, 578-592. -/
def slopeC (px py tx ty bit s : Expr F) : Expr F := (px - tx) * s - (py - (2 * bit - 1) * ty)

/-- The factor `2 P.x - s² + T.x` of constraints 6 to 15. -/
def uE (px tx s : Expr F) : Expr F := 2 * px - s ^ 2 + tx

/-- Constraints 6 to 10: the abscissa of the next point, variable_base_scalar_mul.hpp:489-528, 594-635. -/
def xC (px py tx s nx : Expr F) : Expr F :=
  (2 * py - s * uE px tx s) * (2 * py - s * uE px tx s) - uE px tx s * uE px tx s * (nx - tx + s ^ 2)

/-- Constraints 11 to 15: the ordinate of the next point, variable_base_scalar_mul.hpp:530-558, 637-668. -/
def yC (px py tx s nx ny : Expr F) : Expr F := (ny + py) * uE px tx s - (px - nx) * (2 * py - s * uE px tx s)

/-- Columns of the abscissa of point `m` of a pair of rows, `m < 5`, variable_base_scalar_mul.hpp:299-339. -/
def pcol (m : ℕ) : ℤ := if m = 0 then 2 else 5 + 2 * (m : ℤ)

/-- `P[m]` in the pair of rows at rotations `r`, `r + 1`: the fifth point is in the second row. -/
def px (c : Cols) (r : ℤ) (m : ℕ) : Expr F := if m = 5 then c.wv 0 (r + 1) else c.wv (pcol m) r
def py (c : Cols) (r : ℤ) (m : ℕ) : Expr F := if m = 5 then c.wv 1 (r + 1) else c.wv (pcol m + 1) r
/-- `bits[m]`, `s[m]` of the pair. -/
def bitE (c : Cols) (r : ℤ) (m : ℕ) : Expr F := c.wv (2 + m) (r + 1)
def sE (c : Cols) (r : ℤ) (m : ℕ) : Expr F := c.wv (7 + m) (r + 1)

/-- Bit checks and constraints 1 to 16 at rotations `r`, `r + 1`; steps 3 and 4 of the point constraints are multiplied
by `mask`. First gate: variable_base_scalar_mul.hpp:467-563 (`r = 0`, no mask); second: 572-671 (`r = -1`). -/
def pairC (c : Cols) (r : ℤ) (mask : Expr F → Expr F) : List (Expr F) :=
  let w := fun (i r : ℤ) => (c.wv i r : Expr F)
  let msk := fun (m : ℕ) (e : Expr F) => if m < 3 then e else mask e
  ((List.range 5).map fun m => bitE c r m * (1 - bitE c r m)) ++
  ((List.range 5).map fun m => slopeC (px c r m) (py c r m) (w 0 r) (w 1 r) (bitE c r m) (sE c r m)) ++
  ((List.range 5).map fun m => msk m (xC (px c r m) (py c r m) (w 0 r) (sE c r m) (px c r (m + 1)))) ++
  ((List.range 5).map fun m =>
    msk m (yC (px c r m) (py c r m) (w 0 r) (sE c r m) (px c r (m + 1)) (py c r (m + 1)))) ++
  [w 5 r - (.const 32 * w 4 r + .const 16 * bitE c r 0 + .const 8 * bitE c r 1 + .const 4 * bitE c r 2 + 2 * bitE c r 3 +
    bitE c r 4)]

/-- The first gate, variable_base_scalar_mul.hpp:467-570. -/
def gate1 (c : Cols) : List (Expr F) := pairC c 0 id

/-- A chunk of three bits, variable_base_scalar_mul.hpp:694-696, 737-743. -/
def oct (x : Expr F) : Expr F :=
  x * (x - 1) * (x - 2) * (x - 3) * (x - .const 4) * (x - .const 5) * (x - .const 6) * (x - .const 7)

/-- Constraints 17 to 29, variable_base_scalar_mul.hpp:673-724. -/
def lastC (K : Kind F) (c : Cols) : List (Expr F) :=
  let w := fun (i r : ℤ) => (c.wv i r : Expr F)
  let d1 := (w 5 1 - .const K.shiftedMinusOne) * w 3 1
  let d2 := (w 5 1 - .const K.shiftedOne) * w 4 1
  [(w 8 1 * w 2 1 - 1) * w 8 1,
   (d1 - 1) * (w 5 1 - .const K.shiftedMinusOne),
   (d2 - 1) * (w 5 1 - .const K.shiftedOne),
   w 8 1 * w 2 1 * w 0 0 + (d1 - d2) * (d1 - d2) * w 6 1 - w 0 1,
   w 8 1 * w 2 1 * w 1 0 + (d1 - d2) * w 7 1 - w 1 1,
   w 8 1 - (w 5 1 - .const K.shiftedMinusOne) * (w 5 1 - .const K.shiftedZero) * (w 5 1 - .const K.shiftedOne),
   oct (w 12 0),
   w 13 0 * (w 13 0 - 1),
   w 14 0 - .const 16 * w 6 (-1) - 2 * w 12 0 - w 13 0,
   w 9 1 * (w 14 0 - w 12 1),
   w 9 1 * (w 10 1 - .const (2 ^ 124)),
   (if K.pallas then w 12 1 - w 11 1 + .const K.tq - .const (2 ^ 130)
    else w 12 1 - w 11 1 + w 9 1 * .const (2 ^ 254) + .const K.tp - .const (2 ^ 130)),
   (if K.pallas then w 5 (-1) - w 11 1 - w 9 1 * .const (2 ^ 254) else w 9 0 - w 9 0)]

/-- The second gate, variable_base_scalar_mul.hpp:572-734. -/
def gate2 (K : Kind F) (c : Cols) : List (Expr F) :=
  pairC c (-1) (fun e => e * c.wv 8 1 * c.wv 2 1) ++ lastC K c

/-- The third gate, variable_base_scalar_mul.hpp:736-747. -/
def gate3 (c : Cols) : List (Expr F) :=
  let w := fun (i r : ℤ) => (c.wv i r : Expr F)
  [oct (w 12 1), oct (w 13 1), w 14 1 - .const 64 * w 6 0 - .const 8 * w 12 1 - w 13 1]

/-- `generate_copy_constraints`, variable_base_scalar_mul.hpp:752-828; `j = srow + 1`. Line 802-803 addresses the
constant column by the index of the first witness column. -/
def copies (K : Kind F) (c : Cols) (inp : In) (srow : ℤ) : List (Op F) :=
  let j := srow + 1
  [.copy (c.wa 2 j) (UnifiedAddition.resultX c srow), .copy (c.wa 3 j) (UnifiedAddition.resultY c srow)] ++
  ((List.range 50).flatMap fun (k : ℕ) =>
    [.copy (c.wa 0 (j + 2 * (k : ℤ))) (c.wa 0 (j + 2 * (k : ℤ) + 2)),
     .copy (c.wa 1 (j + 2 * (k : ℤ))) (c.wa 1 (j + 2 * (k : ℤ) + 2))]) ++
  ((List.range 50).flatMap fun (k : ℕ) =>
    [.copy (c.wa 2 (j + (2 * (k : ℤ) + 2))) (c.wa 0 (j + (2 * (k : ℤ) + 2) - 1)),
     .copy (c.wa 3 (j + (2 * (k : ℤ) + 2))) (c.wa 1 (j + (2 * (k : ℤ) + 2) - 1))]) ++
  ((List.range 50).map fun (k : ℕ) =>
    .copy (c.wa 4 (j + (2 * (k : ℤ) + 2))) (c.wa 5 (j + (2 * (k : ℤ) + 2) - 2))) ++
  [.copy (c.wa 5 (srow + 103)) (c.wa 5 (srow + 101)), .copy (c.wa 6 (srow + 103)) (c.wa 0 (srow + 101)),
   .copy (c.wa 7 (srow + 103)) (c.wa 1 (srow + 101)), .copy (c.wa 4 j) ⟨c.w 0, j, false, .constant⟩] ++
  [if K.pallas then .copy inp.bHigh (c.wa 2 (j + 1)) else .copy inp.b (c.wa 5 (j + 100))] ++
  [.copy ⟨c.k 0, j, false, .constant⟩ (c.wa 6 (j + 58))] ++
  ((List.range 20).map fun (k : ℕ) =>
    .copy (c.wa 14 (j + 58 + 2 * (k : ℤ) + 1)) (c.wa 6 (j + 58 + 2 * (k : ℤ) + 2))) ++
  [.copy (c.wa 2 (j + 1)) (c.wa 9 (j + 102)), .copy (c.wa 5 (j + 48)) (c.wa 10 (j + 102)),
   .copy inp.b (c.wa 11 (j + 102))]

/-- `addition_input`, variable_base_scalar_mul.hpp:279-280, 443-444. -/
def addIn (inp : In) : UnifiedAddition.In := ⟨inp.tx, inp.ty, inp.tx, inp.ty⟩

/-- `generate_circuit`, variable_base_scalar_mul.hpp:421-455; `rows_amount` is 104 and `aux_bits_start_row` is 59
(146-153). The constant is written by 831-843. -/
def circuit (K : Kind F) (c : Cols) (inp : In) (srow : ℤ) : List (Op F) :=
  [.constant (c.k 0) (srow + 1) 0,
   .gate (gate1 c) (rowsBetween (srow + 1) (srow + 100) 2), .gate (gate2 K c) [srow + 102],
   .gate (gate3 c) (rowsBetween (srow + 59) (srow + 59 + 40) 2)] ++
  UnifiedAddition.circuit c (addIn inp) srow ++ copies K c inp srow

/-- `result_type`, variable_base_scalar_mul.hpp:184-195. -/
def resultX (c : Cols) (srow : ℤ) : Var := c.wa 0 (srow + 103)
def resultY (c : Cols) (srow : ℤ) : Var := c.wa 1 (srow + 103)

end circuit

section assignment
variable {F : Type*} [Field F] [DecidableEq F]

/-- What `generate_assignments` computes before writing: the base point, the points `P`, the bits, the bits of `aux`,
`b` and `aux`. -/
structure Data (F : Type*) where
  tx : F
  ty : F
  /-- `2T`. -/
  p0 : F × F
  bits : ℕ → ℕ
  auxBits : ℕ → ℕ
  b : F
  aux : F

/-- `Q.Y = (2 * bits[i] - 1) * T.Y`, variable_base_scalar_mul.hpp:306-307, 314, 321, 328, 335. -/
def qy (d : Data F) (i : ℕ) : F := (2 * (d.bits i : F) - 1) * d.ty

/-- `(P + Q) + P` in the affine coordinates of `crypto3` (external; the sum is that of `unified_addition`). -/
def next (P Q : F × F) : F × F :=
  let R := UnifiedAddition.sumCells P.1 P.2 Q.1 Q.2
  UnifiedAddition.sumCells R.1 R.2 P.1 P.2

/-- The points: `P[m]` of pair `k` is number `5 k + m`, variable_base_scalar_mul.hpp:293-298, 309-339. -/
def pt (d : Data F) : ℕ → F × F
  | 0 => d.p0
  | i + 1 => next (pt d i) (d.tx, qy d i)

/-- `(P.Y - Q.Y) * (diff.is_zero() ? 0 : diff.inversed())`, variable_base_scalar_mul.hpp:312-313, 319-320, 326-327, 333-334, 340-341. -/
def slope (d : Data F) (i : ℕ) : F :=
  ((pt d i).2 - qy d i) * (if (pt d i).1 - d.tx = 0 then 0 else ((pt d i).1 - d.tx)⁻¹)

/-- `n` before pair `k`, variable_base_scalar_mul.hpp:271-272, 297, 302-304. -/
def acc (d : Data F) : ℕ → F
  | 0 => 0
  | k + 1 => 32 * acc d k + 16 * (d.bits (k * 5) : F) + 8 * (d.bits (k * 5 + 1) : F) + 4 * (d.bits (k * 5 + 2) : F) +
      2 * (d.bits (k * 5 + 3) : F) + (d.bits (k * 5 + 4) : F)

/-- `u0`, `u1` of pair `k` of the range check, variable_base_scalar_mul.hpp:355-357, 364-366. -/
def u0 (d : Data F) (k : ℕ) : F :=
  4 * (d.auxBits (125 + k * 6) : F) + 2 * (d.auxBits (125 + k * 6 + 1) : F) + (d.auxBits (125 + k * 6 + 2) : F)
def u1 (d : Data F) (k : ℕ) : F :=
  if k < 21 then
    4 * (d.auxBits (125 + k * 6 + 3) : F) + 2 * (d.auxBits (125 + k * 6 + 4) : F) + (d.auxBits (125 + k * 6 + 5) : F)
  else (d.auxBits (125 + k * 6 + 3) : F)

/-- `u_next` before pair `k`, variable_base_scalar_mul.hpp:351-367. -/
def uacc (d : Data F) : ℕ → F
  | 0 => 0
  | k + 1 => if k < 21 then 64 * uacc d k + 8 * u0 d k + u1 d k else 16 * uacc d k + 2 * u0 d k + u1 d k

/-- `e2`, variable_base_scalar_mul.hpp:373-378. -/
def e2 (d : Data F) : F := ((List.range 125).map fun l => (d.bits (254 - (130 + l)) : F) * 2 ^ l).sum

/-- The result, variable_base_scalar_mul.hpp:389-407. -/
def res (K : Kind F) (d : Data F) : F × F :=
  let n := acc d 51
  if n = K.shiftedMinusOne then (d.tx, -d.ty)
  else if n = K.shiftedZero then (0, 0)
  else if n = K.shiftedOne then (d.tx, d.ty)
  else pt d 255

/-- `m`, variable_base_scalar_mul.hpp:384-385. -/
def mm (K : Kind F) (d : Data F) : F :=
  (acc d 51 - K.shiftedMinusOne) * (acc d 51 - K.shiftedZero) * (acc d 51 - K.shiftedOne)

/-- The last row, variable_base_scalar_mul.hpp:372, 379-388, 408-416. -/
def lastCell (K : Kind F) (d : Data F) : ℕ → F
  | 0 => (res K d).1
  | 1 => (res K d).2
  | 2 => if mm K d = 0 then 0 else (mm K d)⁻¹
  | 3 => if acc d 51 - K.shiftedMinusOne = 0 then 0 else (acc d 51 - K.shiftedMinusOne)⁻¹
  | 4 => if acc d 51 - K.shiftedOne = 0 then 0 else (acc d 51 - K.shiftedOne)⁻¹
  | 5 => acc d 51
  | 6 => d.tx
  | 7 => d.ty
  | 8 => mm K d
  | 9 => (d.bits 0 : F)
  | 10 => e2 d
  | 11 => d.b
  | 12 => d.aux
  | _ => 0

/-- First row of pair `k`, variable_base_scalar_mul.hpp:291-332, 354, 363. -/
def fstCell (d : Data F) (k : ℕ) : ℕ → F
  | 0 => d.tx
  | 1 => d.ty
  | 2 => (pt d (5 * k)).1
  | 3 => (pt d (5 * k)).2
  | 4 => acc d k
  | 5 => acc d (k + 1)
  | 6 => uacc d (k - 29)
  | 7 => (pt d (5 * k + 1)).1
  | 8 => (pt d (5 * k + 1)).2
  | 9 => (pt d (5 * k + 2)).1
  | 10 => (pt d (5 * k + 2)).2
  | 11 => (pt d (5 * k + 3)).1
  | 12 => (pt d (5 * k + 3)).2
  | 13 => (pt d (5 * k + 4)).1
  | 14 => (pt d (5 * k + 4)).2
  | _ => 0

/-- Second row of pair `k`, variable_base_scalar_mul.hpp:313-347, 359-361, 368-370. -/
def sndCell (d : Data F) (k : ℕ) : ℕ → F
  | 0 => (pt d (5 * k + 5)).1
  | 1 => (pt d (5 * k + 5)).2
  | 2 => (d.bits (k * 5) : F)
  | 3 => (d.bits (k * 5 + 1) : F)
  | 4 => (d.bits (k * 5 + 2) : F)
  | 5 => (d.bits (k * 5 + 3) : F)
  | 6 => (d.bits (k * 5 + 4) : F)
  | 7 => slope d (5 * k)
  | 8 => slope d (5 * k + 1)
  | 9 => slope d (5 * k + 2)
  | 10 => slope d (5 * k + 3)
  | 11 => slope d (5 * k + 4)
  | 12 => u0 d (k - 29)
  | 13 => u1 d (k - 29)
  | 14 => uacc d (k - 29 + 1)
  | _ => 0

/-- Row `r` counted from the start row. -/
def cell (K : Kind F) (d : Data F) (r j : ℕ) : F :=
  if r = 103 then lastCell K d j
  else if r % 2 = 1 then fstCell d (r / 2) j
  else sndCell d (r / 2 - 1) j

/-- The cells written: the pairs (290-348; column 6 of the first rows is left alone), the range check of `aux` (353-370),
the last row (372-416). -/
def positions : List (ℕ × ℕ) :=
  ((List.range 51).flatMap fun k =>
    ([0, 1, 2, 3, 4, 5, 7, 8, 9, 10, 11, 12, 13, 14].map fun j => (2 * k + 1, j)) ++
    ([0, 1, 2, 3, 4, 5, 6, 7, 8, 9, 10, 11].map fun j => (2 * k + 2, j))) ++
  ((List.range 22).flatMap fun k => [(2 * (k + 29) + 1, 6), (2 * (k + 29) + 2, 12), (2 * (k + 29) + 2, 13), (2 * (k + 29) + 2, 14)]) ++
  ([0, 1, 2, 3, 4, 5, 6, 7, 8, 9, 10, 11, 12].map fun j => (103, j))

def writes (K : Kind F) (c : Cols) (srow : ℤ) (d : Data F) : List (Write F) :=
  positions.map fun q => ⟨.witness, c.w (q.2 : ℤ), srow + (q.1 : ℤ), cell K d q.1 q.2⟩

end assignment

/-- The values computed by `generate_assignments`, variable_base_scalar_mul.hpp:229-269: the bits of `b` most significant
first (255 of them); for pallas the leading one is set when `b_high` is one; `p0` is the content of the result cells of
`unified_addition`. -/
def data {p : ℕ} [Fact p.Prime] (K : Kind (ZMod p)) (tx ty b bHigh : ZMod p) (p0 : ZMod p × ZMod p) : Data (ZMod p) :=
  let low := fun i : ℕ => (b.val.testBit (254 - i)).toNat
  let bits := fun i : ℕ => if K.pallas ∧ bHigh = 1 ∧ i = 0 then 1 else low i
  let aux := if K.pallas then b - K.tq + 2 ^ 130 else b - (low 0 : ZMod p) * 2 ^ 254 - K.tp + 2 ^ 130
  ⟨tx, ty, p0, bits, fun i => (aux.val.testBit (254 - i)).toNat, b, aux⟩

/-- `generate_assignments`, variable_base_scalar_mul.hpp:218-419. All inputs are read before the first write. -/
def assign {p : ℕ} [Fact p.Prime] (K : Kind (ZMod p)) (c : Cols) (inp : In) (srow : ℤ) (t : Table (ZMod p)) :
    Table (ZMod p) :=
  let t1 := UnifiedAddition.assign c (addIn inp) srow t
  let d := data K (inp.tx.value t) (inp.ty.value t) (inp.b.value t) (inp.bHigh.value t)
    ((UnifiedAddition.resultX c srow).value t1, (UnifiedAddition.resultY c srow).value t1)
  writeAll (writes K c srow d) t1

/-- The constants for Pallas, variable_base_scalar_mul.hpp:84-91, 159-160; the native field is the base field of Pallas. -/
def pallasKind (F : Type*) [Field F] : Kind F :=
  ⟨true, ((0x224698fc0994a8dd8c46eb2100000000 : ℕ) : F),
   ((0x200000000000000000000000000000003369e57a0e5efd4c526a60b180000001 : ℕ) : F),
   ((0x224698fc0994a8dd8c46eb2100000001 : ℕ) : F), ((0x224698fc0994a8dd8c46eb2100000001 : ℕ) : F),
   ((0x224698fc094cf91b992d30ed00000001 : ℕ) : F)⟩

/-- The constants for Vesta, variable_base_scalar_mul.hpp:93-100, 159-160. -/
def vestaKind (F : Type*) [Field F] : Kind F :=
  ⟨false, ((0x448d31f81299f237325a61da00000001 : ℕ) : F), ((0x448d31f81299f237325a61da00000002 : ℕ) : F),
   ((0x448d31f81299f237325a61da00000003 : ℕ) : F), ((0x224698fc0994a8dd8c46eb2100000001 : ℕ) : F),
   ((0x224698fc094cf91b992d30ed00000001 : ℕ) : F)⟩

end VarBaseMul
end Verif
