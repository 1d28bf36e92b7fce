import Verif.Core.Grid
import Mathlib.Algebra.Field.ZMod

/-!
# Arithmetic modulo `2^255 - 19` on four limbs

`components/algebra/fields/plonk/non_native/range.hpp`, `addition.hpp`, `subtraction.hpp`, `multiplication.hpp`, for
the base field of curve25519. The native field is `ZMod n`; `x.data` is `ZMod.val`. The integers of the foreign field
are natural numbers here, without the bit bound of the `number` types of the code (which all the values respect as
long as the limbs read are within their declared widths). Nine witness columns.
-/

namespace Verif
namespace Ed25519

/-- `ed25519_field_type::modulus`. -/
def modulus : ℕ := 2 ^ 255 - 19

/-- `(x >> (66 * i)) & mask`, addition.hpp:295-300. -/
def limb (x i : ℕ) : ℕ := (x >>> (66 * i)) % 2 ^ 66

/-- The number composed of four limbs, addition.hpp:258-262. -/
def compose (v : ℕ → ℕ) : ℕ := v 0 + v 1 * 2 ^ 66 + v 2 * 2 ^ 132 + v 3 * 2 ^ 198

/-- The limbs of `2^257 - modulus`, addition.hpp:287-297, multiplication.hpp:466-474. -/
def negP (i : ℕ) : ℕ := limb (2 ^ 257 - modulus) i

section circuits
variable {F : Type*} [Field F]

/-- A power of two of a gate (`base << k`). -/
def sh (k : ℕ) : Expr F := .const (2 ^ k)

/-- `sum`, range.hpp:234-238. -/
def rangeSum (c : Cols) : Expr F :=
  c.wv 5 + c.wv 6 + c.wv 7 + c.wv 0 1 + c.wv 1 1 + c.wv 2 1 + c.wv 3 1 + c.wv 4 1 + c.wv 5 1 + c.wv 6 1 + c.wv 7 1
    - .const (2 * 2 ^ 21) - .const (8 * 2 ^ 22) - sh 15 + .const 11

/-- range.hpp:221-250. -/
def rangeGate (c : Cols) : List (Expr F) :=
  [c.wv 0 - (c.wv 4 + c.wv 5 * sh 22 + c.wv 6 * sh 44),
   c.wv 1 - (c.wv 7 + c.wv 0 1 * sh 22 + c.wv 1 1 * sh 44),
   c.wv 2 - (c.wv 2 1 + c.wv 3 1 * sh 22 + c.wv 4 1 * sh 44),
   c.wv 3 - (c.wv 5 1 + c.wv 6 1 * sh 21 + c.wv 7 1 * sh 42),
   rangeSum c * (c.wv 8 * rangeSum c - 1),
   c.wv 8 * rangeSum c + (1 - c.wv 8 * rangeSum c) * c.wv 8 1 - 1]

/-- `generate_circuit` of range.hpp:277-292; the copy constraints of 265-273 are skipped when the input is the cell
itself. -/
def rangeCircuit (c : Cols) (inp : ℕ → Var) (srow : ℤ) : List (Op F) :=
  .gate (rangeGate c) [srow] ::
  (List.range 4).flatMap fun i : ℕ =>
    if c.wa i srow = inp i then [] else [.copy (c.wa i srow) (inp i)]

/-- Two operands of four limbs, addition.hpp:119-126. -/
structure In where
  a : ℕ → Var
  b : ℕ → Var

/-- Four limbs in consecutive columns from column `k` of a row, with weights, addition.hpp:414-421. -/
def composeE (x0 x1 x2 x3 : Expr F) : Expr F := x0 + x1 * sh 66 + x2 * sh 132 + x3 * sh 198

/-- addition.hpp:405-423. -/
def addGate (c : Cols) : List (Expr F) :=
  [c.wv 7 (-1) * sh 66 - (c.wv 0 + c.wv 1 + .const (negP 0 : F) * c.wv 2 - c.wv 0 1),
   c.wv 2 * (c.wv 2 - 1),
   c.wv 7 (-1) - (c.wv 3 (-1) + c.wv 4 (-1) * sh 22 + c.wv 5 (-1) * sh 44 + c.wv 6 (-1) * sh 66),
   composeE (c.wv 0) (c.wv 3) (c.wv 4) (c.wv 5) + composeE (c.wv 1) (c.wv 6) (c.wv 7) (c.wv 8)
     - (c.wv 2 * .const (modulus : F) + composeE (c.wv 0 1) (c.wv 1 1) (c.wv 2 1) (c.wv 3 1))]

/-- subtraction.hpp:412-433. -/
def subGate (c : Cols) : List (Expr F) :=
  [c.wv 7 (-1) * sh 66
     - (c.wv 0 + .const (negP 0 : F) * c.wv 2 + .const (limb modulus 0 : F) - c.wv 1 - c.wv 0 1),
   c.wv 2 * (c.wv 2 - 1),
   c.wv 7 (-1) - (c.wv 3 (-1) + c.wv 4 (-1) * sh 22 + c.wv 5 (-1) * sh 44 + c.wv 6 (-1) * sh 66),
   composeE (c.wv 0) (c.wv 3) (c.wv 4) (c.wv 5) + .const (modulus : F)
     - composeE (c.wv 1) (c.wv 6) (c.wv 7) (c.wv 8) - .const (modulus : F) * c.wv 2
     - composeE (c.wv 0 1) (c.wv 1 1) (c.wv 2 1) (c.wv 3 1)]

/-- Copy constraints of addition.hpp:438-447 and subtraction.hpp:448-457. -/
def addCopies (c : Cols) (inp : In) (srow : ℤ) : List (Op F) :=
  [.copy (c.wa 0 (srow + 1)) (inp.a 0), .copy (c.wa 1 (srow + 1)) (inp.b 0),
   .copy (c.wa 3 (srow + 1)) (inp.a 1), .copy (c.wa 4 (srow + 1)) (inp.a 2), .copy (c.wa 5 (srow + 1)) (inp.a 3),
   .copy (c.wa 6 (srow + 1)) (inp.b 1), .copy (c.wa 7 (srow + 1)) (inp.b 2), .copy (c.wa 8 (srow + 1)) (inp.b 3)]

/-- `result_type`, addition.hpp:131-136, subtraction.hpp likewise. -/
def addResult (c : Cols) (srow : ℤ) (i : ℕ) : Var := c.wa i (srow + 2)

/-- `generate_circuit`, addition.hpp:451-487. -/
def addCircuit (c : Cols) (inp : In) (srow : ℤ) : List (Op F) :=
  .gate (addGate c) [srow + 1] :: (addCopies c inp srow ++ rangeCircuit c (fun i : ℕ => c.wa i (srow + 2)) (srow + 2))

/-- `generate_circuit`, subtraction.hpp:461-493. -/
def subCircuit (c : Cols) (inp : In) (srow : ℤ) : List (Op F) :=
  .gate (subGate c) [srow + 1] :: (addCopies c inp srow ++ rangeCircuit c (fun i : ℕ => c.wa i (srow + 2)) (srow + 2))

/-- `t[0]` to `t[3]`, multiplication.hpp:476-489. -/
def mulT (c : Cols) : ℕ → Expr F
  | 0 => c.wv 0 (-1) * c.wv 4 (-1) + .const (negP 0 : F) * c.wv 8 (-1)
  | 1 => c.wv 1 (-1) * c.wv 4 (-1) + c.wv 0 (-1) * c.wv 5 (-1) + .const (negP 0 : F) * c.wv 0
      + .const (negP 1 : F) * c.wv 8 (-1)
  | 2 => c.wv 2 (-1) * c.wv 4 (-1) + c.wv 0 (-1) * c.wv 6 (-1) + c.wv 1 (-1) * c.wv 5 (-1)
      + .const (negP 2 : F) * c.wv 8 (-1) + c.wv 1 * .const (negP 0 : F) + .const (negP 1 : F) * c.wv 0
  | _ => c.wv 3 (-1) * c.wv 4 (-1) + c.wv 7 (-1) * c.wv 0 (-1) + c.wv 1 (-1) * c.wv 6 (-1)
      + c.wv 5 (-1) * c.wv 2 (-1) + .const (negP 3 : F) * c.wv 8 (-1) + c.wv 2 * .const (negP 0 : F)
      + .const (negP 1 : F) * c.wv 1 + c.wv 0 * .const (negP 2 : F)

/-- multiplication.hpp:490-515. -/
def mulGate (c : Cols) : List (Expr F) :=
  [c.wv 7 * sh 132 - (mulT c 0 - c.wv 3 + mulT c 1 * sh 66 - c.wv 4 * sh 66),
   c.wv 8 * sh 125 - (mulT c 2 - c.wv 5 + mulT c 3 * sh 66 - c.wv 6 * sh 66 + c.wv 7),
   c.wv 7 - (c.wv 0 1 + c.wv 1 1 * sh 22 + c.wv 2 1 * sh 44 + c.wv 3 1 * sh 66),
   c.wv 8 - (c.wv 4 1 + c.wv 5 1 * sh 22 + c.wv 6 1 * sh 44 + c.wv 7 1 * sh 66),
   composeE (c.wv 0 (-1)) (c.wv 1 (-1)) (c.wv 2 (-1)) (c.wv 3 (-1))
       * composeE (c.wv 4 (-1)) (c.wv 5 (-1)) (c.wv 6 (-1)) (c.wv 7 (-1))
     - (composeE (c.wv 8 (-1)) (c.wv 0) (c.wv 1) (c.wv 2) * .const (modulus : F)
       + composeE (c.wv 3) (c.wv 4) (c.wv 5) (c.wv 6))]

/-- Copy constraints, multiplication.hpp:530-539. -/
def mulCopies (c : Cols) (inp : In) (srow : ℤ) : List (Op F) :=
  ((List.range 4).map fun i : ℕ => .copy (c.wa i (srow + 4)) (inp.a i)) ++
  ((List.range 4).map fun i : ℕ => .copy (c.wa ((4 + i : ℕ) : ℤ) (srow + 4)) (inp.b i))

/-- `non_range_input_q`, multiplication.hpp:395-397 and 569-571. -/
def mulQ (c : Cols) (srow : ℤ) (i : ℕ) : Var :=
  if i = 0 then c.wa 8 (srow + 4) else c.wa ((i : ℤ) - 1) (srow + 5)

/-- `non_range_input_r`, multiplication.hpp:401-403 and 575-577, and `result_type`, multiplication.hpp:131-136. -/
def mulResult (c : Cols) (srow : ℤ) (i : ℕ) : Var := c.wa ((3 + i : ℕ) : ℤ) (srow + 5)

/-- `generate_circuit`, multiplication.hpp:543-582. -/
def mulCircuit (c : Cols) (inp : In) (srow : ℤ) : List (Op F) :=
  .gate (mulGate c) [srow + 5] ::
  (mulCopies c inp srow ++ rangeCircuit c (mulQ c srow) srow ++ rangeCircuit c (mulResult c srow) (srow + 2))

end circuits

section assignments
variable {n : ℕ} [Fact n.Prime]

/-- Width of the chunks of the range component, range.hpp:160-180. -/
def chunkBits (k : ℕ) : ℕ := if k < 9 then 22 else if k < 11 then 21 else 15

/-- `range_chunks[k]`, range.hpp:160-180. -/
def chunk (v : ℕ → ℕ) (k : ℕ) : ℕ :=
  (v (k / 3) >>> ((if k < 9 then 22 else 21) * (k % 3))) % 2 ^ chunkBits k

/-- `xi` before the inversion, range.hpp:159-180. -/
def xiSum (v : ℕ → ℕ) : ZMod n :=
  ((List.range 12).map fun k => if k = 0 then 0 else ((chunk v k : ZMod n) - 2 ^ chunkBits k + 1)).sum

/-- Cells of the two rows of the range component, range.hpp:153-204. `(row, column)`. -/
def rangeCell (v : ℕ → ℕ) (r j : ℕ) : ZMod n :=
  if r = 0 then
    if j < 4 then (v j : ZMod n)
    else if j < 8 then (chunk v (j - 4) : ZMod n)
    else if (xiSum v : ZMod n) ≠ 0 then (xiSum v)⁻¹ else 0
  else
    if j < 8 then (chunk v (4 + j) : ZMod n)
    else if chunk v 0 > 2 ^ 22 - 20 then 0 else 1

/-- `generate_assignments`, range.hpp:137-207. -/
def rangeAssign (c : Cols) (inp : ℕ → Var) (srow : ℤ) (t : Table (ZMod n)) : Table (ZMod n) :=
  let v := fun i => ((inp i).value t).val
  writeAll ((List.range 2).flatMap fun r : ℕ => (List.range 9).map fun j : ℕ =>
    ⟨.witness, c.w j, srow + r, rangeCell v r j⟩) t

/-- `u0_chunks`, addition.hpp:309-312; the last chunk has `w` bits. -/
def carryChunk (w u k : ℕ) : ℕ := (u >>> (22 * k)) % 2 ^ (if k < 3 then 22 else w)

/-- First three rows of addition and subtraction, addition.hpp:314-331 and subtraction.hpp:318-335. -/
def addWrites (c : Cols) (srow : ℤ) (w : ℕ) (a b r : ℕ → ℕ) (q u : ℕ) : List (Write (ZMod n)) :=
  [⟨.witness, c.w 0, srow + 1, (a 0 : ZMod n)⟩, ⟨.witness, c.w 1, srow + 1, (b 0 : ZMod n)⟩,
   ⟨.witness, c.w 2, srow + 1, (q : ZMod n)⟩, ⟨.witness, c.w 3, srow + 1, (a 1 : ZMod n)⟩,
   ⟨.witness, c.w 4, srow + 1, (a 2 : ZMod n)⟩, ⟨.witness, c.w 5, srow + 1, (a 3 : ZMod n)⟩,
   ⟨.witness, c.w 6, srow + 1, (b 1 : ZMod n)⟩, ⟨.witness, c.w 7, srow + 1, (b 2 : ZMod n)⟩,
   ⟨.witness, c.w 8, srow + 1, (b 3 : ZMod n)⟩,
   ⟨.witness, c.w 3, srow, (carryChunk w u 0 : ZMod n)⟩, ⟨.witness, c.w 4, srow, (carryChunk w u 1 : ZMod n)⟩,
   ⟨.witness, c.w 5, srow, (carryChunk w u 2 : ZMod n)⟩, ⟨.witness, c.w 6, srow, (carryChunk w u 3 : ZMod n)⟩,
   ⟨.witness, c.w 7, srow, (u : ZMod n)⟩,
   ⟨.witness, c.w 0, srow + 2, (r 0 : ZMod n)⟩, ⟨.witness, c.w 1, srow + 2, (r 1 : ZMod n)⟩,
   ⟨.witness, c.w 2, srow + 2, (r 2 : ZMod n)⟩, ⟨.witness, c.w 3, srow + 2, (r 3 : ZMod n)⟩]

/-- `range_input_r`, addition.hpp:335-336 and subtraction.hpp:339-340: table columns `0` to `3`, not `W(0)` to
`W(3)`. -/
def addRangeInput (srow : ℤ) (i : ℕ) : Var := ⟨i, srow + 2, false, .witness⟩

/-- The sum, its quotient and its carry, addition.hpp:253-306. -/
def addR (a b : ℕ → ℕ) : ℕ := (compose a % modulus + compose b % modulus) % modulus
def addQ (a b : ℕ → ℕ) : ℕ := (compose a % modulus + compose b % modulus - addR a b) / modulus
def addU (n : ℕ) (a b : ℕ → ℕ) : ℕ :=
  (((a 0 : ZMod n) + b 0 + negP 0 * limb (addQ a b) 0) - limb (addR a b) 0).val >>> 66

/-- `generate_assignments`, addition.hpp:235-346. -/
def addAssign (c : Cols) (inp : In) (srow : ℤ) (t : Table (ZMod n)) : Table (ZMod n) :=
  let a := fun i => ((inp.a i).value t).val
  let b := fun i => ((inp.b i).value t).val
  rangeAssign c (addRangeInput srow) (srow + 2)
    (writeAll (addWrites c srow 1 a b (limb (addR a b)) (addQ a b) (addU n a b)) t)

/-- The difference, its quotient and its carry, subtraction.hpp:255-310. -/
def subR (a b : ℕ → ℕ) : ℕ := (compose a % modulus + (modulus - compose b % modulus)) % modulus
def subQ (a b : ℕ → ℕ) : ℕ := (compose a % modulus + modulus - compose b % modulus - subR a b) / modulus
def subU (n : ℕ) (a b : ℕ → ℕ) : ℕ :=
  (((a 0 : ZMod n) + limb modulus 0 - b 0 + negP 0 * limb (subQ a b) 0) - limb (subR a b) 0).val >>> 66

/-- `generate_assignments`, subtraction.hpp:238-350. -/
def subAssign (c : Cols) (inp : In) (srow : ℤ) (t : Table (ZMod n)) : Table (ZMod n) :=
  let a := fun i => ((inp.a i).value t).val
  let b := fun i => ((inp.b i).value t).val
  rangeAssign c (addRangeInput srow) (srow + 2)
    (writeAll (addWrites c srow 2 a b (limb (subR a b)) (subQ a b) (subU n a b)) t)

/-- The product and its quotient, multiplication.hpp:285-313. -/
def mulR (a b : ℕ → ℕ) : ℕ := (compose a % modulus * (compose b % modulus)) % modulus
def mulQuot (a b : ℕ → ℕ) : ℕ := (compose a % modulus * (compose b % modulus) - mulR a b) / modulus

/-- `t[0]` to `t[3]`, multiplication.hpp:332-337. -/
def mulTerm (n : ℕ) (a b q : ℕ → ℕ) : ℕ → ZMod n
  | 0 => a 0 * b 0 + negP 0 * q 0
  | 1 => a 1 * b 0 + a 0 * b 1 + negP 0 * q 1 + negP 1 * q 0
  | 2 => a 2 * b 0 + a 0 * b 2 + a 1 * b 1 + negP 2 * q 0 + q 2 * negP 0 + negP 1 * q 1
  | _ => a 3 * b 0 + b 3 * a 0 + a 1 * b 2 + b 1 * a 2 + negP 3 * q 0 + q 3 * negP 0 + negP 1 * q 2 + q 1 * negP 2

/-- `u0_integral`, multiplication.hpp:339-343. -/
def mulU0 (n : ℕ) (a b q r : ℕ → ℕ) : ℕ :=
  (mulTerm n a b q 0 - r 0 + mulTerm n a b q 1 * 2 ^ 66 - r 1 * 2 ^ 66).val >>> 132

/-- `u1_integral`, multiplication.hpp:351-356. -/
def mulU1 (n : ℕ) (a b q r : ℕ → ℕ) : ℕ :=
  (mulTerm n a b q 2 - r 2 + mulTerm n a b q 3 * 2 ^ 66 - r 3 * 2 ^ 66 + mulU0 n a b q r).val >>> 125

/-- Rows 4, 5 and 6, multiplication.hpp:363-388. -/
def mulCell (n : ℕ) (a b q r : ℕ → ℕ) (row j : ℕ) : ZMod n :=
  if row = 4 then if j < 4 then (a j : ZMod n) else if j < 8 then (b (j - 4) : ZMod n) else (q 0 : ZMod n)
  else if row = 5 then
    if j < 3 then (q (j + 1) : ZMod n) else if j < 7 then (r (j - 3) : ZMod n)
    else if j = 7 then (mulU0 n a b q r : ZMod n) else (mulU1 n a b q r : ZMod n)
  else if j < 4 then (carryChunk 4 (mulU0 n a b q r) j : ZMod n)
  else (carryChunk 9 (mulU1 n a b q r) (j - 4) : ZMod n)

/-- multiplication.hpp:363-388. -/
def mulWrites (c : Cols) (srow : ℤ) (a b q r : ℕ → ℕ) : List (Write (ZMod n)) :=
  ((List.range 9).map fun j : ℕ => ⟨.witness, c.w j, srow + (4 : ℕ), mulCell n a b q r 4 j⟩) ++
  ((List.range 9).map fun j : ℕ => ⟨.witness, c.w j, srow + (5 : ℕ), mulCell n a b q r 5 j⟩) ++
  ((List.range 8).map fun j : ℕ => ⟨.witness, c.w j, srow + (6 : ℕ), mulCell n a b q r 6 j⟩)

/-- `generate_assignments`, multiplication.hpp:259-408. -/
def mulAssign (c : Cols) (inp : In) (srow : ℤ) (t : Table (ZMod n)) : Table (ZMod n) :=
  let a := fun i => ((inp.a i).value t).val
  let b := fun i => ((inp.b i).value t).val
  rangeAssign c (mulResult c srow) (srow + 2)
    (rangeAssign c (mulQ c srow) srow
      (writeAll (mulWrites c srow a b (limb (mulQuot a b)) (limb (mulR a b))) t))

end assignments
end Ed25519
end Verif
