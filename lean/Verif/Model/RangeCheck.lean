import Verif.Core.Grid
import Mathlib.Algebra.Field.ZMod

/-!
# Range check

`components/algebra/fields/plonk/range_check.hpp`. Chunks are 2 bits wide (`chunk_size = 2`, line 156),
one column is reserved for the running sum (line 157). `w` is the number of witness columns.
-/

namespace Verif

/-- `generate_chunk_size_constraint` (range_check.hpp:326-332): `v (v-1) ... (v-(2^size-1))`. -/
def chunkSizeExpr {F : Type*} [Field F] (v : Expr F) (size : ℕ) : Expr F :=
  (List.range (2 ^ size - 1)).foldl (fun (e : Expr F) (i : ℕ) => e * (v - .const (((i + 1 : ℕ) : F)))) v

namespace RangeCheck
variable {F : Type*} [Field F]

/-- range_check.hpp:71-73. -/
def chunksPerRow (w : ℕ) : ℕ := w - 1
/-- range_check.hpp:75-77. -/
def bitsPerRow (w : ℕ) : ℕ := chunksPerRow w * 2
/-- range_check.hpp:79-83. -/
def rows (w bits : ℕ) : ℕ := 1 + (bits + bitsPerRow w - 1) / bitsPerRow w
/-- range_check.hpp:85-88. -/
def paddedChunks (w bits : ℕ) : ℕ := (rows w bits - 1) * chunksPerRow w
/-- range_check.hpp:90-93. -/
def paddingSize (w bits : ℕ) : ℕ := paddedChunks w bits - (bits + 2 - 1) / 2
/-- range_check.hpp:95-97. -/
def paddingBits (w bits : ℕ) : ℕ := paddedChunks w bits * 2 - bits

/-- range_check.hpp:342-351. -/
def sumExpr (c : Cols) (m : ℕ) : Expr F :=
  ((List.range (m - 1)).foldl (fun (e : Expr F) (i : ℕ) => .const (2 ^ 2) * e + c.wv ((1 + (i + 1) : ℕ) : ℤ)) (c.wv 1))
    + .const (2 ^ (2 * m)) * c.wv 0 (-1) - c.wv 0

/-- First gate, range_check.hpp:324-354. -/
def gate1 (c : Cols) (w : ℕ) : List (Expr F) :=
  ((List.range (chunksPerRow w)).map fun (i : ℕ) => chunkSizeExpr (c.wv ((1 + i : ℕ) : ℤ)) 2) ++
  [sumExpr c (chunksPerRow w)]

/-- The `zero` variable of range_check.hpp:380: constant column *index 0*, not `C(0)`. -/
def zeroVar (srow : ℤ) : Var := ⟨0, srow, false, .constant⟩

/-- range_check.hpp:210-239 with gates 309-364, copies 367-389, constants 392-402. -/
def circuit (c : Cols) (w bits : ℕ) (x : Var) (srow : ℤ) : List (Op F) :=
  [.gate (gate1 c w) (rowsFrom (srow + 1) (rows w bits - 1))] ++
  (if bits % 2 = 0 then [] else
    [.gate [chunkSizeExpr (c.wv ((1 + paddingSize w bits : ℕ) : ℤ)) (bits % 2)] [srow + 1]]) ++
  [.copy (zeroVar srow) (c.wa 0 srow)] ++
  ((List.range (paddingSize w bits)).map fun (i : ℕ) =>
    .copy (zeroVar srow) (c.wa ((i + 1 : ℕ) : ℤ) (srow + 1))) ++
  [.copy x (c.wa 0 (srow + rows w bits - 1)),
   .constant (c.k 0) srow 0]

/-- The bit array of range_check.hpp:264-273: padding, then the low `bits` bits of `x`, most
significant first. -/
def bitAt (w bits x i : ℕ) : Bool :=
  if i < paddingBits w bits then false else x.testBit (bits - 1 - (i - paddingBits w bits))

/-- range_check.hpp:277-285. -/
def chunk (w bits x i : ℕ) : ℕ := 2 * (bitAt w bits x (i * 2)).toNat + (bitAt w bits x (i * 2 + 1)).toNat

/-- `sum` after the first `n` chunks (range_check.hpp:290-298). -/
def sumAfter (w bits x : ℕ) (n : ℕ) : F :=
  (List.range n).foldl (fun (s : F) (i : ℕ) => s * 4 + (chunk w bits x i : F)) 0

/-- range_check.hpp:287-301. -/
def writes (c : Cols) (w bits x : ℕ) (srow : ℤ) : List (Write F) :=
  ⟨.witness, c.w 0, srow, 0⟩ ::
  (List.range (rows w bits - 1)).flatMap fun (i : ℕ) =>
    ((List.range (chunksPerRow w)).map fun (j : ℕ) =>
      ⟨.witness, c.w ((1 + j : ℕ) : ℤ), srow + ((i + 1 : ℕ) : ℤ), (chunk w bits x (i * chunksPerRow w + j) : F)⟩) ++
    [⟨.witness, c.w 0, srow + ((i + 1 : ℕ) : ℤ), sumAfter w bits x (i * chunksPerRow w + chunksPerRow w)⟩]

end RangeCheck

/-- range_check.hpp:242-306 over a prime field (`x.data` is the canonical integer). -/
def RangeCheck.assign {p : ℕ} [Fact p.Prime] (c : Cols) (w bits : ℕ) (x : Var) (srow : ℤ)
    (t : Table (ZMod p)) : Table (ZMod p) :=
  writeAll (RangeCheck.writes c w bits (x.value t).val srow) t

end Verif
