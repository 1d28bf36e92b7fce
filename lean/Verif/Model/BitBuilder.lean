import Verif.Core.Grid
import Mathlib.Algebra.Field.ZMod

/-!
# Bit decomposition and composition

`components/algebra/fields/plonk/non_native/{bit_decomposition,bit_composition}.hpp` and their common base
`detail/bit_builder_component.hpp`. `w` is the number of witness columns (at least 3 by the manifest).
-/

namespace Verif

namespace BitBuilder
variable {F : Type*} [Field F]

/-- bit_builder_component.hpp:148-150. -/
def bpg (w : ℕ) : ℕ := 3 * w - 2
/-- bit_builder_component.hpp:152-155. -/
def bpfg (w : ℕ) (check : Bool) : ℕ := if check then bpg w else bpg w + 1
/-- bit_builder_component.hpp:157-159. -/
def lastPos (w : ℕ) : ℕ := 3 * w - 1
/-- bit_builder_component.hpp:120-140. -/
def padding (w bits : ℕ) (check : Bool) : ℕ :=
  if check then
    if bits > bpg w then 1 + (bpg w - bits % bpg w) % bpg w else bpg w + 1 - bits
  else
    if bits > bpfg w check then (bpg w - (bits - bpfg w check) % bpg w) % bpg w else bpfg w check - bits
/-- bit_builder_component.hpp:142-146. -/
def sumBits (w bits : ℕ) (check : Bool) : ℕ :=
  1 + (if bits + check.toNat ≥ 2 then bits + check.toNat - 2 else 0) / bpg w * 2
/-- bit_builder_component.hpp:99-105. -/
def rows (w bits : ℕ) (check : Bool) : ℕ :=
  (bits + sumBits w bits check + padding w bits check) / w

/-- `bit_position` (265-273) before `straight_bit_position`: the cell number counted row by row. -/
def bitCell (w b : ℕ) : ℕ :=
  b + (if b ≥ lastPos w then 2 + (b - lastPos w) / bpg w * 2 else 0)
/-- `sum_bit_position` (285-294) before `straight_bit_position`. -/
def sumCell (w s : ℕ) : ℕ := lastPos w + (s / 2) * (3 * w) + s % 2

/-- `straight_bit_position` (111-118) as a variable: cell `k` is in row `k / w`, column `k % w`. -/
def cellVar (c : Cols) (w : ℕ) (srow : ℤ) (k : ℕ) : Var :=
  c.wa ((k % w : ℕ) : ℤ) (srow + ((k / w : ℕ) : ℤ))

/-- The gate variable for cell `n` of a block. The code's counters `(col_idx, row_idx)` (362-376) start at
`(1, -1)` for cell 1 and advance column by column, so cell `n` is at `(n % w, n / w - 1)`. -/
def gv (c : Cols) (w n : ℕ) : Expr F := c.wv ((n % w : ℕ) : ℤ) (((n / w : ℕ) : ℤ) - 1)

/-- bit_builder_component.hpp:351-397. -/
def gate (c : Cols) (w : ℕ) (check : Bool) : List (Expr F) :=
  [(List.range (lastPos w - 1)).foldl (fun (e : Expr F) (i : ℕ) => 2 * e + gv c w (i + 1)) (c.wv 0 (-1))
    - gv c w (lastPos w)] ++
  (if check then (List.range (lastPos w - 1)).map fun (i : ℕ) => gv c w (i + 1) * (1 - gv c w (i + 1))
   else [])

/-- `generate_circuit` of the base (411-431). -/
def base (c : Cols) (w bits : ℕ) (check : Bool) (srow : ℤ) : List (Op F) :=
  [.gate (gate c w check) (rowsBetween (srow + 1) (srow + (rows w bits check : ℤ) - 2) 3),
   .constant (c.k 0) srow 0]

/-- `var zero(0, row, false, constant)`: constant column index 0. -/
def zeroVar (srow : ℤ) : Var := ⟨0, srow, false, .constant⟩

/-- Padding copies (bit_decomposition.hpp:280-285, bit_composition.hpp:274-280). -/
def padCopies (c : Cols) (w bits : ℕ) (check : Bool) (srow : ℤ) : List (Op F) :=
  (List.range (padding w bits check)).map fun i => .copy (zeroVar srow) (cellVar c w srow (bitCell w i))

/-- Sum copies (bit_decomposition.hpp:287-293, bit_composition.hpp:288-294): `i = 0, 2, 4, ..` below
`sum_bits_amount - 1`. -/
def sumCopies (c : Cols) (w bits : ℕ) (check : Bool) (srow : ℤ) : List (Op F) :=
  (List.range ((sumBits w bits check - 1 + 1) / 2)).map fun i =>
    .copy (cellVar c w srow (sumCell w (2 * i))) (cellVar c w srow (sumCell w (2 * i + 1)))

/-- `sum` after the first `n` input bits (325-335). -/
def sumAfter (b : ℕ → Bool) (n : ℕ) : F :=
  (List.range n).foldl (fun (s : F) (i : ℕ) => 2 * s + ((b i).toNat : F)) 0

/-- A write to straight cell `k`. -/
def wr (c : Cols) (w : ℕ) (srow : ℤ) (k : ℕ) (v : F) : Write F :=
  ⟨.witness, c.w ((k % w : ℕ) : ℤ), srow + ((k / w : ℕ) : ℤ), v⟩

/-- `generate_assignments` of the base (302-343). -/
def writes (c : Cols) (w bits : ℕ) (check : Bool) (b : ℕ → Bool) (srow : ℤ) : List (Write F) :=
  ((List.range (padding w bits check)).map fun i => wr c w srow (bitCell w i) 0) ++
  ((List.range bits).map fun i => wr c w srow (bitCell w (padding w bits check + i)) ((b i).toNat : F)) ++
  (List.range ((sumBits w bits check + 1) / 2)).flatMap fun g =>
    let s : F := sumAfter b (lastPos w - padding w bits check + g * bpg w)
    wr c w srow (sumCell w (2 * g)) s ::
      (if 2 * g ≠ sumBits w bits check - 1 then [wr c w srow (sumCell w (2 * g + 1)) s] else [])

/-- The index map used for both orders (bit_decomposition.hpp:188-190, bit_composition.hpp:215-217). -/
def idx (msb : Bool) (bits i : ℕ) : ℕ := if msb then i else bits - i - 1

end BitBuilder

namespace BitDecomp
open BitBuilder
variable {F : Type*} [Field F]

/-- bit_decomposition.hpp:301-321 with copies 265-298. -/
def circuit (c : Cols) (w bits : ℕ) (x : Var) (srow : ℤ) : List (Op F) :=
  base c w bits true srow ++ padCopies c w bits true srow ++ sumCopies c w bits true srow ++
  [.copy x (cellVar c w srow (sumCell w (sumBits w bits true - 1)))]

/-- `output[i]` (bit_decomposition.hpp:120-133). -/
def out (c : Cols) (w bits : ℕ) (msb : Bool) (srow : ℤ) (i : ℕ) : Var :=
  cellVar c w srow (bitCell w (padding w bits true + idx msb bits i))

/-- The low `bits` bits of the input, most significant first (222-230); `i < bits`. -/
def inBits (bits x : ℕ) (i : ℕ) : Bool := x.testBit (bits - 1 - i)

/-- `calculate` (186-204). -/
def calculate (x bits : ℕ) (msb : Bool) : List Bool :=
  (List.range bits).map fun i => inBits bits x (idx msb bits i)

/-- `generate_empty_assignments` (240-262): `calculate` written into nine columns. -/
def emptyWrites (c : Cols) (bits x : ℕ) (msb : Bool) (srow : ℤ) : List (Write F) :=
  (List.range bits).map fun (i : ℕ) =>
    ⟨.witness, c.w ((i % 9 : ℕ) : ℤ), srow + ((i / 9 : ℕ) : ℤ), if (calculate x bits msb).getD i false then 1 else 0⟩

/-- `output[i]` of the skipped component (134-140). -/
def emptyOut (c : Cols) (srow : ℤ) (i : ℕ) : Var := c.wa ((i % 9 : ℕ) : ℤ) (srow + ((i / 9 : ℕ) : ℤ))
end BitDecomp

/-- bit_decomposition.hpp:212-237. -/
def BitDecomp.assign {p : ℕ} [Fact p.Prime] (c : Cols) (w bits : ℕ) (x : Var) (srow : ℤ)
    (t : Table (ZMod p)) : Table (ZMod p) :=
  writeAll (BitBuilder.writes c w bits true (BitDecomp.inBits bits (x.value t).val) srow) t

namespace BitComp
open BitBuilder
variable {F : Type*} [Field F]

/-- bit_composition.hpp:298-317 with copies 255-295. -/
def circuit (c : Cols) (w : ℕ) (check msb : Bool) (bs : List Var) (srow : ℤ) : List (Op F) :=
  base c w bs.length check srow ++ padCopies c w bs.length check srow ++
  ((List.range bs.length).map fun i =>
    .copy (bs.getD (idx msb bs.length i) default)
      (cellVar c w srow (bitCell w (padding w bs.length check + i)))) ++
  sumCopies c w bs.length check srow

/-- `output` (bit_composition.hpp:128-131). -/
def out (c : Cols) (w bits : ℕ) (check : Bool) (srow : ℤ) : Var :=
  cellVar c w srow (sumCell w (sumBits w bits check - 1))

/-- bit_composition.hpp:203-228. -/
def assign [DecidableEq F] (c : Cols) (w : ℕ) (check msb : Bool) (bs : List Var) (srow : ℤ) (t : Table F) : Table F :=
  writeAll (writes c w bs.length check
    (fun i => decide ((bs.getD (idx msb bs.length i) default).value t ≠ 0)) srow) t

/-- `calculate` (bit_composition.hpp:177-195). -/
def calculate (bits : List Bool) (msb : Bool) : F :=
  ((List.range bits.length).map fun i => bits.getD (idx msb bits.length i) false).foldl
    (fun (s : F) (b : Bool) => 2 * s + (b.toNat : F)) 0
end BitComp

end Verif
