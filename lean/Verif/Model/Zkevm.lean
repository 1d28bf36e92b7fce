import Verif.Core.Grid
import Mathlib.Algebra.Field.ZMod
import Mathlib.Algebra.BigOperators.Group.Finset.Basic

/-!
# zkEVM gadgets

Models of `include/nil/blueprint/zkevm/`: the one-hot state selector, word chunking, the ISZERO, ADD/SUB,
MUL and DIV operations and the state transition constraints.

The witness columns available to an operation are `zkevm_circuit.get_opcode_cols()`; `witness_cols[i]` is
`c.w i`. An operation's constraints are parameterised by the row position expressions
(`get_opcode_row_constraint`, `zkevm/zkevm_circuit.hpp:219-235`); the multiplication of every constraint by
the opcode detection expression (`zkevm_circuit.hpp:350-377`) is `Zkevm.guarded`.
-/

namespace Verif

/-! ## State selector -/

namespace StateSelector
variable {F : Type*} [Field F]

/-- Number of pair columns, `(options_amount + 1) / 2` (`zkevm/state_selector.hpp:78-80, 142`). -/
def pairs (o : ℕ) : ℕ := (o + 1) / 2

/-- `witness_amount()` (`state_selector.hpp:142`). -/
def width (o : ℕ) : ℕ := pairs o + 2

/-- The sum `W(1) + ... + W(width-2)` accumulated by the loop (`state_selector.hpp:152-158`). -/
def sumExpr (c : Cols) : ℕ → Expr F
  | 0 => .const 0
  | n + 1 => sumExpr c n + c.wv ((n : ℤ) + 1)

/-- `idx_decompose` accumulated by the loop, `idx` growing by 2 (`state_selector.hpp:151-156`). -/
def idxExpr (c : Cols) : ℕ → Expr F
  | 0 => .const 0
  | n + 1 => idxExpr c n + .const ((2 * n : ℕ) : F) * c.wv ((n : ℤ) + 1)

/-- `generate_constraints` (`state_selector.hpp:145-174`). -/
def constraints (c : Cols) (o : ℕ) : List (Expr F) :=
  ((List.range (pairs o)).map fun i : ℕ => c.wv ((i : ℤ) + 1) * (c.wv ((i : ℤ) + 1) - 1)) ++
  [sumExpr c (pairs o) - 1,
   idxExpr c (pairs o) + c.wv ((width o : ℤ) - 1) - c.wv 0,
   c.wv ((width o : ℤ) - 1) * (c.wv ((width o : ℤ) - 1) - 1)] ++
  (if o % 2 ≠ 0 then [c.wv ((width o : ℤ) - 2) * c.wv ((width o : ℤ) - 1)] else [])

/-- `option_constraint` (`state_selector.hpp:176-185`). -/
def option (c : Cols) (o j : ℕ) : Expr F :=
  if j % 2 = 0 then c.wv ((j / 2 : ℕ) + 1) * (c.wv ((width o : ℤ) - 1) - 1)
  else c.wv ((j / 2 : ℕ) + 1) * c.wv ((width o : ℤ) - 1)

/-- `generate_circuit` (`state_selector.hpp:257-272`): the gate on the start row. The copy constraints of
`generate_copy_constraints` (239-254) are *not* added: the function is never called. -/
def circuit (c : Cols) (o : ℕ) (_idx : Var) (srow : ℤ) : List (Op F) := [.gate (constraints c o) [srow]]

/-- `generate_assignments` (`state_selector.hpp:198-224`) for an index whose representative is `k`. -/
def writes (c : Cols) (o k : ℕ) (srow : ℤ) : List (Write F) :=
  [⟨.witness, c.w 0, srow, (k : F)⟩] ++
  ((List.range (pairs o)).map fun i : ℕ => ⟨.witness, c.w ((i : ℤ) + 1), srow, 0⟩) ++
  [⟨.witness, c.w (((k / 2 : ℕ) : ℤ) + 1), srow, 1⟩,
   ⟨.witness, c.w ((width o : ℤ) - 1), srow, ((k % 2 : ℕ) : F)⟩]

/-- The table after `generate_assignments`. -/
def assign {p : ℕ} [Fact p.Prime] (c : Cols) (o : ℕ) (idx : Var) (srow : ℤ) (t : Table (ZMod p)) : Table (ZMod p) :=
  writeAll (writes c o (idx.value t).val srow) t

end StateSelector

/-! ## Words -/

namespace Zkevm

/-- The chunking loop `chunks.push_back(copy & mask); copy >>= 16` (`zkevm/zkevm_word.hpp:68-71, 86-89`). -/
def chunkLoop : ℕ → ℕ → List ℕ
  | 0, _ => []
  | n + 1, w => (w &&& (2 ^ 16 - 1)) :: chunkLoop n (w >>> 16)

/-- `zkevm_word_to_field_element` (`zkevm_word.hpp:57-73`); words are integers modulo `2^256`. -/
def wordChunks {F : Type*} [NatCast F] (w : BitVec 256) : List F := (chunkLoop 16 w.toNat).map fun n : ℕ => (n : F)

/-- `chunk_64_to_16` (`zkevm_word.hpp:75-91`). -/
def chunk64 {p : ℕ} (v : ZMod p) : List (ZMod p) := (chunkLoop 4 v.val).map fun n : ℕ => (n : ZMod p)

/-! ## Operations -/

section ops
variable {F : Type*} [Field F]

/-- The constraints of an operation of class `MIDDLE_OP` are multiplied by the opcode detection expression
(`zkevm_circuit.hpp:355-360`). -/
def guarded (opt : Expr F) (cs : List (Expr F)) : List (Expr F) := cs.map fun e => opt * e

/-- `chunk_sum` of the first `n` chunks, columns `0 .. n-1` at rotation `rot` (`operations/iszero.hpp:56-60`,
`operations/div.hpp:146-149`). -/
def chunkSum (c : Cols) (rot : ℤ) : ℕ → Expr F
  | 0 => .const 0
  | n + 1 => chunkSum c rot n + c.wv (n : ℤ) rot

/-- ISZERO `generate_gates` (`operations/iszero.hpp:49-70`). -/
def iszeroGates (c : Cols) : List (Expr F) :=
  ((List.range 15).map fun i : ℕ => c.wv ((17 + i : ℕ) : ℤ)) ++
  [chunkSum c 0 16 * c.wv 32 + c.wv 16 - 1,
   chunkSum c 0 16 * c.wv 16]

/-- ISZERO `generate_assignments` (`operations/iszero.hpp:72-99`), row `curr_row`. -/
def iszeroWrites [DecidableEq F] (c : Cols) (a : BitVec 256) (row : ℤ) : List (Write F) :=
  let ch : List F := wordChunks a
  ((List.range 16).map fun i : ℕ => ⟨.witness, c.w (i : ℤ), row, ch.getD i 0⟩) ++
  [⟨.witness, c.w 16, row, if a = 0 then 1 else 0⟩] ++
  ((List.range 15).map fun i : ℕ => ⟨.witness, c.w ((17 + i : ℕ) : ℤ), row, 0⟩) ++
  [⟨.witness, c.w 32, row, if ch.sum = 0 then 0 else 1 * ch.sum⁻¹⟩]

/-- `two_16, two_32, two_48, two_64, two128, two192` (`operations/mul.hpp:49-54`, `add_sub.hpp:52-54`). -/
def two (n : ℕ) : F := ((2 ^ n : ℕ) : F)

/-- `constraint_gen` for triple `i > 0` (`add_sub.hpp:64-83, 107-112`). -/
def addTriple (c : Cols) (pos : Expr F) (i : ℕ) : List (Expr F) :=
  let a (j : ℕ) : Expr F := c.wv (j : ℤ) (-1)
  let b (j : ℕ) : Expr F := c.wv (j : ℤ) 0
  let r (j : ℕ) : Expr F := c.wv (j : ℤ) 1
  let k (j : ℕ) : Expr F := c.wv ((16 + j : ℕ) : ℤ) 1
  [pos * (k (i - 1) + (a (3 * i) + b (3 * i)) + (a (3 * i + 1) + b (3 * i + 1)) * .const (two 16) +
      (a (3 * i + 2) + b (3 * i + 2)) * .const (two 32)
      - r (3 * i) - r (3 * i + 1) * .const (two 16) - r (3 * i + 2) * .const (two 32) - k i * .const (two 48)),
   pos * k i * (k i - 1)]

/-- ADD/SUB `generate_gates` (`operations/add_sub.hpp:56-117`): one constraint per triple of chunks, the
first without incoming carry, and the last single chunk. -/
def addSubGates (c : Cols) (pos : Expr F) : List (Expr F) :=
  let a (j : ℕ) : Expr F := c.wv (j : ℤ) (-1)
  let b (j : ℕ) : Expr F := c.wv (j : ℤ) 0
  let r (j : ℕ) : Expr F := c.wv (j : ℤ) 1
  let k (j : ℕ) : Expr F := c.wv ((16 + j : ℕ) : ℤ) 1
  [pos * ((a 0 + b 0) + (a 1 + b 1) * .const (two 16) + (a 2 + b 2) * .const (two 32)
      - r 0 - r 1 * .const (two 16) - r 2 * .const (two 32) - k 0 * .const (two 48)),
   pos * k 0 * (k 0 - 1)] ++
  addTriple c pos 1 ++ addTriple c pos 2 ++ addTriple c pos 3 ++ addTriple c pos 4 ++
  [pos * (k 4 + a 15 + b 15 - r 15 - k 5 * .const (two 16)),
   pos * k 5 * (k 5 - 1)]

end ops

/-- The running carry of ADD/SUB `generate_assignments` after triple `i` (`add_sub.hpp:146-152`); the
comparison `>= two_48` compares the representatives of field elements. -/
def addCarry {p : ℕ} (a b : List (ZMod p)) : ℕ → Bool
  | 0 => ((2 ^ 48 : ℕ) : ZMod p).val ≤ ((0 : ZMod p) + a.getD 0 0 + b.getD 0 0 +
      (a.getD 1 0 + b.getD 1 0) * ((2 ^ 16 : ℕ) : ZMod p) + (a.getD 2 0 + b.getD 2 0) * ((2 ^ 32 : ℕ) : ZMod p)).val
  | i + 1 => ((2 ^ 48 : ℕ) : ZMod p).val ≤ ((((addCarry a b i).toNat : ℕ) : ZMod p) + a.getD (3 * (i + 1)) 0 + b.getD (3 * (i + 1)) 0 +
      (a.getD (3 * (i + 1) + 1) 0 + b.getD (3 * (i + 1) + 1) 0) * ((2 ^ 16 : ℕ) : ZMod p) +
      (a.getD (3 * (i + 1) + 2) 0 + b.getD (3 * (i + 1) + 2) 0) * ((2 ^ 32 : ℕ) : ZMod p)).val

/-- The last carry (`add_sub.hpp:153`). -/
def addLastCarry {p : ℕ} (a b : List (ZMod p)) : Bool :=
  ((2 ^ 16 : ℕ) : ZMod p).val ≤ ((((addCarry a b 4).toNat : ℕ) : ZMod p) + a.getD 15 0 + b.getD 15 0).val

/-- ADD/SUB `generate_assignments` (`add_sub.hpp:119-162`): for SUB the result and `a` swap roles. Row
`curr_row` is `row`. -/
def addSubWrites {p : ℕ} (c : Cols) (isAdd : Bool) (a b : BitVec 256) (row : ℤ) : List (Write (ZMod p)) :=
  let res := if isAdd then a + b else a - b
  let a' := if isAdd then a else res
  let res' := if isAdd then res else a
  let A : List (ZMod p) := wordChunks a'
  let B : List (ZMod p) := wordChunks b
  let R : List (ZMod p) := wordChunks res'
  ((List.range 16).map fun i : ℕ => ⟨.witness, c.w (i : ℤ), row, A.getD i 0⟩) ++
  ((List.range 16).map fun i : ℕ => ⟨.witness, c.w (i : ℤ), row + 1, B.getD i 0⟩) ++
  ((List.range 16).map fun i : ℕ => ⟨.witness, c.w (i : ℤ), row + 2, R.getD i 0⟩) ++
  ((List.range 5).map fun i : ℕ => ⟨.witness, c.w ((16 + i : ℕ) : ℤ), row + 2, (((addCarry A B i).toNat : ℕ) : ZMod p)⟩) ++
  [⟨.witness, c.w 21, row + 2, (((addLastCarry A B).toNat : ℕ) : ZMod p)⟩]

/-! ## MUL and DIV

The templates of the code, instantiated with constraints and with field elements; `cst n` is the constant `2^n`. -/

section templates
variable {T : Type*} [Add T] [Sub T] [Mul T]

/-- `chunk_sum_64` (`operations/mul.hpp:57-61`, `operations/div.hpp:58-62`). -/
def sum64 (cst : ℕ → T) (v : ℕ → T) (k : ℕ) : T :=
  v (4 * k) + v (4 * k + 1) * cst 16 + v (4 * k + 2) * cst 32 + v (4 * k + 3) * cst 48

/-- `first_carryless_consrtruct` of MUL (`mul.hpp:64-72`). -/
def mulFirst (cst : ℕ → T) (a b r : ℕ → T) : T :=
  a 0 * b 0 + cst 64 * (a 0 * b 1 + a 1 * b 0) - r 0 - cst 64 * r 1

/-- `second_carryless_construct` of MUL (`mul.hpp:75-84`). -/
def mulSecond (cst : ℕ → T) (a b r : ℕ → T) : T :=
  (a 0 * b 2 + a 1 * b 1 + a 2 * b 0 - r 2) +
    cst 64 * (a 0 * b 3 + a 1 * b 2 + a 2 * b 1 + a 3 * b 0 - r 3)

/-- `first_carryless_consrtruct` of DIV (`div.hpp:65-73`). -/
def divFirst (cst : ℕ → T) (a b r q : ℕ → T) : T :=
  r 0 * b 0 + q 0 + cst 64 * (r 0 * b 1 + r 1 * b 0 + q 1) - a 0 - cst 64 * a 1

/-- `second_carryless_construct` of DIV (`div.hpp:76-86`). -/
def divSecond (cst : ℕ → T) (a b r q : ℕ → T) : T :=
  (r 0 * b 2 + r 1 * b 1 + r 2 * b 0 + q 2 - a 2) +
    cst 64 * (r 0 * b 3 + r 1 * b 2 + r 2 * b 1 + r 3 * b 0 + q 3 - a 3)
end templates

section muldiv
variable {F : Type*} [Field F]

/-- The constants as constraints. -/
def cE (n : ℕ) : Expr F := .const (two n)

/-- MUL `generate_gates` (`mul.hpp:86-142`). -/
def mulGates (c : Cols) (pos : Expr F) : List (Expr F) :=
  let a : ℕ → Expr F := sum64 cE fun i => c.wv (i : ℤ) (-1)
  let b : ℕ → Expr F := sum64 cE fun i => c.wv (i : ℤ) 0
  let r : ℕ → Expr F := sum64 cE fun i => c.wv (i : ℤ) 1
  let c1 : Expr F := sum64 cE (fun i => c.wv ((16 + i : ℕ) : ℤ) (-1)) 0
  let c3 : Expr F := sum64 cE (fun i => c.wv ((16 + i : ℕ) : ℤ) 0) 0
  let c2 : Expr F := c.wv 16 1
  let c4 : Expr F := c.wv 17 1
  [pos * (mulFirst cE a b r - c1 * cE 128 - c2 * cE 192),
   pos * (mulSecond cE a b r + c1 + c2 * cE 64 - c3 * cE 128 - c4 * cE 192),
   pos * c2 * (c2 - 1),
   pos * c4 * (c4 - 1) * (c4 - 2) * (c4 - 3)]

/-- First part of DIV `generate_gates` (`div.hpp:97-168`), position `position_1`. -/
def divGates1 (c : Cols) (pos : Expr F) : List (Expr F) :=
  let a : ℕ → Expr F := sum64 cE fun i => c.wv (i : ℤ) (-1)
  let b : ℕ → Expr F := sum64 cE fun i => c.wv (i : ℤ) 0
  let r : ℕ → Expr F := sum64 cE fun i => c.wv (i : ℤ) 1
  let q : ℕ → Expr F := sum64 cE fun i => c.wv ((16 + i : ℕ) : ℤ) 1
  let c1 : Expr F := sum64 cE (fun i => c.wv ((16 + i : ℕ) : ℤ) (-1)) 0
  let c3 : Expr F := sum64 cE (fun i => c.wv ((16 + i : ℕ) : ℤ) 0) 0
  let c2 : Expr F := c.wv 20 (-1)
  let c4 : Expr F := c.wv 20 0
  let inv : Expr F := c.wv 21 0
  let sum : Expr F := chunkSum c 0 16
  [pos * inv * (inv * sum - 1),
   pos * sum * (inv * sum - 1),
   pos * (divFirst cE a b r q - c1 * cE 128 - c2 * cE 192),
   pos * (divSecond cE a b r q + c1 + c2 * cE 64 - c3 * cE 128 - c4 * cE 192),
   pos * c2 * (c2 - 1),
   pos * c4 * (c4 - 1) * (c4 - 2) * (c4 - 3)] ++
  (List.range 16).map fun i : ℕ => pos * (1 - inv * sum) * c.wv (i : ℤ) 1

/-- Second part of DIV `generate_gates` (`div.hpp:173-211`), position `position_2`. -/
def divGates2 (c : Cols) (pos : Expr F) : List (Expr F) :=
  let inv : Expr F := c.wv 21 (-1)
  let sum : Expr F := chunkSum c (-1) 16
  let bnz : Expr F := inv * sum
  let d (i : ℕ) : Expr F := c.wv (i : ℤ) (-1) - c.wv ((16 + i : ℕ) : ℤ) 0
  let t (i : ℕ) : Expr F := c.wv (i : ℤ) 1
  let v (i : ℕ) : Expr F := c.wv ((16 + i : ℕ) : ℤ) 1
  [pos * bnz * (t 15 - v 15 * d 15),
   pos * bnz * v 15 * (v 15 * d 15 - 1),
   pos * bnz * d 15 * (v 15 * d 15 - 1)] ++
  ((List.range 15).reverse.flatMap fun i : ℕ =>
    [pos * bnz * (t i - t (i + 1) - (1 - t (i + 1)) * v i * d i),
     pos * bnz * (v i * (v i * d i - 1)),
     pos * bnz * (d i * (v i * d i - 1))]) ++
  [pos * bnz * (t 0 - 1)]

/-- DIV `generate_gates` (`div.hpp:88-214`). -/
def divGates (c : Cols) (pos1 pos2 : Expr F) : List (Expr F) := divGates1 c pos1 ++ divGates2 c pos2
end muldiv

/-- `first_row_carries`, resp. `second_row_carries`, split in the low 64 bits and the rest
(`mul.hpp:166-175`, `div.hpp:245-255`): `(x.data >> 128) & (2^64 - 1)` and `(x.data >> 128) >> 64`. -/
def carryLo {p : ℕ} (x : ZMod p) : ZMod p := (((x.val >>> 128) &&& ((((2 ^ 64 : ℕ) : ZMod p) - 1).val) : ℕ) : ZMod p)
/-- See `carryLo`. -/
def carryHi {p : ℕ} (x : ZMod p) : ZMod p := ((x.val >>> 128 >>> 64 : ℕ) : ZMod p)

section
variable {p : ℕ} [Fact p.Prime]

/-- `a_64_chunks[i] = chunk_sum_64(a_chunks, i)` (`mul.hpp:157-161`). -/
def val64 (l : List (ZMod p)) : ℕ → ZMod p := sum64 two fun i => l.getD i 0

/-- MUL `generate_assignments` (`mul.hpp:144-201`). -/
def mulWrites (c : Cols) (a b : BitVec 256) (row : ℤ) : List (Write (ZMod p)) :=
  let A : List (ZMod p) := wordChunks a
  let B : List (ZMod p) := wordChunks b
  let R : List (ZMod p) := wordChunks (a * b)
  let x1 := mulFirst two (val64 A) (val64 B) (val64 R)
  let x2 := mulSecond two (val64 A) (val64 B) (val64 R) + carryLo x1 + carryHi x1 * two 64
  ((List.range 16).map fun i : ℕ => ⟨.witness, c.w (i : ℤ), row, A.getD i 0⟩) ++
  ((List.range 4).map fun i : ℕ => ⟨.witness, c.w ((16 + i : ℕ) : ℤ), row, (chunk64 (carryLo x1)).getD i 0⟩) ++
  ((List.range 16).map fun i : ℕ => ⟨.witness, c.w (i : ℤ), row + 1, B.getD i 0⟩) ++
  ((List.range 4).map fun i : ℕ => ⟨.witness, c.w ((16 + i : ℕ) : ℤ), row + 1, (chunk64 (carryLo x2)).getD i 0⟩) ++
  ((List.range 16).map fun i : ℕ => ⟨.witness, c.w (i : ℤ), row + 2, R.getD i 0⟩) ++
  [⟨.witness, c.w 16, row + 2, carryHi x1⟩, ⟨.witness, c.w 17, row + 2, carryHi x2⟩]

/-- The boolean `t_val` after processing chunks `15, 14, ..., i` (`div.hpp:285-289`); chunks are compared as
field representatives. -/
def divT (B Q : List (ZMod p)) (i : ℕ) : Bool :=
  (List.range (16 - i)).any fun j => (Q.getD (15 - j) 0).val < (B.getD (15 - j) 0).val

/-- The writes of DIV `generate_assignments` for given words `r`, `q` and comparison flags (`div.hpp:227-296`). -/
def divWritesWith (c : Cols) (a b r q : BitVec 256) (T : ℕ → Bool) (row : ℤ) : List (Write (ZMod p)) :=
  let A : List (ZMod p) := wordChunks a
  let B : List (ZMod p) := wordChunks b
  let R : List (ZMod p) := wordChunks r
  let Q : List (ZMod p) := wordChunks q
  let x1 := divFirst two (val64 A) (val64 B) (val64 R) (val64 Q)
  let x2 := divSecond two (val64 A) (val64 B) (val64 R) (val64 Q) + carryLo x1 + carryHi x1 * two 64
  ((List.range 16).map fun i : ℕ => ⟨.witness, c.w (i : ℤ), row, A.getD i 0⟩) ++
  ((List.range 4).map fun i : ℕ => ⟨.witness, c.w ((16 + i : ℕ) : ℤ), row, (chunk64 (carryLo x1)).getD i 0⟩) ++
  [⟨.witness, c.w 20, row, carryHi x1⟩] ++
  ((List.range 16).map fun i : ℕ => ⟨.witness, c.w (i : ℤ), row + 1, B.getD i 0⟩) ++
  ((List.range 4).map fun i : ℕ => ⟨.witness, c.w ((16 + i : ℕ) : ℤ), row + 1, (chunk64 (carryLo x2)).getD i 0⟩) ++
  [⟨.witness, c.w 20, row + 1, carryHi x2⟩, ⟨.witness, c.w 21, row + 1, if B.sum = 0 then 0 else B.sum⁻¹⟩] ++
  ((List.range 16).map fun i : ℕ => ⟨.witness, c.w (i : ℤ), row + 2, R.getD i 0⟩) ++
  ((List.range 16).map fun i : ℕ => ⟨.witness, c.w ((16 + i : ℕ) : ℤ), row + 2, Q.getD i 0⟩) ++
  ((List.range 16).map fun i : ℕ => ⟨.witness, c.w (i : ℤ), row + 3, (((T i).toNat : ℕ) : ZMod p)⟩) ++
  ((List.range 16).map fun i : ℕ => ⟨.witness, c.w ((16 + i : ℕ) : ℤ), row + 3,
    if B.getD i 0 - Q.getD i 0 ≠ 0 then 1 * (B.getD i 0 - Q.getD i 0)⁻¹ else 0⟩)

/-- DIV `generate_assignments` (`div.hpp:216-301`): `r = a / b` and `q = a % b`, or `0` and `a` for `b = 0`. -/
def divWrites (c : Cols) (a b : BitVec 256) (row : ℤ) : List (Write (ZMod p)) :=
  let r : BitVec 256 := if b ≠ 0 then BitVec.ofNat 256 (a.toNat / b.toNat) else 0
  let q : BitVec 256 := if b ≠ 0 then BitVec.ofNat 256 (a.toNat % b.toNat) else a
  divWritesWith c a b r q (divT (wordChunks b : List (ZMod p)) (wordChunks q)) row
end

end Zkevm
end Verif
