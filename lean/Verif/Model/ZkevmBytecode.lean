import Verif.Core.Grid
import Mathlib.Data.ZMod.Basic

/-!
# Model of `zkevm_bytecode` and of the lookup based boolean components

`zkevm/bytecode.hpp` (the bytecode circuit and the dynamic table it fills), the tables `zkevm_opcodes` and
`byte_range_table` of `lookup_library.hpp`; `components/algebra/fields/plonk/non_native/lookup_logic_ops.hpp` with
`detail/boolean_lookup_op_component.hpp` and the tables `binary_and_table`, `binary_xor_table`.
-/

namespace Verif
namespace ZkBytecode

/-- First column of `zkevm_opcodes` (lookup_library.hpp:99-112). -/
def opcodes : List ℕ :=
  [0x0, 0x1, 0x2, 0x3, 0x4, 0x5, 0x6, 0x7, 0x8, 0x9, 0xa, 0xb,
   0x10, 0x11, 0x12, 0x13, 0x14, 0x15, 0x16, 0x17, 0x18, 0x19, 0x1a, 0x1b, 0x1c, 0x1d,
   0x20,
   0x30, 0x31, 0x32, 0x33, 0x34, 0x35, 0x36, 0x37, 0x38, 0x39, 0x3a, 0x3b, 0x3c, 0x3d, 0x3e, 0x3f,
   0x40, 0x41, 0x42, 0x43, 0x44, 0x45, 0x46, 0x47, 0x48, 0x49, 0x4a,
   0x50, 0x51, 0x52, 0x53, 0x54, 0x55, 0x56, 0x57, 0x58, 0x59, 0x5a, 0x5b, 0x5c, 0x5d, 0x5e, 0x5f,
   0x60, 0x61, 0x62, 0x63, 0x64, 0x65, 0x66, 0x67, 0x68, 0x69, 0x6a, 0x6b, 0x6c, 0x6d, 0x6e, 0x6f,
   0x70, 0x71, 0x72, 0x73, 0x74, 0x75, 0x76, 0x77, 0x78, 0x79, 0x7a, 0x7b, 0x7c, 0x7d, 0x7e, 0x7f,
   0x80, 0x81, 0x82, 0x83, 0x84, 0x85, 0x86, 0x87, 0x88, 0x89, 0x8a, 0x8b, 0x8c, 0x8d, 0x8e, 0x8f,
   0x90, 0x91, 0x92, 0x93, 0x94, 0x95, 0x96, 0x97, 0x98, 0x99, 0x9a, 0x9b, 0x9c, 0x9d, 0x9e, 0x9f,
   0xa0, 0xa1, 0xa2, 0xa3, 0xa4,
   0xf0, 0xf1, 0xf2, 0xf3, 0xf4, 0xf5, 0xfa, 0xfd, 0xfe, 0xff]

/-- Second column of `zkevm_opcodes` (lookup_library.hpp:114-127). -/
def pushSizes : List ℕ :=
  [0x0, 0x0, 0x0, 0x0, 0x0, 0x0, 0x0, 0x0, 0x0, 0x0, 0x0, 0x0,
   0x0, 0x0, 0x0, 0x0, 0x0, 0x0, 0x0, 0x0, 0x0, 0x0, 0x0, 0x0, 0x0, 0x0,
   0x0,
   0x0, 0x0, 0x0, 0x0, 0x0, 0x0, 0x0, 0x0, 0x0, 0x0, 0x0, 0x0, 0x0, 0x0, 0x0, 0x0,
   0x0, 0x0, 0x0, 0x0, 0x0, 0x0, 0x0, 0x0, 0x0, 0x0, 0x0,
   0x0, 0x0, 0x0, 0x0, 0x0, 0x0, 0x0, 0x0, 0x0, 0x0, 0x0, 0x0, 0x0, 0x0, 0x0, 0x0,
   0x1, 0x2, 0x3, 0x4, 0x5, 0x6, 0x7, 0x8, 0x9, 0xa, 0xb, 0xc, 0xd, 0xe, 0xf, 0x10,
   0x11, 0x12, 0x13, 0x14, 0x15, 0x16, 0x17, 0x18, 0x19, 0x1a, 0x1b, 0x1c, 0x1d, 0x1e, 0x1f, 0x20,
   0x0, 0x0, 0x0, 0x0, 0x0, 0x0, 0x0, 0x0, 0x0, 0x0, 0x0, 0x0, 0x0, 0x0, 0x0, 0x0,
   0x0, 0x0, 0x0, 0x0, 0x0, 0x0, 0x0, 0x0, 0x0, 0x0, 0x0, 0x0, 0x0, 0x0, 0x0, 0x0,
   0x0, 0x0, 0x0, 0x0, 0x0,
   0x0, 0x0, 0x0, 0x0, 0x0, 0x0, 0x0, 0x0, 0x0, 0x0]

/-- Rows of `zkevm_opcodes`: the third column is 1, then a row of zeros (lookup_library.hpp:129-135). The subtable `full`
is rows 0 to 149, all of them (94). -/
def opcodeRows : List (ℕ × ℕ × ℕ) :=
  (opcodes.zip pushSizes).map (fun x => (x.1, x.2, 1)) ++ [(0, 0, 0)]

section
variable {F : Type*} [Field F]

/-- Table `zkevm_opcodes/full`. -/
def opcodeTable (l : List F) : Prop :=
  ∃ r ∈ opcodeRows, l = [(r.1 : F), (r.2.1 : F), (r.2.2 : F)]

/-- Table `byte_range_table/full` (lookup_library.hpp:72-87). -/
def byteTable (l : List F) : Prop := ∃ b < 256, l = [((b : ℕ) : F)]

/-- The arithmetic constraints (bytecode.hpp:473-491), in the order they are pushed. Columns (51-56, 245-248): 0 tag,
1 index, 2 value, 3 is_opcode, 4 hash_hi, 5 hash_lo, 6 push_size, 7 value_rlc, 8 length_left, 9 rlc_challenge. -/
def constraints (c : Cols) : List (Expr F) :=
  let tag := c.wv 0 0
  let tagPrev := c.wv 0 (-1)
  let tagNext := c.wv 0 1
  let index := c.wv 1 0
  let indexNext := c.wv 1 1
  let value := c.wv 2 0
  let lengthLeft := c.wv 8 0
  let lengthLeftNext := c.wv 8 1
  let isOpcode := c.wv 3 0
  let isOpcodeNext := c.wv 3 1
  let pushSize := c.wv 6 0
  let pushSizeNext := c.wv 6 1
  let hashHi := c.wv 4 0
  let hashHiNext := c.wv 4 1
  let hashLo := c.wv 5 0
  let hashLoNext := c.wv 5 1
  let valueRlc := c.wv 7 0
  let valueRlcPrev := c.wv 7 (-1)
  let challenge := c.wv 9 0
  let challengePrev := c.wv 9 (-1)
  [tag * (tag - 1),
   (tag - 1) * index,
   (tag - 1) * indexNext,
   tag * tagNext * (indexNext - index - 1),
   (tag - 1) * (lengthLeft - value),
   tagNext * (lengthLeft - lengthLeftNext - 1),
   tag * (tagNext - 1) * lengthLeft,
   isOpcode * (isOpcode - 1),
   (tag - 1) * isOpcode,
   (tag - 1) * tagNext * (isOpcodeNext - 1),
   isOpcodeNext * pushSize,
   tagNext * (isOpcodeNext - 1) * (pushSize - pushSizeNext - 1),
   tagNext * (hashHi - hashHiNext),
   tagNext * (hashLo - hashLoNext),
   (tag - 1) * valueRlc,
   tag * (valueRlc - valueRlcPrev * challenge - value),
   tag * (challenge - challengePrev),
   (tag - 1) * tagPrev * tagNext * (challenge - challengePrev)]

/-- `generate_circuit` (bytecode.hpp:529-548) with `generate_gates` (412-514): the selector of the dynamic table is enabled
on the `n = max_bytecode_size` rows of the component (214-216), and carries the constraints and the two lookups (493-511).
`generate_copy_constraints` is empty (516-527), the lookup of the hash is commented out (501-504). -/
def circuit (c : Cols) (n : ℕ) (srow : ℤ) : List (Op F) :=
  [.gate (constraints c) (rowsFrom srow n),
   .lookup byteTable [c.wv 0 0 * c.wv 2 0] (rowsFrom srow n),
   .lookup opcodeTable [c.wv 2 0 * c.wv 3 0, c.wv 6 0 * c.wv 3 0, c.wv 3 0] (rowsFrom srow n)]

/-- The tuple of the dynamic table `zkevm_bytecode` at a row (bytecode.hpp:218-229). The table consists of the tuples of
the rows where the selector is enabled. -/
def tuple (c : Cols) (t : Table F) (r : ℤ) : List F :=
  [t .witness (c.w 0) r, t .witness (c.w 1) r, t .witness (c.w 2) r, t .witness (c.w 3) r, t .witness (c.w 4) r,
   t .witness (c.w 5) r]

/-- Membership in the dynamic table. -/
def dynamicTable (c : Cols) (n : ℕ) (srow : ℤ) (t : Table F) (l : List F) : Prop :=
  ∃ i < n, l = tuple c t (srow + (i : ℕ))

end

/-- One row of the component, in column order. -/
structure Row (F : Type*) where
  tag : F
  index : F
  value : F
  isOp : F
  hi : F
  lo : F
  push : F
  rlc : F
  len : F
  ch : F

/-- Cell of a row by column. -/
def Row.cell {F : Type*} (x : Row F) : ℕ → F
  | 0 => x.tag
  | 1 => x.index
  | 2 => x.value
  | 3 => x.isOp
  | 4 => x.hi
  | 5 => x.lo
  | 6 => x.push
  | 7 => x.rlc
  | 8 => x.len
  | _ => x.ch

/-- A contract of `input_type` (bytecode.hpp:285-301): its hash and its bytes; the first entry is the length. -/
structure Contract (V : Type*) where
  hi : V
  lo : V
  bytes : List V

section
variable {p : ℕ} [Fact p.Prime]

/-- `if(byte > 0x5f && byte < 0x80) push_size = byte - 0x5f` (bytecode.hpp:189, 399), else `push_size` stays (it is 0). -/
def pushAfter (push b : ZMod p) : ZMod p :=
  if push = 0 then (if 0x5f < b.val ∧ b.val < 0x80 then b - 0x5f else push) else push - 1

/-- Rows of the bytes `b₁ b₂ …` of a contract from the `j`-th on: the loop of the table component (bytecode.hpp:166-196) and
the one of the circuit component (383-407) together; both keep a `push_size` of their own, with the same updates. `len` and
`rlc` are the cells `LENGTH_LEFT` and `VALUE_RLC` of the row above, which the code reads back from the table. -/
def byteRows (hi lo ch : ZMod p) : ℕ → ZMod p → ZMod p → ZMod p → ZMod p → List (ZMod p) → List (Row (ZMod p))
  | _, _, _, _, _, [] => []
  | j, push₁, push₂, len, rlc, b :: bs =>
    { tag := 1, index := (j : ℕ), value := b, isOp := if push₁ = 0 then 1 else 0, hi := hi, lo := lo,
      push := pushAfter push₂ b, rlc := rlc * ch + b, len := len - 1, ch := ch } ::
    byteRows hi lo ch (j + 1) (pushAfter push₁ b) (pushAfter push₂ b) (len - 1) (rlc * ch + b) bs

/-- Rows of one contract: header (bytecode.hpp:176-181, 389-394), then the bytes; a contract without entries has no row. -/
def contractRows (ch : ZMod p) (k : Contract (ZMod p)) : List (Row (ZMod p)) :=
  match k.bytes with
  | [] => []
  | v :: bs =>
    { tag := 0, index := 0, value := v, isOp := 0, hi := k.hi, lo := k.lo, push := 0, rlc := 0, len := v, ch := ch } ::
    byteRows k.hi k.lo ch 0 0 0 v 0 bs

/-- Rows of all contracts, one after the other. -/
def allRows (ch : ZMod p) (ks : List (Contract (ZMod p))) : List (Row (ZMod p)) := ks.flatMap (contractRows ch)

/-- Values of the inputs. -/
def Contract.read (t : Table (ZMod p)) (k : Contract Var) : Contract (ZMod p) :=
  ⟨k.hi.value t, k.lo.value t, k.bytes.map (Var.value t)⟩

/-- The writes of `generate_assignments` (bytecode.hpp:155-199 and 357-410), row by row. -/
def writes (c : Cols) (srow : ℤ) (rs : List (Row (ZMod p))) : List (Write (ZMod p)) :=
  (List.range rs.length).flatMap fun r : ℕ => (List.range 10).map fun j : ℕ =>
    ⟨.witness, c.w (j : ℤ), srow + (r : ℤ), ((rs[r]?).map fun x => x.cell j).getD 0⟩

/-- `generate_assignments` (bytecode.hpp:357-410): inputs are outside the rows of the component, hence read once. -/
def assign (c : Cols) (ks : List (Contract Var)) (challenge : Var) (srow : ℤ) (t : Table (ZMod p)) : Table (ZMod p) :=
  writeAll (writes c srow (allRows (challenge.value t) (ks.map (Contract.read t)))) t

end

section
variable {F : Type*} [Field F]

/-- `generate_circuit` of `bytecode_table_tester` (bytecode.hpp:718-769), the lookups: the tuple of the table's columns
(6 to 11) must be in the table on the row above and on the row below it; `selector_aside`, the selector of the lookup of
columns 0 to 5, is enabled on no row: 766 enables `selector_above` on row `srow + 1` again. -/
def testerCircuit (c : Cols) (n : ℕ) (srow : ℤ) (tbl : List F → Prop) : List (Op F) :=
  [.lookup tbl [c.wv 6 0, c.wv 7 0, c.wv 8 0, c.wv 9 0, c.wv 10 0, c.wv 11 0] [srow, srow + (n : ℕ) + 1, srow + 1],
   .lookup tbl [c.wv 0 0, c.wv 1 0, c.wv 2 0, c.wv 3 0, c.wv 4 0, c.wv 5 0] []]

end
end ZkBytecode

namespace LookupLogic
variable {F : Type*} [Field F]

/-- A lookup based boolean component: its table and the value assigned to the output. -/
structure LookupOp (F : Type*) where
  table : List (ℕ × ℕ × ℕ)
  value : F → F → F

/-- `lookup_logic_and` (lookup_logic_ops.hpp:83-97), `binary_and_table` (lookup_library.hpp:162-168); `full` is all four rows
(160). -/
def land : LookupOp F := ⟨[(0, 0, 0), (0, 1, 0), (1, 0, 0), (1, 1, 1)], fun a b => a * b⟩

/-- `lookup_logic_xor` (lookup_logic_ops.hpp:160-174), `binary_xor_table` (lookup_library.hpp:146-152). -/
def lxor : LookupOp F := ⟨[(0, 0, 0), (0, 1, 1), (1, 0, 1), (1, 1, 0)], fun a b => a + b - 2 * a * b⟩

/-- The lookup table. -/
def LookupOp.tbl (op : LookupOp F) (l : List F) : Prop :=
  ∃ r ∈ op.table, l = [(r.1 : F), (r.2.1 : F), (r.2.2 : F)]

/-- boolean_lookup_op_component.hpp:178-188 (lookup gate), 205-209 (copies), 224-232. -/
def circuit (op : LookupOp F) (c : Cols) (inp : ℕ → Var) (srow : ℤ) : List (Op F) :=
  [.lookup op.tbl [c.wv 0, c.wv 1, c.wv 2] [srow], .copy (inp 0) (c.wa 0 srow), .copy (inp 1) (c.wa 1 srow)]

/-- boolean_lookup_op_component.hpp:154-166. -/
def assign (op : LookupOp F) (c : Cols) (inp : ℕ → Var) (srow : ℤ) (t : Table F) : Table F :=
  let x := (inp 0).value t
  let t1 := t.set .witness (c.w 0) srow x
  let y := (inp 1).value t1
  let t2 := t1.set .witness (c.w 1) srow y
  t2.set .witness (c.w 2) srow (op.value x y)

/-- boolean_lookup_op_component.hpp:106. -/
def result (c : Cols) (srow : ℤ) : Var := c.wa 2 srow

end LookupLogic
end Verif
