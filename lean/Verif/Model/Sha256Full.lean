import Verif.Model.Sha256
import Verif.Model.Decomposition

/-!
# `sha256` (`components/hashes/sha2/plonk/sha256.hpp`)

SHA-256 of a message of 512 bits, given as four field elements of 128 bits each. Calls `decomposition` twice and `sha256_process` twice; the
second block is the padding. Nine witness columns, one constant column, `2 * 762 + 2 * 3 + 2` rows.
-/

namespace Verif
namespace Sha256Full

/-- `input_type` (108-114). -/
structure In where
  data : ℕ → Var

/-- `constants` (201-203, 495-497). -/
def ivList : List ℕ := [0x6a09e667, 0xbb67ae85, 0x3c6ef372, 0xa54ff53a, 0x510e527f, 0x9b05688c, 0x1f83d9ab, 0x5be0cd19]

/-- `constants2` (207-209, 502-504). -/
def padList : List ℕ := [2147483648, 0, 0, 0, 0, 0, 0, 0, 0, 0, 0, 0, 0, 0, 0, 2 ^ 9]

section
variable {p : ℕ}

/-- `calculate` (188-224); `none` as in `Sha256.calculate`. -/
def calculate (b : ℕ → ZMod p) : Option (ℕ → ZMod p) :=
  let part1 := Decomposition.calculate (b 0) (b 1)
  let part2 := Decomposition.calculate (b 2) (b 3)
  let words := fun i => if i < 8 then part1.getD i 0 else part2.getD (i - 8) 0
  (Sha256.calculate (fun i => ((ivList.getD i 0 : ℕ) : ZMod p)) words).bind fun s1 =>
    (Sha256.calculate s1 fun i => ((padList.getD i 0 : ℕ) : ZMod p)).map fun s2 k =>
      if k = 0 then s2 3 + s2 2 * ((2 ^ 32 : ℕ) : ZMod p) + s2 1 * ((2 ^ 64 : ℕ) : ZMod p) + s2 0 * ((2 ^ 96 : ℕ) : ZMod p)
      else s2 7 + s2 6 * ((2 ^ 32 : ℕ) : ZMod p) + s2 5 * ((2 ^ 64 : ℕ) : ZMod p) + s2 4 * ((2 ^ 96 : ℕ) : ZMod p)
end

/-- Cell of the constant column (`var(component.C(0), row, false, constant)`, 276-284). -/
def cv (c : Cols) (row : ℤ) : Var := ⟨c.k 0, row, false, .constant⟩

/-- `decomposition_input` (252-253, 416-418). -/
def dec1 (inp : In) : Decomposition.In := ⟨inp.data 0, inp.data 1⟩
/-- The second one (258-259, 423-424). -/
def dec2 (inp : In) : Decomposition.In := ⟨inp.data 2, inp.data 3⟩

/-- `sha256_process_input` (270-287, 434-449). -/
def proc1 (c : Cols) (srow : ℤ) : Sha256.In where
  state i := cv c (srow + (i : ℤ))
  words i := if i < 8 then Decomposition.result c srow i else Decomposition.result c (srow + 3) (i - 8)

/-- `sha256_process_input_2` (293-312, 454-473). -/
def proc2 (c : Cols) (srow : ℤ) : Sha256.In where
  state i := Sha256.result c (srow + 6) i
  words i := cv c (srow + 8 + (i : ℤ))

/-- `result_type` (116-122); `rows_amount - 1 = 1531`. -/
def result (c : Cols) (srow : ℤ) (k : ℕ) : Var := c.wa (k : ℤ) (srow + 1531)

section
variable {p : ℕ}

/-- The last two rows (319-332). -/
def outWrites (c : Cols) (srow : ℤ) (t : Table (ZMod p)) : List (Write (ZMod p)) :=
  let s := fun i => (Sha256.result c (srow + 768) i).value t
  ((List.range 8).map fun i : ℕ => ⟨.witness, c.w (i : ℤ), srow + 1530, s i⟩) ++
  [⟨.witness, c.w 1, srow + 1531, s 7 + s 6 * ((2 ^ 32 : ℕ) : ZMod p) + s 5 * ((2 ^ 64 : ℕ) : ZMod p) + s 4 * ((2 ^ 96 : ℕ) : ZMod p)⟩,
   ⟨.witness, c.w 0, srow + 1531, s 3 + s 2 * ((2 ^ 32 : ℕ) : ZMod p) + s 1 * ((2 ^ 64 : ℕ) : ZMod p) + s 0 * ((2 ^ 96 : ℕ) : ZMod p)⟩]

/-- `generate_assignments` (231-334). The values of `second_block_state` are read in the table before the last two rows are written; they lie in
other rows. -/
def assign (c : Cols) (inp : In) (srow : ℤ) (t : Table (ZMod p)) : Table (ZMod p) :=
  let ta := Decomposition.assign c (dec1 inp) srow t
  let tb := Decomposition.assign c (dec2 inp) (srow + 3) ta
  let tc := Sha256.assign c (proc1 c srow) (srow + 6) tb
  let td := Sha256.assign c (proc2 c srow) (srow + 768) tc
  writeAll (outWrites c srow td) td
end

section
variable {F : Type*} [Field F]

/-- `generate_gates` (361-381). -/
def gate (c : Cols) : List (Expr F) :=
  let w := fun (i r : ℤ) => (c.wv i r : Expr F)
  let k := fun (n : ℕ) => (Expr.const (n : F) : Expr F)
  [w 1 1 - (w 7 0 + w 6 0 * k (2 ^ 32) + w 5 0 * k (2 ^ 64) + w 4 0 * k (2 ^ 96)),
   w 0 1 - (w 3 0 + w 2 0 * k (2 ^ 32) + w 1 0 * k (2 ^ 64) + w 0 0 * k (2 ^ 96))]

/-- `generate_assignments_constant` (485-508). -/
def constants (c : Cols) (srow : ℤ) : List (Op F) :=
  ((List.range 8).map fun i : ℕ => Op.constant (c.k 0) (srow + (i : ℤ)) ((ivList.getD i 0 : ℕ) : F)) ++
  (List.range 16).map fun i : ℕ => Op.constant (c.k 0) (srow + 8 + (i : ℤ)) ((padList.getD i 0 : ℕ) : F)

/-- `generate_circuit` (393-483). `generate_copy_constraints` (383-391) is empty. -/
def circuit (p : ℕ) (c : Cols) (inp : In) (srow : ℤ) : List (Op F) :=
  constants c srow ++
  Decomposition.circuit c (dec1 inp) srow ++ Decomposition.circuit c (dec2 inp) (srow + 3) ++
  Sha256.circuit p c (proc1 c srow) (srow + 6) ++ Sha256.circuit p c (proc2 c srow) (srow + 768) ++
  [.gate (gate c) [srow + 1530]]
end

end Sha256Full
end Verif
