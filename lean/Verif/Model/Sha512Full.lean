import Verif.Model.Sha512

/-!
# `sha512` (`components/hashes/sha2/plonk/sha512.hpp`)

The hash of a message of 1276 bits, used by the Ed25519 components: the points `R` and `A` and the number `M`, given by twenty limbs. Fifteen rows
cut the limbs into twenty words; then `sha512_process` is called twice. Nine witness columns, one constant column, 15 + 2 * 1110 rows.
-/

namespace Verif
namespace Sha512Full

/-- `input_type` (99-103): the limbs of `R.x`, `R.y`, `A.x`, `A.y` and `M`, four each, in the order of `all_vars` and of `RAM` (239-264). -/
structure In where
  limb : ℕ → Var

/-- `constants` (959-962). -/
def ivList : List ℕ :=
  [0x6a09e667f3bcc908, 0xbb67ae8584caa73b, 0x3c6ef372fe94f82b, 0xa54ff53a5f1d36f1, 0x510e527fade682d1, 0x9b05688c2b3e6c1f, 0x1f83d9abfb41bd6b,
   0x5be0cd19137e2179]

/-- `input_words_values` (268-289): the words cut out of the limbs. -/
def wordList (x : ℕ → ℕ) : List ℕ :=
  [x 0 % 2 ^ 64,
   (x 0 / 2 ^ 64 + x 1 * 2 ^ 2) % 2 ^ 64,
   (x 1 / 2 ^ 62 + x 2 * 2 ^ 4) % 2 ^ 64,
   (x 2 / 2 ^ 60 + x 3 * 2 ^ 6 + x 4 * 2 ^ 63) % 2 ^ 64,
   x 4 / 2 ^ 1 % 2 ^ 64,
   (x 4 / 2 ^ 65 + x 5 * 2 ^ 1) % 2 ^ 64,
   (x 5 / 2 ^ 63 + x 6 * 2 ^ 3) % 2 ^ 64,
   (x 6 / 2 ^ 61 + x 7 * 2 ^ 5 + x 8 * 2 ^ 62) % 2 ^ 64,
   x 8 / 2 ^ 2 % 2 ^ 64,
   x 9 % 2 ^ 64,
   (x 9 / 2 ^ 64 + x 10 * 2 ^ 2) % 2 ^ 64,
   (x 10 / 2 ^ 62 + x 11 * 2 ^ 4 + x 12 * 2 ^ 61) % 2 ^ 64,
   (x 12 / 2 ^ 3 + x 13 * 2 ^ 63) % 2 ^ 64,
   x 13 / 2 ^ 1 % 2 ^ 64,
   (x 13 / 2 ^ 65 + x 14 * 2 ^ 1) % 2 ^ 64,
   (x 14 / 2 ^ 63 + x 15 * 2 ^ 3 + x 16 * 2 ^ 60) % 2 ^ 64,
   (x 16 / 2 ^ 4 + x 17 * 2 ^ 62) % 2 ^ 64,
   x 17 / 2 ^ 2 % 2 ^ 64,
   x 18 % 2 ^ 64,
   x 18 / 2 ^ 64 + x 19 * 2 ^ 2 + 2 ^ 60]

/-- `input_words_values` (268-296). -/
def wordValue (x : ℕ → ℕ) (i : ℕ) : ℕ := if i = 31 then 1024 + 252 else (wordList x).getD i 0

/-- What is written to a cell of the first fifteen rows. -/
inductive Src
  /-- `RAM[i]` -/
  | ram (i : ℕ)
  /-- `input_words_values[i]` -/
  | word (i : ℕ)
  /-- `range_chunks`: `(RAM[i] >> s) & (2^w - 1)` -/
  | chunk (i s w : ℕ)
  | one
  deriving DecidableEq

/-- Row, column and content of every cell written by `generate_assignments` (312-644). -/
def layout : List (ℕ × ℕ × Src) :=
  [
   (0, 0, .ram 0), (0, 1, .chunk 0 0 22), (0, 2, .ram 1), (0, 3, .chunk 1 0 22), (0, 4, .ram 2), (0, 5, .chunk 2 0 22), (0, 6, .ram 3),
   (0, 7, .chunk 3 0 22), (1, 0, .word 0), (1, 1, .chunk 0 22 22), (1, 2, .word 1), (1, 3, .chunk 1 22 22), (1, 4, .word 2), (1, 5, .chunk 2 22 22),
   (1, 6, .word 3), (1, 7, .chunk 3 22 22), (2, 0, .chunk 0 64 2), (2, 1, .chunk 0 44 20), (2, 2, .chunk 1 62 4), (2, 3, .chunk 1 44 18),
   (2, 4, .chunk 2 60 6), (2, 5, .chunk 2 44 16), (2, 6, .chunk 4 0 1), (2, 7, .chunk 3 44 13), (3, 0, .ram 4), (3, 1, .chunk 4 1 21),
   (3, 2, .ram 5), (3, 3, .chunk 5 0 22), (3, 4, .ram 6), (3, 5, .chunk 6 0 22), (3, 6, .ram 7), (3, 7, .chunk 7 0 22), (3, 8, .chunk 4 0 1),
   (4, 0, .word 4), (4, 1, .chunk 4 22 22), (4, 2, .word 5), (4, 3, .chunk 5 22 22), (4, 4, .word 6), (4, 5, .chunk 6 22 22), (4, 6, .word 7),
   (4, 7, .chunk 7 22 22), (5, 0, .chunk 4 65 1), (5, 1, .chunk 4 44 21), (5, 2, .chunk 5 63 3), (5, 3, .chunk 5 44 19), (5, 4, .chunk 6 61 5),
   (5, 5, .chunk 6 44 17), (5, 6, .chunk 8 0 2), (5, 7, .chunk 7 44 13), (6, 0, .ram 8), (6, 1, .chunk 8 0 2), (6, 2, .ram 9), (6, 3, .chunk 9 0 22),
   (6, 4, .ram 10), (6, 5, .chunk 10 0 22), (6, 6, .ram 11), (6, 7, .chunk 11 0 22), (7, 0, .word 8), (7, 1, .chunk 8 2 20), (7, 2, .word 9),
   (7, 3, .chunk 9 22 22), (7, 4, .word 10), (7, 5, .chunk 10 22 22), (7, 6, .word 11), (7, 7, .chunk 11 22 22), (8, 0, .chunk 8 44 22),
   (8, 1, .chunk 8 22 22), (8, 2, .chunk 9 64 2), (8, 3, .chunk 9 44 20), (8, 4, .chunk 10 62 4), (8, 5, .chunk 10 44 18), (8, 6, .chunk 12 0 3),
   (8, 7, .chunk 11 44 13), (9, 0, .ram 12), (9, 1, .chunk 12 0 3), (9, 2, .ram 13), (9, 3, .chunk 13 1 21), (9, 4, .ram 14), (9, 5, .chunk 14 0 22),
   (9, 6, .ram 15), (9, 7, .chunk 15 0 22), (9, 8, .chunk 13 0 1), (10, 0, .word 12), (10, 1, .chunk 12 3 19), (10, 2, .word 13),
   (10, 3, .chunk 13 22 22), (10, 4, .word 14), (10, 5, .chunk 14 22 22), (10, 6, .word 15), (10, 7, .chunk 15 22 22), (11, 0, .chunk 12 44 22),
   (11, 1, .chunk 12 22 22), (11, 2, .chunk 13 65 1), (11, 3, .chunk 13 44 21), (11, 4, .chunk 14 63 3), (11, 5, .chunk 14 44 19),
   (11, 6, .chunk 16 0 4), (11, 7, .chunk 15 44 13), (12, 0, .ram 16), (12, 1, .chunk 16 0 4), (12, 2, .ram 17), (12, 3, .chunk 17 0 2),
   (12, 4, .ram 18), (12, 5, .chunk 18 0 22), (12, 6, .ram 19), (12, 7, .chunk 19 0 22), (13, 0, .word 16), (13, 1, .chunk 16 4 18),
   (13, 2, .word 17), (13, 3, .chunk 17 2 20), (13, 4, .word 18), (13, 5, .chunk 18 22 22), (13, 6, .word 19), (13, 7, .chunk 19 22 22),
   (14, 0, .chunk 16 44 22), (14, 1, .chunk 16 22 22), (14, 2, .chunk 17 44 22), (14, 3, .chunk 17 22 22), (14, 4, .chunk 18 64 2),
   (14, 5, .chunk 18 44 20), (14, 7, .chunk 19 44 14), (14, 8, .one)]

/-- The values of the cells. -/
def srcValue (x : ℕ → ℕ) : Src → ℕ
  | .ram i => x i
  | .word i => wordValue x i
  | .chunk i s w => x i / 2 ^ s % 2 ^ w
  | .one => 1

/-- Writing the cells. -/
def fill {F : Type*} (c : Cols) (srow : ℤ) (v : Src → F) (t : Table F) : Table F :=
  writeAll (layout.map fun q => ⟨.witness, c.w (q.2.1 : ℤ), srow + (q.1 : ℤ), v q.2.2⟩) t

/-- The inputs of the first call of `sha512_process`, given the witness columns and the constant column that the variables name. -/
def proc1 (wc : ℕ → ℕ) (kc : ℕ) (srow : ℤ) : Sha512.In where
  state i := ⟨kc, srow + (i : ℤ), false, .constant⟩
  words i := ⟨wc (2 * (i % 4)), srow + 1 + 3 * ((i / 4 : ℕ) : ℤ), false, .witness⟩

/-- The inputs of the second call. -/
def proc2 (c : Cols) (wc : ℕ → ℕ) (kc : ℕ) (srow : ℤ) : Sha512.In where
  state i := Sha512.result c (srow + 15) i
  words i :=
    if i < 4 then ⟨wc (2 * i), srow + 1 + 12, false, .witness⟩
    else if i < 15 then ⟨kc, srow + 8, false, .constant⟩ else ⟨kc, srow + 9, false, .constant⟩

/-- `result_type` (116-128) with `rows_amount = 15 + 2 * 1110`. -/
def result (c : Cols) (srow : ℤ) (i : ℕ) : Var :=
  if i < 4 then c.wa (i : ℤ) (srow + 2235 - 3) else c.wa ((i : ℤ) - 4) (srow + 2235 - 1)

section
variable {p : ℕ}

/-- `generate_assignments` (227-734): the variables name the columns of the component. -/
def assign (c : Cols) (inp : In) (srow : ℤ) (t : Table (ZMod p)) : Table (ZMod p) :=
  let x := fun i => ((inp.limb i).value t).val
  let ta := fill c srow (fun s => ((srcValue x s : ℕ) : ZMod p)) t
  let tb := Sha512.assign c (proc1 (fun i => c.w (i : ℤ)) (c.k 0) srow) (srow + 15) ta
  Sha512.assign c (proc2 c (fun i => c.w (i : ℤ)) (c.k 0) srow) (srow + 15 + 1110) tb
end

/-- One constraint `w - (Σ w' * 2^e)`: column and rotation of `w`, columns, rotations and exponents of the sum. -/
structure Con where
  col : ℤ
  rot : ℤ
  terms : List (ℤ × ℤ × ℕ)

/-- `generate_gates` (736-917): the five gates. -/
def gates : List (List Con) :=
  [
   [⟨0, -1, [(1, -1, 0), (1, 0, 22), (1, 1, 44), (0, 1, 64)]⟩,
    ⟨2, -1, [(3, -1, 0), (3, 0, 22), (3, 1, 44), (2, 1, 62)]⟩,
    ⟨4, -1, [(5, -1, 0), (5, 0, 22), (5, 1, 44), (4, 1, 60)]⟩,
    ⟨6, -1, [(7, -1, 0), (7, 0, 22), (7, 1, 44)]⟩,
    ⟨0, 0, [(1, -1, 0), (1, 0, 22), (1, 1, 44)]⟩,
    ⟨2, 0, [(0, 1, 0), (3, -1, 2), (3, 0, 24), (3, 1, 46)]⟩,
    ⟨4, 0, [(2, 1, 0), (5, -1, 4), (5, 0, 26), (5, 1, 48)]⟩,
    ⟨6, 0, [(4, 1, 0), (7, -1, 6), (7, 0, 28), (7, 1, 50), (6, 1, 63)]⟩],
   [⟨0, -1, [(8, -1, 0), (1, -1, 1), (1, 0, 22), (1, 1, 44), (0, 1, 65)]⟩,
    ⟨2, -1, [(3, -1, 0), (3, 0, 22), (3, 1, 44), (2, 1, 63)]⟩,
    ⟨4, -1, [(5, -1, 0), (5, 0, 22), (5, 1, 44), (4, 1, 61)]⟩,
    ⟨6, -1, [(7, -1, 0), (7, 0, 22), (7, 1, 44)]⟩,
    ⟨0, 0, [(1, -1, 0), (1, 0, 21), (1, 1, 43)]⟩,
    ⟨2, 0, [(0, 1, 0), (3, -1, 1), (3, 0, 23), (3, 1, 45)]⟩,
    ⟨4, 0, [(2, 1, 0), (5, -1, 3), (5, 0, 25), (5, 1, 47)]⟩,
    ⟨6, 0, [(4, 1, 0), (7, -1, 5), (7, 0, 27), (7, 1, 49), (6, 1, 62)]⟩],
   [⟨0, -1, [(1, -1, 0), (1, 0, 2), (1, 1, 22), (0, 1, 44)]⟩,
    ⟨2, -1, [(3, -1, 0), (3, 0, 22), (3, 1, 44), (2, 1, 64)]⟩,
    ⟨4, -1, [(5, -1, 0), (5, 0, 22), (5, 1, 44), (4, 1, 62)]⟩,
    ⟨6, -1, [(7, -1, 0), (7, 0, 22), (7, 1, 44)]⟩,
    ⟨0, 0, [(1, 0, 0), (1, 1, 20), (0, 1, 42)]⟩,
    ⟨2, 0, [(3, -1, 0), (3, 0, 22), (3, 1, 44)]⟩,
    ⟨4, 0, [(2, 1, 0), (5, -1, 2), (5, 0, 24), (5, 1, 46)]⟩,
    ⟨6, 0, [(4, 1, 0), (7, -1, 4), (7, 0, 26), (7, 1, 48), (6, 1, 61)]⟩],
   [⟨0, -1, [(1, -1, 0), (1, 0, 3), (1, 1, 22), (0, 1, 44)]⟩,
    ⟨2, -1, [(8, -1, 0), (3, -1, 1), (3, 0, 22), (3, 1, 44), (2, 1, 65)]⟩,
    ⟨4, -1, [(5, -1, 0), (5, 0, 22), (5, 1, 44), (4, 1, 63)]⟩,
    ⟨6, -1, [(7, -1, 0), (7, 0, 22), (7, 1, 44)]⟩,
    ⟨0, 0, [(1, 0, 0), (1, 1, 19), (0, 1, 41), (8, -1, 63)]⟩,
    ⟨2, 0, [(3, -1, 0), (3, 0, 21), (3, 1, 43)]⟩,
    ⟨4, 0, [(2, 1, 0), (5, -1, 1), (5, 0, 23), (5, 1, 45)]⟩,
    ⟨6, 0, [(4, 1, 0), (7, -1, 3), (7, 0, 25), (7, 1, 47), (6, 1, 60)]⟩],
   [⟨0, -1, [(1, -1, 0), (1, 0, 4), (1, 1, 22), (0, 1, 44)]⟩,
    ⟨2, -1, [(3, -1, 0), (3, 0, 2), (3, 1, 22), (2, 1, 44)]⟩,
    ⟨4, -1, [(5, -1, 0), (5, 0, 22), (5, 1, 44), (4, 1, 64)]⟩,
    ⟨6, -1, [(7, -1, 0), (7, 0, 22), (7, 1, 44)]⟩,
    ⟨0, 0, [(1, 0, 0), (1, 1, 18), (0, 1, 40), (3, -1, 62)]⟩,
    ⟨2, 0, [(3, 0, 0), (3, 1, 20), (2, 1, 42)]⟩,
    ⟨4, 0, [(5, -1, 0), (5, 0, 22), (5, 1, 44)]⟩,
    ⟨6, 0, [(4, 1, 0), (7, -1, 2), (7, 0, 24), (7, 1, 46), (8, 1, 60)]⟩]]

section
variable {F : Type*} [Field F]

/-- The sum. -/
def sumExpr (c : Cols) : List (ℤ × ℤ × ℕ) → Expr F
  | [] => .const 0
  | (i, r, e) :: l => c.wv i r * .const ((2 ^ e : ℕ) : F) + sumExpr c l

/-- The constraint. -/
def Con.expr (c : Cols) (k : Con) : Expr F := c.wv k.col k.rot - sumExpr c k.terms

/-- The gates with their selectors (175-179). -/
def gateOps (c : Cols) (srow : ℤ) : List (Op F) :=
  (List.range 5).map fun n : ℕ => Op.gate ((gates.getD n []).map (Con.expr c)) [srow + 1 + 3 * (n : ℤ)]

/-- `generate_copy_constraints` (919-947). -/
def copies (c : Cols) (inp : In) (srow : ℤ) : List (Op F) :=
  ((List.range 4).flatMap fun i : ℕ => (List.range 5).map fun n : ℕ =>
    Op.copy (c.wa (2 * (i : ℤ)) (srow + 3 * (n : ℤ))) (inp.limb (4 * n + i))) ++
  [Op.copy (c.wa 6 (srow + 4 - 3 + 1)) (c.wa 8 (srow + 4 - 1))] ++
  (List.range 3).map fun i : ℕ => Op.copy (c.wa 6 (srow + 1 + 6 + 3 * (i : ℤ) - 3 + 1)) (c.wa 1 (srow + 1 + 6 + 3 * (i : ℤ) - 1))

/-- `generate_assignments_constant` (949-969). -/
def constants (c : Cols) (srow : ℤ) : List (Op F) :=
  ((List.range 8).map fun i : ℕ => Op.constant (c.k 0) (srow + (i : ℤ)) ((ivList.getD i 0 : ℕ) : F)) ++
  [Op.constant (c.k 0) (srow + 8) 0, Op.constant (c.k 0) (srow + 9) ((252 + 1024 : ℕ) : F)]

/-- `generate_circuit` (155-224): the variables given to `sha512_process` name the witness columns 0, 2, 4, 6 and the constant column 0, whatever the
columns of the component are. -/
def circuit (c : Cols) (inp : In) (srow : ℤ) : List (Op F) :=
  constants c srow ++ gateOps c srow ++ Sha512.circuit c (proc1 id 0 srow) (srow + 15) ++
    Sha512.circuit c (proc2 c id 0 srow) (srow + 15 + 1110) ++ copies c inp srow
end

end Sha512Full
end Verif
