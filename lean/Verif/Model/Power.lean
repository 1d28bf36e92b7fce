import Verif.Core.Grid

/-!
# Powers and polynomial evaluation

`components/systems/snark/plonk/flexible/{constant_pow,pow_factor}.hpp`.
-/

namespace Verif

namespace ConstantPow
variable {F : Type*} [Field F]

/-- The loop of `integral_type_log2` (constant_pow.hpp:45-53) from accumulator `a`. -/
def log2Loop (pow a : ℕ) : ℕ :=
  if 0 < a ∧ a < pow then log2Loop pow (a * 2) + 1 else 0
  termination_by pow - a

/-- constant_pow.hpp:45-53. -/
def log2 (pow : ℕ) : ℕ := log2Loop pow 1

/-- The loop of `integral_type_four_chunks` before the reversal (constant_pow.hpp:57-62). -/
def chunksLE (pow : ℕ) : List ℕ :=
  if pow = 0 then [] else pow % 4 :: chunksLE (pow / 4)
  termination_by pow

/-- constant_pow.hpp:56-65. -/
def fourChunks (pow : ℕ) : List ℕ := (chunksLE pow).reverse

/-- constant_pow.hpp:130-137. -/
def rows (w pow : ℕ) : ℕ :=
  let cells := (log2 pow + 1) / 2
  let one := w - 2
  if cells % one = 0 then cells / one else cells / one + 1

/-- The constructor's `assert` (constant_pow.hpp:174). -/
def ctorAssert (pow : ℕ) : Prop := (fourChunks pow).length = (log2 pow + 1) / 2

/-- Gate of one row (constant_pow.hpp:260-274); the loop counter `cur` at cell `2 + j` of row `r` is
`r * (w - 2) + j`. -/
def gateOf (c : Cols) (w : ℕ) (ch : List ℕ) (r : ℕ) : List (Expr F) :=
  ((List.range (w - 2)).filter fun j => r * (w - 2) + j < ch.length).map fun (j : ℕ) =>
    c.wv ((j + 2 : ℕ) : ℤ) - c.wv ((j + 1 : ℕ) : ℤ) ^ 4 * c.wv 0 ^ (ch.getD (r * (w - 2) + j) 0)

/-- constant_pow.hpp:291-296 (copies), 311-315. -/
def circuit (c : Cols) (w pow : ℕ) (x : Var) (srow : ℤ) : List (Op F) :=
  ((List.range (rows w pow)).map fun (r : ℕ) => Op.gate (gateOf c w (fourChunks pow) r) [srow + r]) ++
  (List.range (rows w pow)).flatMap fun (r : ℕ) =>
    Op.copy x (c.wa 0 (srow + r)) ::
    (if r ≠ 0 then [Op.copy (c.wa 1 (srow + r)) (c.wa ((w - 1 : ℕ) : ℤ) (srow + r - 1))] else [])

/-- `cur_val` after the first `n` chunks (constant_pow.hpp:223, 229). -/
def acc (x : F) (ch : List ℕ) (n : ℕ) : F := (ch.take n).foldl (fun v d => v ^ 4 * x ^ d) 1

/-- constant_pow.hpp:222-236. -/
def writes (c : Cols) (w pow : ℕ) (x : F) (srow : ℤ) : List (Write F) :=
  let ch := fourChunks pow
  (List.range (rows w pow)).flatMap fun (r : ℕ) =>
    ⟨.witness, c.w 0, srow + r, x⟩ ::
    ⟨.witness, c.w 1, srow + r, acc x ch (r * (w - 2))⟩ ::
    (List.range (w - 2)).map fun (j : ℕ) =>
      ⟨.witness, c.w ((j + 2 : ℕ) : ℤ), srow + r,
        if r * (w - 2) + j < ch.length then acc x ch (r * (w - 2) + j + 1) else 0⟩

/-- constant_pow.hpp:206-239. -/
def assign (c : Cols) (w pow : ℕ) (x : Var) (srow : ℤ) (t : Table F) : Table F :=
  writeAll (writes c w pow (x.value t) srow) t

/-- constant_pow.hpp:155-160. -/
def result (c : Cols) (w pow : ℕ) (srow : ℤ) : Var :=
  c.wa (((fourChunks pow).length % (w - 2) + 1 : ℕ) : ℤ) (srow + rows w pow - 1)
end ConstantPow

namespace PowFactor
variable {F : Type*} [Field F]

/-- pow_factor.hpp:55-57. -/
def rowCapacity (w : ℕ) : ℕ := if w = 10 then 8 else 8 + (w - 10) / 8 * 7

/-- pow_factor.hpp:59-68 (`cap` is the row capacity, at least 8). -/
def totalRows (cap v rows : ℕ) : ℕ :=
  if h : v ≤ cap ∨ cap < 2 then rows + 1 else totalRows cap (v % cap + v / cap) (rows + v / cap)
  termination_by v
  decreasing_by
    have h1 := Nat.div_add_mod v cap
    have h2 : 1 ≤ v / cap := (Nat.le_div_iff_mul_le (by omega)).2 (by omega)
    have h3 : 2 * (v / cap) ≤ cap * (v / cap) := Nat.mul_le_mul_right _ (by omega)
    omega

/-- pow_factor.hpp:78-80, 122-125. -/
def rows (w power : ℕ) : ℕ := totalRows (rowCapacity w) (power + 1) 0

/-- pow_factor.hpp:70-76. -/
def padding (w power : ℕ) : ℕ :=
  rows w power * rowCapacity w - (rows w power - 1) - (power + 1)

/-- pow_factor.hpp:183. -/
def zeroVar (c : Cols) (srow : ℤ) : Var := ⟨c.k 0, srow, false, .constant⟩

/-- pow_factor.hpp:179-190. -/
def padInput (c : Cols) (srow : ℤ) (pad : ℕ) (input : List Var) : List Var :=
  List.replicate pad (zeroVar c srow) ++ input

/-- Number of 8-column blocks: iterations of `start_index = 1; start_index < w - 1; start_index += 8`. -/
def perRow (w : ℕ) : ℕ := (w + 5) / 8

/-- Gate constraint of block `b` (pow_factor.hpp:253-264). -/
def blockExpr (c : Cols) (b : ℕ) : Expr F :=
  ((List.range 7).foldl (fun (e : Expr F) (i : ℕ) => e * c.wv 0 + c.wv ((1 + 8 * b + (i + 1) : ℕ) : ℤ))
    (c.wv ((1 + 8 * b : ℕ) : ℤ))) - c.wv ((1 + 8 * b + 8 : ℕ) : ℤ)

/-- The loop of `generate_copy_constraints` (pow_factor.hpp:291-318): state `var_index`, `slot_index`,
`row`. -/
def copyLoop (c : Cols) (w : ℕ) (srow : ℤ) (nrows : ℕ) (theta : Var) (pad : ℕ) :
    List Var → ℕ → ℕ → ℤ → List (Op F)
  | [], _, _, _ => []
  | v :: vs, idx, slot, row =>
    let slot1 := if (slot - 9) % 8 = 0 ∧ 9 ≤ slot then slot + 1 else slot
    let brk := w - 1 ≤ slot1
    let slot2 := if brk then 2 else slot1
    let row2 := if brk then row + 1 else row
    (if brk ∧ row + 1 < srow + nrows then
      [Op.copy (c.wa ((w - 1 : ℕ) : ℤ) row) (c.wa 1 (row + 1)), Op.copy theta (c.wa 0 (row + 1))]
     else []) ++
    Op.copy (if idx < pad then zeroVar c srow else v) (c.wa (slot2 : ℤ) row2) ::
    copyLoop c w srow nrows theta pad vs (idx + 1) (slot2 + 1) row2

/-- pow_factor.hpp:347-353. -/
def circuit (c : Cols) (w : ℕ) (theta : Var) (coefs : List Var) (srow : ℤ) : List (Op F) :=
  let power := coefs.length - 1
  let pad := padding w power
  .constant (c.k 0) srow 0 ::
  .gate ((List.range (perRow w)).map (blockExpr c)) (rowsFrom srow (rows w power)) ::
  .copy theta (c.wa 0 srow) ::
  copyLoop c w srow (rows w power) theta pad (padInput c srow pad coefs) 0 1 srow

/-- `poly_value` after the first `n` padded coefficients (pow_factor.hpp:218, 227). -/
def horner (theta : F) (l : List F) : F := l.foldl (fun a c => a * theta + c) 0

/-- The `while` loop of pow_factor.hpp:220-232: each iteration consumes `7 * perRow` values. -/
def writes (c : Cols) (w : ℕ) (theta : F) (padded : List F) (srow : ℤ) : List (Write F) :=
  let k := perRow w
  (List.range ((padded.length - 1 + 7 * k - 1) / (7 * k))).flatMap fun (r : ℕ) =>
    ⟨.witness, c.w 0, srow + r, theta⟩ ::
    ⟨.witness, c.w 1, srow + r, horner theta (padded.take (7 * (k * r) + 1))⟩ ::
    (List.range k).flatMap fun (b : ℕ) =>
      ((List.range 7).map fun (i : ℕ) =>
        ⟨.witness, c.w ((1 + 8 * b + (i + 1) : ℕ) : ℤ), srow + r, padded.getD (7 * (k * r + b) + (i + 1)) 0⟩) ++
      [⟨.witness, c.w ((1 + 8 * b + 8 : ℕ) : ℤ), srow + r,
        horner theta (padded.take (7 * (k * r + b + 1) + 1))⟩]

/-- pow_factor.hpp:199-236 (`generate_assignments` also stores the constant 0). -/
def assign (c : Cols) (w : ℕ) (theta : Var) (coefs : List Var) (srow : ℤ) (t : Table F) : Table F :=
  let t := t.set .constant (c.k 0) srow 0
  let pad := padding w (coefs.length - 1)
  writeAll (writes c w (theta.value t) ((padInput c srow pad coefs).map (·.value t)) srow) t

/-- pow_factor.hpp:147-150. -/
def result (c : Cols) (w power : ℕ) (srow : ℤ) : Var :=
  c.wa ((w - 1 : ℕ) : ℤ) (srow + rows w power - 1)
end PowFactor

end Verif
