import Verif.Core.Grid
import Mathlib.Algebra.Field.ZMod

/-!
# `fri_cosets` (`components/systems/snark/plonk/placeholder/fri_cosets.hpp`)

The width is `9 l` (the manifest, 139-147, allows multiples of nine up to `9 n`), `tb` is the number of bits of the modulus. Unsigned
subtractions are truncated; the theorems assume that the bits of the transition row do not exceed the bits of the modulus.
-/

namespace Verif
namespace FriCosets

variable {F : Type*}

/-- `lfit` (45-47). -/
def lfit (o pl : ℕ) : ℕ := o / pl + if 0 < o % pl then 1 else 0

/-- `nineb_rows` (365), `last_l` (366). -/
def nineRows (l n : ℕ) : ℕ := lfit n l
def lastl (l n : ℕ) : ℕ := n % l

/-- Bits on the transition row (332, 494). -/
def cap (l n : ℕ) : ℕ := if 0 < lastl l n then 3 * (l - lastl l n) - 1 else 0

/-- `remaining_bits` (332, 494). -/
def remaining (l n tb : ℕ) : ℕ := tb - n - cap l n

/-- `rows_amount_internal` (78-89). -/
def rows (l n tb : ℕ) : ℕ :=
  let space := 9 * n % (9 * l)
  let trans := if 0 < space then (9 * l - space) / 3 - 1 else 0
  lfit (9 * n) (9 * l) + lfit (tb - n - trans) (9 * l / 3 - 1) + 1

section
variable [Field F] (c : Cols) (l : ℕ)

/-- Block `j`, column `k` of the row `rot` (380-388). -/
def bw (j k : ℕ) (rot : ℤ := 0) : Expr F := c.wv ((9 * j + k : ℕ) : ℤ) rot

/-- The block after block `j` (389-391, 394). -/
def nextw (j k : ℕ) : Expr F := bw c ((j + 1) % l) k ((j + 1) / l : ℕ)

/-- The block before block `j` (392-393). -/
def prevw (j k : ℕ) : Expr F := bw c ((l + j - 1) % l) k (if j = 0 then -1 else 0)

/-- `nine_block[9 * j + k]` (396-404). -/
def nineAt (j k : ℕ) : Expr F :=
  if k = 0 then bw c j 0 - 2 * nextw c l j 0 - bw c j 7
  else if k = 1 then bw c j 1 - 2 * nextw c l j 1 - bw c j 8
  else if k = 2 then (bw c j 8 - bw c j 7) * (1 - nextw c l j 2) * (1 + nextw c l j 2) + nextw c l j 2 - bw c j 2
  else if k = 3 then bw c j 3 - prevw c l j 3 * prevw c l j 3
  else if k = 4 then bw c j 4 - prevw c l j 4 * (bw c j 3 * bw c j 7 + 1 - bw c j 7)
  else if k = 5 then bw c j 5 - nextw c l j 5 * nextw c l j 5
  else if k = 6 then bw c j 5 + bw c j 6
  else if k = 7 then (1 - bw c j 7) * bw c j 7
  else (1 - bw c j 8) * bw c j 8

/-- `nine_block` (378-405). -/
def nineBlock : List (Expr F) := (List.range (9 * l)).map fun m => nineAt c l (m / 9) (m % 9)

/-- `first_add_W1`, `first_add_W2`, `first_W4` (373-375). -/
def first : List (Expr F) :=
  [c.wv 1 + 1, c.wv 2 * (1 - c.wv 2), c.wv 3 * c.wv 7 + 1 - c.wv 7 - c.wv 4]

/-- The sum of the bits in the columns `a + 3, a + 6, ...` and the next row's first cells, minus column `a`
(408-409, 411-425 with `a = 0`; 466-476 with `a = 9 * last_l`); `k` is 0 for the bits of `x` and 1 for those of `p - 1`. -/
def sumAt (a m k : ℕ) : Expr F :=
  ((List.range m).reverse.foldl (fun (e : Expr F) i => e * 2 + c.wv ((a + 3 + 3 * i + k : ℕ) : ℤ)) (c.wv k 1)) - c.wv ((a + k : ℕ) : ℤ)

/-- `bit_line[j + k]` for `j = 3 * i > 0` (412-415, 420-422). -/
def bitAt (i k : ℕ) : Expr F :=
  let j := 3 * i
  let next : Expr F := c.wv (((j + 5) % (9 * l) : ℕ) : ℤ) (if j + 3 = 9 * l then 1 else 0)
  if k = 0 then c.wv (j : ℕ) * (c.wv (j : ℕ) - 1)
  else if k = 1 then c.wv ((j + 1 : ℕ) : ℤ) * (c.wv ((j + 1 : ℕ) : ℤ) - 1)
  else (c.wv ((j + 1 : ℕ) : ℤ) - c.wv (j : ℕ)) * (1 - next) * (1 + next) + next - c.wv ((j + 2 : ℕ) : ℤ)

/-- `bit_line` (407-425). -/
def bitLine : List (Expr F) :=
  (List.range (9 * l)).map fun m => if m = 0 then sumAt c 0 (3 * l - 1) 0 else if m = 1 then sumAt c 0 (3 * l - 1) 1
    else if m = 2 then c.wv 2 - c.wv 5 else bitAt c l (m / 3) (m % 3)

/-- Type 1 gate (427-437). -/
def cs1 : List (Expr F) := (nineBlock c l).take 3 ++ first c ++ (nineBlock c l).drop 5

/-- Type 3 gate (448-488). -/
def cs3 (n : ℕ) : List (Expr F) :=
  let last := if 0 < lastl l n then lastl l n else l
  (nineBlock c l).take 3 ++
    (if 1 < nineRows l n then [nineAt c l 0 3, nineAt c l 0 4] else first c) ++
    ((nineBlock c l).take (9 * (last - 1) + 5)).drop 5 ++
    [bw c (last - 1) 5 - bw c (last - 1) 4, nineAt c l (last - 1) 6, nineAt c l (last - 1) 7, nineAt c l (last - 1) 8] ++
    (if 0 < lastl l n then
      [sumAt c (9 * lastl l n) (3 * (l - lastl l n) - 1) 0, sumAt c (9 * lastl l n) (3 * (l - lastl l n) - 1) 1,
        c.wv ((9 * lastl l n + 2 : ℕ) : ℤ) - c.wv ((9 * lastl l n + 5 : ℕ) : ℤ)] ++ (bitLine c l).drop (9 * lastl l n + 3)
    else [])
end

/-- The constant cells named in the copy constraints: column 0, whatever `C(0)` is (325, 336, 342-347). -/
def omegaVar (srow : ℤ) : Var := ⟨0, srow, false, .constant⟩
def zeroVar (srow : ℤ) : Var := ⟨0, srow + 1, false, .constant⟩

/-- `generate_circuit` (351-506), `generate_copy_constraints` (312-348), `generate_assignments_constant` (508-517). -/
def circuit [Field F] (c : Cols) (l n tb : ℕ) (omega : F) (x : Var) (srow : ℤ) : List (Op F) :=
  (if 1 < nineRows l n then [.gate (cs1 c l) [srow]] else []) ++
  (if 2 < nineRows l n then [.gate (nineBlock c l) (rowsFrom (srow + 1) (nineRows l n - 2))] else []) ++
  [.gate (cs3 c l n) [srow + nineRows l n - 1]] ++
  (if 0 < remaining l n tb then
    [.gate (bitLine c l) (rowsFrom (srow + nineRows l n) (lfit (remaining l n tb) (9 * l / 3 - 1)))] else []) ++
  [.copy x (c.wa 0 srow), .copy (omegaVar srow) (c.wa 3 srow)] ++
  (if 0 < remaining l n tb % (9 * l / 3 - 1) then
    (List.range (9 * l - 3 * (remaining l n tb % (9 * l / 3 - 1) + 1))).map fun i =>
      .copy (zeroVar srow) (c.wa ((3 * (remaining l n tb % (9 * l / 3 - 1) + 1) + i : ℕ) : ℤ) (srow + rows l n tb - 2))
    else []) ++
  [.copy (zeroVar srow) (c.wa 0 (srow + rows l n tb - 1)), .copy (zeroVar srow) (c.wa 1 (srow + rows l n tb - 1)),
    .copy (zeroVar srow) (c.wa 2 (srow + rows l n tb - 1)),
    .constant (c.k 0) srow omega, .constant (c.k 0) (srow + 1) 0]

/-- The three variables of output number `k` (177-189): block `n - 1 - k`. -/
def output (c : Cols) (l n k : ℕ) (srow : ℤ) : Var × Var × Var :=
  let b := n - k
  let i := (b - 1) / l
  let j := (b - 1) % l
  (c.wa ((9 * j + 5 : ℕ) : ℤ) (srow + i), c.wa ((9 * j + 6 : ℕ) : ℤ) (srow + i), c.wa ((9 * j + 7 : ℕ) : ℤ) (srow + i))

/-! ### Assignment -/

/-- `(x < y) - (y < x)` as a field element. -/
def sgn [Field F] (x y : ℕ) : F := (if x < y then 1 else 0) - (if y < x then 1 else 0)

/-- A write to `W(j)`. -/
def wr (c : Cols) (srow : ℤ) (j i : ℕ) (v : F) : Write F := ⟨.witness, c.w (j : ℤ), srow + i, v⟩

/-- The top-down loop (255-270), block `b`, `k` blocks to go: writes and the values of `x_decomp`, `pm1_decomp` and
`coset_element` at the end. -/
def downLoop [Field F] (c : Cols) (l : ℕ) (srow : ℤ) : ℕ → ℕ → ℕ → ℕ → F → F → List (Write F) × ℕ × ℕ × F
  | 0, _, x, y, _, ce => ([], x, y, ce)
  | k + 1, b, x, y, w, ce =>
    let i := b / l
    let j := b % l
    let ce' := ce * (if x % 2 = 1 then w else 1)
    let r := downLoop c l srow k (b + 1) (x / 2) (y / 2) (w * w) ce'
    ([wr c srow (9 * j) i (x : F), wr c srow (9 * j + 1) i (y : F), wr c srow (9 * j + 2) i (sgn x y), wr c srow (9 * j + 3) i w,
      wr c srow (9 * j + 4) i ce', wr c srow (9 * j + 7) i ((x % 2 : ℕ) : F), wr c srow (9 * j + 8) i ((y % 2 : ℕ) : F)] ++ r.1, r.2)

/-- The loop back up (272-278). -/
def upLoop [Field F] (c : Cols) (l : ℕ) (srow : ℤ) : ℕ → F → List (Write F)
  | 0, _ => []
  | b + 1, ce =>
    let i := b / l
    let j := b % l
    [wr c srow (9 * j + 5) i ce, wr c srow (9 * j + 6) i (-1 * ce)] ++ upLoop c l srow b (ce * ce)

/-- The loop over the other bits (287-306). The second `W(2)` is written as `W(j + 2)` with `j = WA` (302), which is the same
column because `W` is cyclic. The condition `j < 9 * l` always holds in the code. -/
def bitLoop [Field F] (c : Cols) (l rows : ℕ) (srow : ℤ) (i j x y : ℕ) : List (Write F) :=
  if _h : i < rows - 1 ∧ j < 9 * l then
    [wr c srow j i ((x % 2 : ℕ) : F), wr c srow (j + 1) i ((y % 2 : ℕ) : F), wr c srow (j + 2) i (sgn x y)] ++
      if j + 3 = 9 * l then
        [wr c srow 0 (i + 1) ((x / 2 : ℕ) : F), wr c srow 1 (i + 1) ((y / 2 : ℕ) : F), wr c srow (j + 3 + 2) (i + 1) (sgn (x / 2) (y / 2))] ++
          bitLoop c l rows srow (i + 1) 3 (x / 2) (y / 2)
      else bitLoop c l rows srow i (j + 3) (x / 2) (y / 2)
  else []
  termination_by (rows - i, 9 * l - j)

/-- All writes of `generate_assignments` (233-309) for the canonical integers of `x` and `p - 1`. -/
def writes [Field F] (c : Cols) (l n tb : ℕ) (omega : F) (srow : ℤ) (x pm1 : ℕ) : List (Write F) :=
  let d := downLoop c l srow n 0 x pm1 omega 1
  let i := 9 * n / (9 * l)
  let j := 9 * n % (9 * l)
  d.1 ++ upLoop c l srow n d.2.2.2 ++
    [wr c srow j i (d.2.1 : F), wr c srow (j + 1) i (d.2.2.1 : F), wr c srow (j + 2) i (sgn d.2.1 d.2.2.1)] ++
    bitLoop c l (rows l n tb) srow i (j + 3) d.2.1 d.2.2.1

/-- `generate_assignments` over a prime field. -/
def assign {p : ℕ} [Fact p.Prime] (c : Cols) (l n tb : ℕ) (omega : ZMod p) (x : Var) (srow : ℤ) (t : Table (ZMod p)) : Table (ZMod p) :=
  writeAll (writes c l n tb omega srow (x.value t).val (p - 1)) t

end FriCosets
end Verif
