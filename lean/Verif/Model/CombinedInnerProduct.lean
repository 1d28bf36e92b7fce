import Verif.Core.Grid

/-!
# Combined inner product

`components/algebra/fields/plonk/combined_inner_product.hpp`. The number `k` of pairs (a template argument there) is a
parameter. The witness columns `W0`, `W1`, `W2`, `W13` are template arguments; the ten value columns are addressed by
the raw numbers `3 .. 12`. The legacy table interface is read as in the current one.
-/

namespace Verif
namespace Cip
variable {F : Type*} [Field F]

/-- `witness_per_row`, combined_inner_product.hpp:64. -/
def perRow : ℕ := 5
/-- `main_rows`, combined_inner_product.hpp:66-67. -/
def mainRows (k : ℕ) : ℕ := (k + ((perRow - (k % perRow)) % perRow)) / perRow
/-- `rows_amount`, combined_inner_product.hpp:70. -/
def rows (k : ℕ) : ℕ := 1 + mainRows k

/-- `params_type`, combined_inner_product.hpp:73-78. -/
structure Params where
  f1 : ℕ → Var
  f2 : ℕ → Var
  xi : Var
  r : Var

/-- Raw gate variable `var(i, 0)`. -/
def raw (i : ℕ) : Expr F := .var ⟨i, 0, true, .witness⟩

/-- The fold of combined_inner_product.hpp:173-178: running sum and running power. -/
def sumE (c : Cols) : Expr F × Expr F :=
  (List.range perRow).foldl (fun (a : Expr F × Expr F) j =>
    (a.1 + a.2 * (raw (3 + j * 2) + c.wv 0 * raw (4 + j * 2)), a.2 * c.wv 13)) (c.wv 2, c.wv 1)

/-- combined_inner_product.hpp:160-182. -/
def gate (c : Cols) : List (Expr F) :=
  [c.wv 0 - c.wv 0 1, c.wv 13 - c.wv 13 1,
   c.wv 1 1 - c.wv 1 * (List.range (perRow - 1)).foldl (fun (e : Expr F) _ => e * c.wv 13 1) (c.wv 13 1),
   c.wv 2 1 - (sumE c).1]

/-- generate_circuit 87-113 with copies 185-208 and constants 210-219. The constant column is the raw column 0. -/
def circuit (c : Cols) (k : ℕ) (p : Params) (srow : ℤ) : List (Op F) :=
  [.gate (gate c) (rowsFrom srow (mainRows k)),
   .copy (c.wa 0 srow) p.r, .copy (c.wa 13 srow) p.xi,
   .copy (c.wa 1 srow) ⟨0, srow + 1, false, .constant⟩, .copy (c.wa 2 srow) ⟨0, srow, false, .constant⟩] ++
  ((List.range k).flatMap fun (i : ℕ) =>
    [(.copy ⟨3 + (2 * i) % 10, srow + ((i / 5 : ℕ) : ℤ), false, .witness⟩ (p.f1 i) : Op F),
     .copy ⟨4 + (2 * i) % 10, srow + ((i / 5 : ℕ) : ℤ), false, .witness⟩ (p.f2 i)]) ++
  [.constant 0 srow 0, .constant 0 (srow + 1) 1]

/-- `result_type`, combined_inner_product.hpp:80-86. -/
def out (c : Cols) (k : ℕ) (srow : ℤ) : Var := c.wa 2 (srow + rows k - 1)

/-- `acc_xi` after `n` pairs, combined_inner_product.hpp:135, 144. -/
def accAt (xi : F) : ℕ → F
  | 0 => 1
  | n + 1 => accAt xi n * xi

/-- `s` after `n` pairs, combined_inner_product.hpp:134, 142-143. -/
def sAt (xi r : F) (f1 f2 : ℕ → F) : ℕ → F
  | 0 => 0
  | n + 1 => sAt xi r f1 f2 n + accAt xi n * (f1 n + r * f2 n)

/-- combined_inner_product.hpp:137-153. -/
def writes (c : Cols) (k : ℕ) (xi r : F) (f1 f2 : ℕ → F) (srow : ℤ) : List (Write F) :=
  ((List.range (mainRows k)).flatMap fun (i : ℕ) =>
    [(⟨.witness, c.w 0, srow + (i : ℤ), r⟩ : Write F),
     ⟨.witness, c.w 1, srow + (i : ℤ), accAt xi (i * perRow)⟩,
     ⟨.witness, c.w 2, srow + (i : ℤ), sAt xi r f1 f2 (i * perRow)⟩] ++
    ((List.range perRow).flatMap fun j =>
      [(⟨.witness, 3 + j * 2, srow + (i : ℤ), f1 (i * perRow + j)⟩ : Write F),
       ⟨.witness, 4 + j * 2, srow + (i : ℤ), f2 (i * perRow + j)⟩]) ++
    [⟨.witness, c.w 13, srow + (i : ℤ), xi⟩]) ++
  [⟨.witness, c.w 0, srow + rows k - 1, r⟩,
   ⟨.witness, c.w 1, srow + rows k - 1, accAt xi (mainRows k * perRow)⟩,
   ⟨.witness, c.w 2, srow + rows k - 1, sAt xi r f1 f2 (mainRows k * perRow)⟩,
   ⟨.witness, c.w 13, srow + rows k - 1, xi⟩]

/-- combined_inner_product.hpp:115-156: beyond `k` the pairs are padded with zeros (124-133). -/
def assign (c : Cols) (k : ℕ) (p : Params) (srow : ℤ) (t : Table F) : Table F :=
  writeAll (writes c k (p.xi.value t) (p.r.value t)
    (fun i => if i < k then (p.f1 i).value t else 0) (fun i => if i < k then (p.f2 i).value t else 0) srow) t

end Cip
end Verif
