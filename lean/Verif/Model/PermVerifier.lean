import Verif.Core.Grid

/-!
# Model of the permutation argument verifier

`components/systems/snark/plonk/placeholder/permutation_argument_verifier.hpp`, six columns.
-/

namespace Verif
namespace PermVerifier
variable {F : Type*} [Field F]

/-- `input_type` (permutation_argument_verifier.hpp:88-97). The vectors are given by index. -/
structure In where
  f : ℕ → Var
  se : ℕ → Var
  ss : ℕ → Var
  l0 : Var
  v : Var
  vz : Var
  qlast : Var
  qpad : Var
  theta : ℕ → Var

/-- permutation_argument_verifier.hpp:49-51. -/
def rows (m : ℕ) : ℕ := m + 2

/-- permutation_argument_verifier.hpp:118-122. -/
def result (c : Cols) (m : ℕ) (srow : ℤ) : ℕ → Var
  | 0 => c.wa 0 (srow + rows m - 2)
  | 1 => c.wa 4 (srow + rows m - 2)
  | _ => c.wa 0 (srow + rows m - 1)

/-- Constraints 1 to 12 (permutation_argument_verifier.hpp:237-286). -/
def c1 (c : Cols) : Expr F := c.wv 0 - c.wv 1 - c.wv 2 * c.wv 3 - c.wv 3 1
def c2 (c : Cols) : Expr F := c.wv 5 - c.wv 1 - c.wv 4 * c.wv 3 - c.wv 3 1
def c3 (c : Cols) : Expr F := c.wv 0 1 - c.wv 0 * (c.wv 1 1 + c.wv 2 1 * c.wv 3 + c.wv 3 1)
def c4 (c : Cols) : Expr F := c.wv 5 1 - c.wv 5 * (c.wv 1 1 + c.wv 4 1 * c.wv 3 + c.wv 3 1)
def c5 (c : Cols) : Expr F := c.wv 0 - c.wv 0 (-1) * (c.wv 1 + c.wv 2 * c.wv 3 + c.wv 3 1)
def c6 (c : Cols) : Expr F := c.wv 5 - c.wv 5 (-1) * (c.wv 1 + c.wv 4 * c.wv 3 + c.wv 3 1)
def c7 (c : Cols) : Expr F := c.wv 0 - c.wv 0 (-1) * (c.wv 1 + c.wv 2 * c.wv 3 + c.wv 3 (-1))
def c8 (c : Cols) : Expr F := c.wv 5 - c.wv 5 (-1) * (c.wv 1 + c.wv 4 * c.wv 3 + c.wv 3 (-1))
def c9 (c : Cols) : Expr F := c.wv 0 - c.wv 3 * (.const 1 - c.wv 1 1)
def c10 (c : Cols) : Expr F :=
  c.wv 4 - (.const 1 - c.wv 1 - c.wv 2) * (c.wv 3 1 * c.wv 5 (-1) - c.wv 1 1 * c.wv 0 (-1))
def c11 (c : Cols) : Expr F := c.wv 2 1 - c.wv 1 1 * c.wv 1 1
def c12 (c : Cols) : Expr F := c.wv 0 1 - c.wv 1 * (c.wv 2 1 - c.wv 1 1)

/-- Copy constraints (permutation_argument_verifier.hpp:306-318). -/
def copies (c : Cols) (m : ℕ) (x : In) (srow : ℤ) : List (Op F) :=
  ((List.range m).flatMap fun (i : ℕ) =>
    [.copy (c.wa 1 (srow + i)) (x.f i), .copy (c.wa 2 (srow + i)) (x.se i),
     .copy (c.wa 3 (srow + i)) (x.theta (i % 2)), .copy (c.wa 4 (srow + i)) (x.ss i)]) ++
  [.copy (c.wa 1 (srow + m)) x.qlast, .copy (c.wa 2 (srow + m)) x.qpad, .copy (c.wa 3 (srow + m)) x.l0,
   .copy (c.wa 1 (srow + m + 1)) x.v, .copy (c.wa 3 (srow + m + 1)) x.vz]

/-- Rows of the second gate: `start + 2, start + 4, ...` below `start + m - (m & 1)`
(permutation_argument_verifier.hpp:338-340). -/
def midRows (m : ℕ) (srow : ℤ) : List ℤ :=
  ((List.range m).filter fun i => 2 ≤ i ∧ i % 2 = 0 ∧ i < m - m % 2).map fun (i : ℕ) => srow + (i : ℤ)

/-- `generate_circuit` (permutation_argument_verifier.hpp:323-352). -/
def circuit (c : Cols) (m : ℕ) (x : In) (srow : ℤ) : List (Op F) :=
  [.gate [c1 c, c2 c, c3 c, c4 c] [srow],
   .gate [c3 c, c4 c, c5 c, c6 c] (midRows m srow),
   .gate [c7 c, c8 c] (if m % 2 = 1 then [srow + m - 1] else []),
   .gate [c9 c, c10 c, c11 c, c12 c] [srow + m]] ++ copies c m x srow

/-- The accumulators `fe`, `fsigma` after `i` turns (permutation_argument_verifier.hpp:179-193). -/
def acc (f s : ℕ → F) (t1 t2 : F) : ℕ → F
  | 0 => 1
  | i + 1 => acc f s t1 t2 i * (f i + t1 * s i + t2)

/-- `generate_assignments` (permutation_argument_verifier.hpp:158-224). -/
def writes (c : Cols) (m : ℕ) (x : In) (srow : ℤ) (t : Table F) : List (Write F) :=
  let t1 := (x.theta 0).value t
  let t2 := (x.theta 1).value t
  let fe := acc (fun i => (x.f i).value t) (fun i => (x.se i).value t) t1 t2
  let fs := acc (fun i => (x.f i).value t) (fun i => (x.ss i).value t) t1 t2
  let l0 := x.l0.value t
  let v := x.v.value t
  let vz := x.vz.value t
  let ql := x.qlast.value t
  let qp := x.qpad.value t
  ((List.range m).flatMap fun (i : ℕ) =>
    [⟨.witness, c.w 0, srow + i, fe (i + 1)⟩, ⟨.witness, c.w 1, srow + i, (x.f i).value t⟩,
     ⟨.witness, c.w 2, srow + i, (x.se i).value t⟩, ⟨.witness, c.w 4, srow + i, (x.ss i).value t⟩,
     ⟨.witness, c.w 5, srow + i, fs (i + 1)⟩, ⟨.witness, c.w 3, srow + i, if i % 2 = 1 then t2 else t1⟩]) ++
  [⟨.witness, c.w 0, srow + m, l0 * (1 - v)⟩, ⟨.witness, c.w 1, srow + m, ql⟩, ⟨.witness, c.w 2, srow + m, qp⟩,
   ⟨.witness, c.w 3, srow + m, l0⟩, ⟨.witness, c.w 4, srow + m, (1 - (ql + qp)) * (vz * fs m - v * fe m)⟩,
   ⟨.witness, c.w 0, srow + m + 1, ql * (v * v - v)⟩, ⟨.witness, c.w 1, srow + m + 1, v⟩,
   ⟨.witness, c.w 2, srow + m + 1, v * v⟩, ⟨.witness, c.w 3, srow + m + 1, vz⟩]

/-- The table after `generate_assignments`. -/
def assign (c : Cols) (m : ℕ) (x : In) (srow : ℤ) (t : Table F) : Table F := writeAll (writes c m x srow t) t

end PermVerifier
end Verif
