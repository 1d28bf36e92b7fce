import Verif.Core.Grid
import Mathlib.Algebra.Field.ZMod

/-!
# Endomorphism scalar (`components/algebra/curves/pasta/plonk/endo_scalar.hpp`)

Fifteen witness columns, eight rows. The native field is `ZMod p`; `scalar.data` is `ZMod.val`. `endo_r` is a
parameter (63-83 give it for two curves).
-/

namespace Verif
namespace EndoScalar

section circuit
variable {F : Type*} [Field F]

/-- `c_f`, endo_scalar.hpp:286-289. -/
def cf (x : Expr F) : Expr F :=
  .const (11 * 6⁻¹) * x + .const (-5 * 2⁻¹) * x * x + .const (2 * 3⁻¹) * x * x * x

/-- `d_f`, endo_scalar.hpp:291-294. -/
def df (x : Expr F) : Expr F :=
  .const (-1) + .const (29 * 6⁻¹) * x + .const (-7 * 2⁻¹) * x * x + .const (2 * 3⁻¹) * x * x * x

/-- Constraints 1 to 8, endo_scalar.hpp:296-319. -/
def crumbC (x : Expr F) : Expr F := x * (x - 1) * (x - 2) * (x - 3)

/-- The first gate, endo_scalar.hpp:296-331 and 336-338. -/
def gate1 (c : Cols) : List (Expr F) :=
  let w := c.wv
  [crumbC (w 7), crumbC (w 8), crumbC (w 9), crumbC (w 10), crumbC (w 11), crumbC (w 12), crumbC (w 13), crumbC (w 14),
   w 4 - (.const 256 * w 2 + .const 128 * cf (w 7) + .const 64 * cf (w 8) + .const 32 * cf (w 9) + .const 16 * cf (w 10)
     + .const 8 * cf (w 11) + .const 4 * cf (w 12) + .const 2 * cf (w 13) + cf (w 14)),
   w 5 - (.const 256 * w 3 + .const 128 * df (w 7) + .const 64 * df (w 8) + .const 32 * df (w 9) + .const 16 * df (w 10)
     + .const 8 * df (w 11) + .const 4 * df (w 12) + .const 2 * df (w 13) + df (w 14)),
   w 1 - (.const (2 ^ 16) * w 0 + .const (2 ^ 14) * w 7 + .const (2 ^ 12) * w 8 + .const (2 ^ 10) * w 9
     + .const (2 ^ 8) * w 10 + .const (2 ^ 6) * w 11 + .const (2 ^ 4) * w 12 + .const (2 ^ 2) * w 13 + w 14)]

/-- The second gate, endo_scalar.hpp:333-334 and 340. -/
def gate2 (endoR : F) (c : Cols) : List (Expr F) := [c.wv 6 - (.const endoR * c.wv 4 + c.wv 5)]

/-- `generate_copy_constraints`, endo_scalar.hpp:346-366. -/
def copies (c : Cols) (scalar : Var) (srow : ℤ) : List (Op F) :=
  ((List.range 7).flatMap fun i : ℕ =>
    [.copy (c.wa 0 (srow + (i + 1))) (c.wa 1 (srow + i)),
     .copy (c.wa 2 (srow + (i + 1))) (c.wa 4 (srow + i)),
     .copy (c.wa 3 (srow + (i + 1))) (c.wa 5 (srow + i))]) ++
  [.copy (c.wa 1 (srow + 7)) scalar]

/-- `generate_circuit`, endo_scalar.hpp:178-195. -/
def circuit (endoR : F) (c : Cols) (scalar : Var) (srow : ℤ) : List (Op F) :=
  .gate (gate1 c) (rowsFrom srow 8) :: .gate (gate2 endoR c) [srow + 7] :: copies c scalar srow

/-- `result_type`, endo_scalar.hpp:136-141 (`rows_amount` is 8 whatever the scalar size, 114-116). -/
def result (c : Cols) (srow : ℤ) : Var := c.wa 6 (srow + 7)

end circuit

section assignment
variable {p : ℕ} [Fact p.Prime]

/-- `bits_msb[i]` as an integer, endo_scalar.hpp:213-230. -/
def bit (size x i : ℕ) : ℕ := (x.testBit (size - 1 - i)).toNat

/-- `crumb_value` of crumb number `k`, endo_scalar.hpp:242-246. -/
def crumb (size x k : ℕ) : ℕ := bit size x (2 * k + 1) + 2 * bit size x (2 * k)

/-- `a`, `b`, `n`, endo_scalar.hpp:231-233. -/
structure St (p : ℕ) where
  a : ZMod p
  b : ZMod p
  n : ZMod p

/-- The body of the inner loop, endo_scalar.hpp:249-262. -/
def step (b0 b1 : ℕ) (v : ZMod p) (s : St p) : St p :=
  let a := s.a + s.a
  let b := s.b + s.b
  let sg : ZMod p := if b0 = 1 then 1 else -1
  { a := if b1 = 0 then a else a + sg
    b := if b1 = 0 then b + sg else b
    n := s.n + s.n + (s.n + s.n) + v }

/-- The state before crumb number `k`, endo_scalar.hpp:231-263. -/
def st (size x : ℕ) : ℕ → St p
  | 0 => ⟨2, 2, 0⟩
  | k + 1 => step (bit size x (2 * k + 1)) (bit size x (2 * k)) (crumb size x k : ZMod p) (st size x k)

/-- The writes of row `r`, endo_scalar.hpp:237-268. -/
def rowWrites (c : Cols) (srow : ℤ) (size x r : ℕ) : List (Write (ZMod p)) :=
  [⟨.witness, c.w 0, srow + r, (st size x (8 * r)).n⟩, ⟨.witness, c.w 2, srow + r, (st size x (8 * r)).a⟩,
   ⟨.witness, c.w 3, srow + r, (st size x (8 * r)).b⟩] ++
  ((List.range 8).map fun j : ℕ => ⟨.witness, c.w ((7 + j : ℕ) : ℤ), srow + r, (crumb size x (8 * r + j) : ZMod p)⟩) ++
  [⟨.witness, c.w 1, srow + r, (st size x (8 * r + 8)).n⟩, ⟨.witness, c.w 4, srow + r, (st size x (8 * r + 8)).a⟩,
   ⟨.witness, c.w 5, srow + r, (st size x (8 * r + 8)).b⟩]

/-- `generate_assignments`, endo_scalar.hpp:197-273: one row for sixteen bits of the scalar. The asserts (218, 227-229,
235) require `size` to be a multiple of 16 not above the bits of the modulus and the scalar to be below `2 ^ size`. -/
def assign (endoR : ZMod p) (size : ℕ) (c : Cols) (scalar : Var) (srow : ℤ) (t : Table (ZMod p)) : Table (ZMod p) :=
  let x := (scalar.value t).val
  writeAll (((List.range (size / 16)).flatMap fun r => rowWrites c srow size x r) ++
    [⟨.witness, c.w 6, srow + ((size / 16 : ℕ) : ℤ) - 1,
      (st size x (size / 2)).a * endoR + (st size x (size / 2)).b⟩]) t

end assignment
end EndoScalar
end Verif
