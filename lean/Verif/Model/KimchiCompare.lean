import Verif.Model.KimchiProg
import Verif.Core.Grid

/-!
# Comparing with the modulus of the other curve, and the digest of the transcript

`components/systems/snark/plonk/kimchi/detail/compare.hpp` (`compare_with_const`) and the end of `digest_circuit` / `digest_assignment` of
`detail/transcript_fq.hpp` (253-286). The wires are 0, 1, 2 and the constant column is 0, as in `test/verifiers/kimchi/sponge/compare.cpp`.
`N` is 87 in the code and `k` is the difference of the two moduli. Every call takes one row. The code writes some cells (bits, inverses) on its own before it
calls the component that reads them: these are the hints.
-/

namespace Verif
namespace KimchiCompare
open Kimchi (c2 c3)

/-- The component called. -/
inductive Kind (p : ℕ)
  | add | sub | mul
  | mulc (k : ZMod p)

/-- One call; `hint = some (v, f)`: before the call `W1` of the row gets `f` of the value of `v`. -/
structure Step (p : ℕ) where
  kind : Kind p
  x : Var
  y : Var
  hint : Option (Var × (ZMod p → ZMod p)) := none

variable {p : ℕ} [Fact p.Prime]

/-- `generate_circuit` of the component called. -/
def Step.ops (st : Step p) (row : ℤ) : List (Op (ZMod p)) :=
  match st.kind with
  | .add => Addition.circuit c3 ⟨st.x, st.y⟩ row
  | .sub => Subtraction.circuit c3 ⟨st.x, st.y⟩ row
  | .mul => Multiplication.circuit c3 ⟨st.x, st.y⟩ row
  | .mulc k => MulByConstant.circuit c2 k st.x row

/-- The cell written before the call. -/
def Step.pre (st : Step p) (row : ℤ) (t : Table (ZMod p)) : Table (ZMod p) :=
  match st.hint with
  | some (v, f) => t.set .witness (c3.w 1) row (f (v.value t))
  | none => t

/-- `generate_assignments` of the component called, after the hint. -/
def Step.assign (st : Step p) (row : ℤ) (t : Table (ZMod p)) : Table (ZMod p) :=
  match st.kind with
  | .add => Addition.assign c3 ⟨st.x, st.y⟩ row (st.pre row t)
  | .sub => Subtraction.assign c3 ⟨st.x, st.y⟩ row (st.pre row t)
  | .mul => Multiplication.assign c3 ⟨st.x, st.y⟩ row (st.pre row t)
  | .mulc k => MulByConstant.assign c2 k st.x row (st.pre row t)

/-- The cells the code fills by itself: bit `i` of `c`, bit `i` of `b`, the two inverses. -/
structure Hints (p : ℕ) where
  bitC : ℕ → ZMod p → ZMod p
  bitB : ℕ → ZMod p → ZMod p
  invB : ZMod p → ZMod p
  invC : ZMod p → ZMod p

/-- The parameters: number of bits, the difference of the moduli, the input and the first row. -/
structure Par (p : ℕ) where
  N : ℕ
  k : ZMod p
  value : Var
  row : ℤ

namespace Par
variable (P : Par p)
/-- compare.hpp:106-109. -/
def kVar : Var := ⟨0, P.row, false, .constant⟩
/-- compare.hpp:107. -/
def powVar : Var := ⟨0, P.row + 1, false, .constant⟩
/-- compare.hpp:108. -/
def zeroVar : Var := ⟨0, P.row + 2, false, .constant⟩
/-- compare.hpp:109. -/
def oneVar : Var := ⟨0, P.row + 3, false, .constant⟩
/-- Output of the call at offset `n` (`W2`). -/
def out (n : ℕ) : Var := c3.wa 2 (P.row + (n : ℤ))
/-- `var(W1, row, false)`, also the output of `mul_by_constant`. -/
def mid (n : ℕ) : Var := c3.wa 1 (P.row + (n : ℤ))
/-- `c1_var` before round `i` (compare.hpp:125, 145-147). -/
def accC (i : ℕ) : Var := if i = 0 then P.zeroVar else P.out (4 + 8 * (i - 1) + 3)
/-- `b1_var` before round `i` (compare.hpp:126, 161-163). -/
def accB (i : ℕ) : Var := if i = 0 then P.zeroVar else P.out (4 + 8 * (i - 1) + 7)
/-- The row offset after the loop. -/
def tail : ℕ := 4 + 8 * P.N
end Par

/-- The calls before the loop (compare.hpp:111-124). -/
def headStep (P : Par p) : ℕ → Step p
  | 0 => ⟨.sub, P.zeroVar, P.value, none⟩
  | 1 => ⟨.sub, P.powVar, P.kVar, none⟩
  | 2 => ⟨.sub, P.out 1, P.oneVar, none⟩
  | _ => ⟨.add, P.out 2, P.out 0, none⟩

/-- The calls of round `i` (compare.hpp:130-165), with the hints of 241-243 and 256-258. -/
def loopStep (H : Hints p) (P : Par p) (i : ℕ) : ℕ → Step p
  | 0 => ⟨.sub, P.oneVar, P.mid (4 + 8 * i), some (P.out 0, H.bitC i)⟩
  | 1 => ⟨.mul, P.mid (4 + 8 * i), P.out (4 + 8 * i), none⟩
  | 2 => ⟨.mulc (2 ^ i), P.mid (4 + 8 * i), P.mid (4 + 8 * i), none⟩
  | 3 => ⟨.add, P.mid (4 + 8 * i + 2), P.accC i, none⟩
  | 4 => ⟨.sub, P.oneVar, P.mid (4 + 8 * i + 4), some (P.out 3, H.bitB i)⟩
  | 5 => ⟨.mul, P.mid (4 + 8 * i + 4), P.out (4 + 8 * i + 4), none⟩
  | 6 => ⟨.mulc (2 ^ i), P.mid (4 + 8 * i + 4), P.mid (4 + 8 * i + 4), none⟩
  | _ => ⟨.add, P.mid (4 + 8 * i + 6), P.accB i, none⟩

/-- The calls after the loop (compare.hpp:167-214), with the hints of 275-282 and 297-304. -/
def tailStep (H : Hints p) (P : Par p) : ℕ → Step p
  | 0 => ⟨.sub, P.out 3, P.accB P.N, none⟩
  | 1 => ⟨.mul, P.out P.tail, P.mid (P.tail + 1), some (P.out P.tail, H.invB)⟩
  | 2 => ⟨.sub, P.oneVar, P.out (P.tail + 1), none⟩
  | 3 => ⟨.mul, P.out (P.tail + 2), P.out P.tail, none⟩
  | 4 => ⟨.sub, P.out 0, P.accC P.N, none⟩
  | 5 => ⟨.mul, P.out (P.tail + 4), P.mid (P.tail + 5), some (P.out (P.tail + 4), H.invC)⟩
  | 6 => ⟨.sub, P.oneVar, P.out (P.tail + 5), none⟩
  | 7 => ⟨.mul, P.out (P.tail + 6), P.out (P.tail + 4), none⟩
  | 8 => ⟨.mul, P.out (P.tail + 5), P.out (P.tail + 1), none⟩
  | 9 => ⟨.add, P.out (P.tail + 5), P.out (P.tail + 1), none⟩
  | _ => ⟨.sub, P.out (P.tail + 9), P.out (P.tail + 8), none⟩

/-- The call at offset `n` from the first row. -/
def stepAt (H : Hints p) (P : Par p) (n : ℕ) : Step p :=
  if n < 4 then headStep P n
  else if n < P.tail then loopStep H P ((n - 4) / 8) ((n - 4) % 8)
  else tailStep H P (n - P.tail)

/-- `rows_amount` (compare.hpp:77). -/
def rows (N : ℕ) : ℕ := 15 + 8 * N

/-- compare.hpp:215, 317: the output variable. -/
def Par.result (P : Par p) : Var := P.out (P.tail + 10)

/-- `generate_assignments_constants` (compare.hpp:364-382). -/
def consts (P : Par p) : List (Op (ZMod p)) :=
  [.constant 0 P.row P.k, .constant 0 (P.row + 1) (2 ^ P.N), .constant 0 (P.row + 2) 0, .constant 0 (P.row + 3) 1]

/-- `generate_circuit` (compare.hpp:96-216). It does not call `generate_copy_constraints`, which is private and called by nobody. -/
def circuit (H : Hints p) (P : Par p) : List (Op (ZMod p)) :=
  consts P ++ (List.range (rows P.N)).flatMap fun n => (stepAt H P n).ops (P.row + (n : ℤ))

/-- `generate_copy_constraints` (compare.hpp:335-362). -/
def copies (P : Par p) : List (Op (ZMod p)) :=
  ((List.range P.N).flatMap fun i =>
    [.copy (P.out (5 + 8 * i)) P.zeroVar, .copy (P.out (5 + 8 * i + 4)) P.zeroVar]) ++
  [.copy (P.out (5 + 8 * P.N + 2)) P.zeroVar, .copy (P.out (5 + 8 * P.N + 6)) P.zeroVar]

/-- `generate_assignments` (compare.hpp:218-318), the first `n` rows. -/
def runTo (H : Hints p) (P : Par p) (t : Table (ZMod p)) : ℕ → Table (ZMod p)
  | 0 => t
  | n + 1 => (stepAt H P n).assign (P.row + (n : ℤ)) (runTo H P t n)

/-- `generate_assignments`. -/
def assign (H : Hints p) (P : Par p) (t : Table (ZMod p)) : Table (ZMod p) := runTo H P t (rows P.N)

/-- Bit `i` of the canonical integer as the code gets it: `d - (d >> 1 << 1)` of the shifted integer (compare.hpp:241, 248, 257, 265). -/
def bitOf (i : ℕ) (z : ZMod p) : ZMod p := ((z.val >>> i - z.val >>> i >>> 1 <<< 1 : ℕ) : ZMod p)

/-- The cells the code fills (compare.hpp:236-318). -/
def honest : Hints p where
  bitC := bitOf
  bitB := bitOf
  invB z := if z ≠ 0 then z⁻¹ else 0
  invC z := if z ≠ 0 then z⁻¹ else 0

/-- The end of `digest_circuit` when the scalar field is not larger (transcript_fq.hpp:279-284): the squeezed element times the result. -/
def digestCircuit (H : Hints p) (P : Par p) : List (Op (ZMod p)) :=
  circuit H P ++ Multiplication.circuit c3 ⟨P.result, P.value⟩ (P.row + (rows P.N : ℤ))

/-- transcript_fq.hpp:264-266. -/
def digestAssign (H : Hints p) (P : Par p) (t : Table (ZMod p)) : Table (ZMod p) :=
  Multiplication.assign c3 ⟨P.result, P.value⟩ (P.row + (rows P.N : ℤ)) (assign H P t)

/-- The digest variable. -/
def digestOut (P : Par p) : Var := P.out (rows P.N)

end KimchiCompare
end Verif
