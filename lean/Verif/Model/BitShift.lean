import Verif.Model.BitBuilder

/-!
# Constant bit shift

`components/algebra/fields/plonk/bit_shift_constant.hpp`: bit decomposition, then composition of the shifted bits.
Both sub-components are built most significant bit first (176-179, 190-194).
-/

namespace Verif
namespace BitShift
open BitBuilder
variable {F : Type*} [Field F]

/-- bit_shift_constant.hpp:128-133. -/
def compBits (bits shift : ℕ) (right : Bool) : ℕ := if right then bits - shift else bits

/-- The composition input, bit_shift_constant.hpp:290-302 (and 245-256): left `out[shift..] ++ zeros`, right
`out[..bits - shift]`. -/
def inputs (c : Cols) (w bits shift : ℕ) (right : Bool) (srow : ℤ) : List Var :=
  (List.range (compBits bits shift right)).map fun i =>
    if right then BitDecomp.out c w bits true srow i
    else if i + shift < bits then BitDecomp.out c w bits true srow (i + shift) else zeroVar srow

/-- Row of the composition, bit_shift_constant.hpp:288. -/
def compRow (w bits : ℕ) (srow : ℤ) : ℤ := srow + (rows w bits true : ℕ)

/-- bit_shift_constant.hpp:267-309. -/
def circuit (c : Cols) (w bits shift : ℕ) (right : Bool) (x : Var) (srow : ℤ) : List (Op F) :=
  BitDecomp.circuit c w bits x srow ++
  BitComp.circuit c w false true (inputs c w bits shift right srow) (compRow w bits srow)

/-- bit_shift_constant.hpp:157-165. -/
def out (c : Cols) (w bits shift : ℕ) (right : Bool) (srow : ℤ) : Var :=
  BitComp.out c w (compBits bits shift right) false (compRow w bits srow)

/-- bit_shift_constant.hpp:66-71. -/
def total (w bits shift : ℕ) (right : Bool) : ℕ :=
  rows w bits true + rows w (compBits bits shift right) false

/-- bit_shift_constant.hpp:224-263. -/
def assign {p : ℕ} [Fact p.Prime] (c : Cols) (w bits shift : ℕ) (right : Bool) (x : Var) (srow : ℤ)
    (t : Table (ZMod p)) : Table (ZMod p) :=
  BitComp.assign c w false true (inputs c w bits shift right srow) (compRow w bits srow)
    (BitDecomp.assign c w bits x srow t)

end BitShift
end Verif
