import Verif.Core.Table
import Mathlib.Data.ZMod.Basic

/-!
# Mocked integer components

`components/mock/mocked_components.hpp`, `components/mock/mocked_component_base.hpp`.

Integer types of `boost::multiprecision` (not part of the repository) as used there:
* `cpp_int_modular_backend<N>`: naturals below `2^N`, results of `+ - *` and conversions are taken modulo `2^N`, `-1` converts to `2^N - 1`;
* `cpp_int_backend<N, N, signed_magnitude, unchecked>`: sign and magnitude, magnitudes of results are cut to `N` bits, division truncates,
  `&` acts on the two's complement representation;
* division by zero throws: `none`.
-/

namespace Verif
namespace Mocked

/-- `OP_ADDITION` ... `OP_REMAINDER` (mocked_components.hpp:629-633). -/
inductive Arith
  | add | sub | mul | div | rem
  deriving DecidableEq

/-- `OP_LESS` ... `OP_LESS_EQUAL` (mocked_components.hpp:634-637). -/
inductive Cmp
  | lt | gt | ge | le
  deriving DecidableEq

/-- An operation on `cpp_int_modular_backend<n>` (mocked_components.hpp:629-633). -/
def uop (n : ℕ) (op : Arith) (a b : ℕ) : Option ℕ :=
  match op with
  | .add => some ((a + b) % 2 ^ n)
  | .sub => some ((a + (2 ^ n - b)) % 2 ^ n)
  | .mul => some (a * b % 2 ^ n)
  | .div => if b = 0 then none else some (a / b)
  | .rem => if b = 0 then none else some (a % b)

/-- Cutting the magnitude to `n` bits. -/
def cut (n : ℕ) (z : ℤ) : ℤ := z.sign * ((z.natAbs % 2 ^ n : ℕ) : ℤ)

/-- An operation on `cpp_int_backend<n, n, signed_magnitude, unchecked>` (mocked_components.hpp:629-633). -/
def sop (n : ℕ) (op : Arith) (a b : ℤ) : Option ℤ :=
  match op with
  | .add => some (cut n (a + b))
  | .sub => some (cut n (a - b))
  | .mul => some (cut n (a * b))
  | .div => if b = 0 then none else some (a.tdiv b)
  | .rem => if b = 0 then none else some (a.tmod b)

/-- A comparison on `cpp_int_modular_backend<256>` (mocked_components.hpp:634-637). -/
def cmp (op : Cmp) (a b : ℕ) : Bool :=
  match op with
  | .lt => a < b
  | .gt => b < a
  | .ge => b ≤ a
  | .le => a ≤ b

section
variable {p : ℕ}

/-- `UNSIGNED_SMALL_OP_COMPONENT::result_values_calculator` (mocked_components.hpp:274-283). -/
def unsignedSmall (n : ℕ) (op : Arith) (a b : ZMod p) : Option (List (ZMod p)) := do
  let r ← uop n op (a.val % 2 ^ n) (b.val % 2 ^ n)
  return [(r : ZMod p)]

/-- `var_value(...) == 0 ? 1 : -1` (mocked_components.hpp:329-330, 520, 523, 575, 578). -/
def signOf (s : ZMod p) : ℤ := if s = 0 then 1 else -1

/-- `value_type(result.sign() >= 0 ? 0 : 1)` (mocked_components.hpp:333, 532). -/
def signCell (z : ℤ) : ZMod p := if 0 ≤ z then 0 else 1

/-- `SIGNED_SMALL_OP_COMPONENT::result_values_calculator` (mocked_components.hpp:322-336); operands are (sign, magnitude). -/
def signedSmall (n : ℕ) (op : Arith) (a b : ZMod p × ZMod p) : Option (List (ZMod p)) := do
  let x := signOf a.1 * ((a.2.val % 2 ^ n : ℕ) : ℤ)
  let y := signOf b.1 * ((b.2.val % 2 ^ n : ℕ) : ℤ)
  let r ← sop n op x y
  return [signCell r, ((r.natAbs : ℕ) : ZMod p)]

/-- `signed_abs_component_small::result_values_calculator` (mocked_components.hpp:368-374). -/
def signedAbsSmall (a : ZMod p × ZMod p) : List (ZMod p) := [0, a.2]

/-- The 256 bit operand of a pair (top, bottom) (mocked_components.hpp:415-419, 465-469). -/
def pairNat (a : ZMod p × ZMod p) : ℕ := (a.1.val * 2 ^ 128 + a.2.val) % 2 ^ 256

/-- `UNSIGNED_BIG_OP_COMPONENT::result_values_calculator` (mocked_components.hpp:406-426). -/
def unsignedBig (op : Arith) (a b : ZMod p × ZMod p) : Option (List (ZMod p)) := do
  let r ← uop 256 op (pairNat a) (pairNat b)
  return [((r / 2 ^ 128 % 2 ^ 128 : ℕ) : ZMod p), ((r % 2 ^ 128 : ℕ) : ZMod p)]

/-- `UNSIGNED_BIG_OP_BOOL_COMPONENT::result_values_calculator` (mocked_components.hpp:458-472). -/
def unsignedBigCmp (op : Cmp) (a b : ZMod p × ZMod p) : List (ZMod p) :=
  [if cmp op (pairNat a) (pairNat b) then 1 else 0]

/-- The operand of `SIGNED_BIG_OP_COMPONENT` (mocked_components.hpp:520-525): the sign multiplies the top half, the bottom half is
added. -/
def tripleInt (a : ZMod p × ZMod p × ZMod p) : ℤ :=
  cut 256 (cut 256 (signOf a.1 * (a.2.1.val : ℤ) * 2 ^ 128) + (a.2.2.val : ℤ))

/-- `SIGNED_BIG_OP_COMPONENT::result_values_calculator` (mocked_components.hpp:511-534): the two halves of the result are read by
masks from its two's complement. -/
def signedBig (op : Arith) (a b : ZMod p × ZMod p × ZMod p) : Option (List (ZMod p)) := do
  let r ← sop 256 op (tripleInt a) (tripleInt b)
  return [signCell r, (((r / 2 ^ 128) % 2 ^ 128).toNat : ZMod p), ((r % 2 ^ 128).toNat : ZMod p)]

/-- The operand of `SIGNED_BIG_BOOL_OP_COMPONENT` (mocked_components.hpp:574-580): the type is unsigned, modulo `2^256`. -/
def tripleNat (a : ZMod p × ZMod p × ZMod p) : ℕ :=
  ((signOf a.1 * (a.2.1.val : ℤ) * 2 ^ 128 + (a.2.2.val : ℤ)) % 2 ^ 256).toNat

/-- `SIGNED_BIG_BOOL_OP_COMPONENT::result_values_calculator` (mocked_components.hpp:567-582). -/
def signedBigCmp (op : Cmp) (a b : ZMod p × ZMod p × ZMod p) : List (ZMod p) :=
  [if cmp op (tripleNat a) (tripleNat b) then 1 else 0]

/-- `signed_abs_component_big::result_values_calculator` (mocked_components.hpp:611-619). -/
def signedAbsBig (a : ZMod p × ZMod p × ZMod p) : List (ZMod p) := [0, a.2.1, a.2.2]

/-- `mocked_component_base::assigner` (mocked_component_base.hpp:93-103). -/
def assigner (c : Cols) (vals : List (ZMod p)) (srow : ℤ) (t : Table (ZMod p)) : Table (ZMod p) :=
  (List.range vals.length).foldl (fun t (i : ℕ) => t.set .witness (c.w i) srow (vals.getD i 0)) t

/-- `result_builder` (mocked_components.hpp:285-288, 338-342, 428-432, 474-477, 536-541, 584-587): table columns 0, 1, ... -/
def resultVars (size : ℕ) (srow : ℤ) : List Var := (List.range size).map fun i => ⟨i, srow, false, .witness⟩

/-- `generate_circuit` (mocked_component_base.hpp:153-163): no gate, no copy constraint. -/
def circuit : List (Op (ZMod p)) := []

end

end Mocked
end Verif
