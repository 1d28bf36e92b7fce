import Verif.Model.R1csSha256

/-!
# The r1cs HMAC component

`include/nil/blueprint/components/hashes/hmac_component.hpp`, with `sha256_hash_component` for both hash functions (`get_block_len` is 512,
`sha256_component.hpp:346-348`).
-/

namespace Verif
namespace R1cs
namespace Sha

section
variable {p : ℕ} [Fact p.Prime]

/-- `unpack_byte` (162-168): `bits[7 - i] = byte & (1 << i)`. -/
def unpackByte (byte : ℕ) (i : ℕ) : Bool := byte.testBit (7 - i)

/-- `generate_xor_constraints` (129-144). -/
def xorGates (pad : ℕ) (input output : List ℕ) : List (Constraint (ZMod p)) :=
  (List.range input.length).map fun i =>
    if unpackByte pad (i % 8) = false then ⟨Lc.const 1, Lc.var (input.getD i 0), Lc.var (output.getD i 0)⟩
    else ⟨Lc.const 1, (Lc.const 1).sub (Lc.var (input.getD i 0)), Lc.var (output.getD i 0)⟩

/-- `generate_xor_witness` (146-160). -/
def xorSteps (pad : ℕ) (input output : List ℕ) : List (Step (ZMod p)) :=
  (List.range input.length).map fun i =>
    (output.getD i 0, fun s => if unpackByte pad (i % 8) = false then val s (input.getD i 0) else if val s (input.getD i 0) = 0 then 1 else 0)

/-- `hmac_component` (35-74). `base` is `next_free_var` at construction. That the key is not longer than a block is a precondition (55). -/
structure HmacC where
  key : List ℕ
  message : List ℕ
  out : List ℕ
  base : ℕ

namespace HmacC
variable (k : HmacC)

/-- `zero` (59). -/
def zero : ℕ := k.base
/-- `padded_key` (60-63). -/
def paddedKey : List ℕ := k.key ++ List.replicate (512 - k.key.length) k.zero
/-- `key_xor_ipad` (65). -/
def keyI : List ℕ := (List.range 512).map fun i => k.base + 1 + i
/-- `key_xor_opad` (66). -/
def keyO : List ℕ := (List.range 512).map fun i => k.base + 513 + i
/-- `hash1_result` (69). -/
def inner : List ℕ := (List.range 256).map fun i => k.base + 1025 + i
/-- `hash1` (68, 70). -/
def hash1 : HashC := ⟨k.keyI ++ k.message, k.inner, k.base + 1281⟩
/-- `hash2` (72-73). -/
def hash2 : HashC := ⟨k.keyO ++ k.inner, k.out, k.base + 1281 + k.hash1.size⟩

/-- `generate_gates` (76-82). -/
def gates : List (Constraint (ZMod p)) :=
  [⟨Lc.const 1, Lc.var k.zero, Lc.const 0⟩] ++ xorGates 0x36 k.paddedKey k.keyI ++ xorGates 0x5c k.paddedKey k.keyO ++ k.hash1.gates ++ k.hash2.gates

/-- `generate_assignments` (84-90). -/
def steps : List (Step (ZMod p)) :=
  [(k.zero, fun _ => 0)] ++ xorSteps 0x36 k.paddedKey k.keyI ++ xorSteps 0x5c k.paddedKey k.keyO ++ k.hash1.steps ++ k.hash2.steps

def assign (s : Asg (ZMod p)) : Asg (ZMod p) := run k.steps s

end HmacC
end
end Sha
end R1cs
end Verif
