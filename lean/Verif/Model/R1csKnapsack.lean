import Verif.Model.R1csBasic

/-!
# Knapsack hash (r1cs)

`include/nil/blueprint/components/hashes/knapsack/r1cs/knapsack.hpp`.

The coefficients come from a generator that is seeded with the index of the coefficient (170-171); it is a parameter `rng`. They are kept in
a static vector that grows on demand (`knapsack_coefficients`, `num_cached_coefficients`, 88-89), which is the list `cache` here. The dimension
(`knapsack_dimension`, 77-80, which may be specialized for a field) is a parameter.
-/

namespace Verif
namespace R1cs
namespace Knapsack

section
variable {F : Type*} [Field F]

/-- `sample_randomness` (`knapsack.hpp:162-175`). -/
def sample (rng : ℕ → F) (dim : ℕ) (cache : List F) (len : ℕ) : List F :=
  if dim * len > cache.length then cache ++ (List.range (dim * len - cache.length)).map fun j => rng (cache.length + j) else cache

/-- The test before `sample_randomness` in the constructor (110-112) and in `get_hash` (146-148). -/
def ensure (rng : ℕ → F) (dim : ℕ) (cache : List F) (len : ℕ) : List F :=
  if cache.length < dim * len then sample rng dim cache len else cache

/-- The loop over the input bits (129-135, 153-157). Reading outside the vector is undefined there and gives 0 here. -/
def rowSum (coeffs : List F) (input : List Bool) (i : ℕ) : ℕ → F
  | 0 => 0
  | k + 1 => if input.getD k false then rowSum coeffs input i k + coeffs.getD (input.length * i + k) 0 else rowSum coeffs input i k

/-- `knapsack_crh_with_field_out_component::get_hash` (144-160): the cache afterwards and the result. -/
def getHash (rng : ℕ → F) (dim : ℕ) (cache : List F) (input : List Bool) : List F × List F :=
  let c := ensure rng dim cache input.length
  (c, (List.range dim).map fun i => rowSum c input i input.length)

/-- `blueprint_coeff_sum` (`blueprint_linear_combination.hpp:263-279`) of the input variables with the coefficients of row `i` (117-122). -/
def coeffSum (coeffs : List F) (bits : List ℕ) (i : ℕ) : Lc F :=
  (List.range bits.length).map fun k => (bits.getD k 0, coeffs.getD (bits.length * i + k) 0)

/-- `knapsack_crh_with_field_out_component::generate_gates` (115-125); `output` are the linear combinations of the output. -/
def fieldGates (coeffs : List F) (dim : ℕ) (bits : List ℕ) (output : ℕ → Lc F) : List (Constraint F) :=
  (List.range dim).map fun i => ⟨Lc.const 1, coeffSum coeffs bits i, output i⟩

/-- `generate_assignments` (126-138) when the outputs are variables; `input` are the bits of `get_block`. -/
def fieldAssign (coeffs : List F) (input : List Bool) (output : ℕ → ℕ) (s : Asg F) : ℕ → Asg F
  | 0 => s
  | i + 1 => (fieldAssign coeffs input output s i).set (output i) (rowSum coeffs input i input.length)

/-- Bits `i * n .. (i + 1) * n - 1` of the digest; `n` is `value_bits` (209-212, 242-244). -/
def part (digest : List ℕ) (n i : ℕ) : List ℕ := (digest.drop (i * n)).take n

/-- `knapsack_crh_with_bit_out_component::generate_gates` (222-230); the outputs are packed digest bits (207-213). -/
def bitGates (coeffs : List F) (dim n : ℕ) (bits digest : List ℕ) (enforce : Bool) : List (Constraint F) :=
  fieldGates coeffs dim bits (fun i => packSum 1 ((part digest n i).map Lc.var)) ++ if enforce then digest.map fun v => boolean (Lc.var v) else []

end

section
variable {p : ℕ}

/-- `knapsack_crh_with_bit_out_component::generate_assignments` (232-246): the value of output `i` is unpacked into its part of the digest. -/
def bitAssign [Fact p.Prime] (coeffs : List (ZMod p)) (n : ℕ) (digest : List ℕ) (input : List Bool) (s : Asg (ZMod p)) : ℕ → Asg (ZMod p)
  | 0 => s
  | i + 1 => packAssign (part digest n i) (rowSum coeffs input i input.length) (bitAssign coeffs n digest input s i)

/-- `knapsack_crh_with_bit_out_component::get_hash` (256-281); `n` is `modulus_bits`. -/
def getBits [Fact p.Prime] (rng : ℕ → ZMod p) (dim n : ℕ) (cache : List (ZMod p)) (input : List Bool) : List Bool :=
  (getHash rng dim cache input).2.flatMap fun e => (List.range n).map e.val.testBit

end
end Knapsack
end R1cs
end Verif
