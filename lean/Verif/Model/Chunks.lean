import Mathlib.Algebra.Field.Basic

/-!
# Two-bit chunks of a padded bit array
-/

namespace Verif

/-- Bit `i` of the padded bit array: `pb` zeros, then the low `bits` bits of `x`, most significant first
(comparison_checked.hpp:492-503, comparison_flag.hpp:470-485). -/
def padBit (pb bits x i : ℕ) : Bool := if i < pb then false else x.testBit (bits - 1 - (i - pb))

/-- Two-bit chunk `i` of the padded bit array (comparison_checked.hpp:505-516, comparison_flag.hpp:487-498). -/
def chunk4 (pb bits x i : ℕ) : ℕ := 2 * (padBit pb bits x (i * 2)).toNat + (padBit pb bits x (i * 2 + 1)).toNat

/-- Running sum after the first `n` chunks (comparison_checked.hpp:520-541). -/
def sum4 {F : Type*} [Field F] (pb bits x n : ℕ) : F :=
  (List.range n).foldl (fun (s : F) (i : ℕ) => s * 4 + (chunk4 pb bits x i : F)) 0

end Verif
