import Verif.Model.R1csBasic

/-!
# Strict bit decomposition, packing in chunks and conditional copying (r1cs)

`include/nil/blueprint/components/algebra/fields/r1cs/field_to_bits.hpp` and
`include/nil/blueprint/components/detail/r1cs/packing.hpp`.
-/

set_option linter.unusedSectionVars false

namespace Verif
namespace R1cs

/-! ### `field_to_bits_strict` -/

/-- `field_to_bits_strict` (`field_to_bits.hpp:97-163`); `n` is `value_bits`, `result` the output bits, `base` is `next_free_var` when `results` is
allocated. -/
structure FieldToBits (F : Type*) where
  n : ℕ
  element : Lc F
  result : ℕ → ℕ
  base : ℕ

namespace FieldToBits
variable {p : ℕ} [Fact p.Prime] (k : FieldToBits (ZMod p))

/-- The variables of the bits. -/
def bits : List ℕ := (List.range k.n).map k.result
/-- `results[i]`, of which there are `n - 1` (147, 160). -/
def results (i : ℕ) : ℕ := k.base + i
/-- `comparisons[i].result`, allocated by the constructor of `lookup_1bit` (`lookup_1bit.hpp:59`). -/
def cmp (i : ℕ) : ℕ := k.base + (k.n - 1) + i

/-- The constants of comparison `i` (`field_to_bits.hpp:113-132`). -/
def table (i : ℕ) : ℕ → ZMod p := fun j => if (p - 1).testBit i then 1 else if j = 0 then 0 else 1

/-- The constraint of step `i` of the loop that multiplies the comparisons (174-185). -/
def andGate (i : ℕ) : Constraint (ZMod p) :=
  if i = k.n - 1 then ⟨Lc.var (k.cmp (i - 1)), Lc.var (k.cmp i), Lc.var (k.results (i - 1))⟩
  else ⟨Lc.var (k.cmp (i - 1)), Lc.var (k.results i), Lc.var (k.results (i - 1))⟩

/-- `generate_gates` (166-186); the order of the last constraints is reversed. -/
def gates : List (Constraint (ZMod p)) :=
  packGates (k.bits.map Lc.var) k.element true ++ (List.range k.n).flatMap (fun i => lookup1Gates (table i) (k.result i) (k.cmp i)) ++
    (List.range (k.n - 1)).map fun i => k.andGate (i + 1)

/-- The comparisons (191-193). -/
def cmpAssign (s : Asg (ZMod p)) : ℕ → Asg (ZMod p)
  | 0 => s
  | m + 1 => lookup1Assign (table m) (k.result m) (k.cmp m) (cmpAssign s m)

/-- The loop from step `i` down to 1 (195-207). -/
def andAssign (s : Asg (ZMod p)) : ℕ → Asg (ZMod p)
  | 0 => s
  | i + 1 =>
    andAssign (s.set (k.results i) (if i + 1 = k.n - 1 then val s (k.cmp i) * val s (k.cmp (i + 1)) else val s (k.results (i + 1)) * val s (k.cmp i))) i

/-- What `generate_assignments` does after the unpacking. -/
def tail (s : Asg (ZMod p)) : Asg (ZMod p) := k.andAssign (k.cmpAssign s k.n) (k.n - 1)

/-- `generate_assignments` (188-208). -/
def assign (s : Asg (ZMod p)) : Asg (ZMod p) := k.tail (packAssign k.bits (k.element.eval s) s)

end FieldToBits

/-! ### Packing in chunks -/

section
variable {F : Type*} [Field F]

/-- `get_field_element_from_bits` (`blueprint_linear_combination.hpp:219-230`). -/
def horner (l : List F) : F := l.foldr (fun v r => r + (r + v)) 0

/-- `generate_assignments_from_bits` of a packing with a packed variable (`packing.hpp:97-100`). -/
def packFromBits (bits : List (Lc F)) (packed : ℕ) (s : Asg F) : Asg F := s.set packed (horner (bits.map (Lc.eval s)))

/-- Number of chunks (`packing.hpp:123`). -/
def numChunks (len c : ℕ) : ℕ := (len + (c - 1)) / c

/-- Chunk `i` of a list (127-131). -/
def chunk {α : Type*} (l : List α) (c i : ℕ) : List α := (l.take (min ((i + 1) * c) l.length)).drop (i * c)

/-- `multipacking_component::generate_gates` (136-140). -/
def multiGates (bits : List (Lc F)) (packed : ℕ → Lc F) (c : ℕ) (enforce : Bool) : List (Constraint F) :=
  (List.range (numChunks bits.length c)).flatMap fun i => packGates (chunk bits c i) (packed i) enforce

/-- `multipacking_component::generate_assignments_from_bits` (148-152) with variables as packed values. -/
def multiFromBits (bits : List (Lc F)) (packed : ℕ → ℕ) (c : ℕ) (s : Asg F) : ℕ → Asg F
  | 0 => s
  | m + 1 => packFromBits (chunk bits c m) (packed m) (multiFromBits bits packed c s m)

/-- `field_vector_copy_component::generate_gates` (171-176); `n` is the number of variables. -/
def copyGates (source target : ℕ → ℕ) (n : ℕ) (doCopy : Lc F) : List (Constraint F) :=
  (List.range n).map fun i => ⟨doCopy, (Lc.var (source i)).sub (Lc.var (target i)), Lc.const 0⟩

/-- `field_vector_copy_component::generate_assignments` (178-187): the loop. -/
def copyLoop (source target : ℕ → ℕ) (s : Asg F) : ℕ → Asg F
  | 0 => s
  | m + 1 => let s' := copyLoop source target s m; s'.set (target m) (val s' (source m))

end

/-- `field_vector_copy_component::generate_assignments` (`packing.hpp:178-187`). -/
def copyAssign {F : Type*} [Field F] [DecidableEq F] (source target : ℕ → ℕ) (n : ℕ) (doCopy : Lc F) (s : Asg F) : Asg F :=
  if doCopy.eval s ≠ 0 then copyLoop source target s n else s

/-- `bit_vector_copy_component` (`packing.hpp:191-227`); `base` is `next_free_var` at construction. -/
structure BitCopy (F : Type*) where
  source : List ℕ
  target : List ℕ
  doCopy : Lc F
  c : ℕ
  base : ℕ

namespace BitCopy
variable {F : Type*} [Field F] (k : BitCopy F)

/-- `num_chunks` (214). -/
def m : ℕ := numChunks k.source.length k.c
/-- `packed_source[i]` (218). -/
def packedSource (i : ℕ) : ℕ := k.base + i
/-- `packed_target[i]` (222). -/
def packedTarget (i : ℕ) : ℕ := k.base + k.m + i

/-- `generate_gates` (229-234). -/
def gates (eS eT : Bool) : List (Constraint F) :=
  multiGates (k.source.map Lc.var) (fun i => Lc.var (k.packedSource i)) k.c eS ++
    multiGates (k.target.map Lc.var) (fun i => Lc.var (k.packedTarget i)) k.c eT ++ copyGates k.packedSource k.packedTarget k.m k.doCopy

/-- `generate_assignments` (236-249). -/
def assign [DecidableEq F] (s : Asg F) : Asg F :=
  let s := if k.doCopy.eval s = 1 then copyLoop (k.source.getD · 0) (k.target.getD · 0) s k.source.length else s
  let s := multiFromBits (k.source.map Lc.var) k.packedSource k.c s k.m
  multiFromBits (k.target.map Lc.var) k.packedTarget k.c s (numChunks k.target.length k.c)

end BitCopy

end R1cs
end Verif
