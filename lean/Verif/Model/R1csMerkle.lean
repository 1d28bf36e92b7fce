import Verif.Model.R1csSha256

/-!
# r1cs Merkle tree components

`include/nil/blueprint/components/hashes/digest_selector_component.hpp`, `include/nil/blueprint/components/merkle_tree/r1cs/`.

The hash component is a parameter, as in the code. A digest is a function from the index of a bit to its variable.
-/

namespace Verif
namespace R1cs
namespace Merkle

section
variable {p : ℕ} [Fact p.Prime]

/-- What the Merkle tree components use of a hash component: the number of bits of a digest, constraints and assignment for an input block, an output and
the first free variable, and the number of variables it allocates for a block of two digests. -/
structure HashComp (p : ℕ) where
  d : ℕ
  gates : List ℕ → List ℕ → ℕ → List (Constraint (ZMod p))
  steps : List ℕ → List ℕ → ℕ → List (Step (ZMod p))
  size : ℕ

/-- The variables of a digest of `d` bits. -/
def vlist (d : ℕ) (f : ℕ → ℕ) : List ℕ := (List.range d).map f

/-- `digest_selector_component::generate_gates` (`digest_selector_component.hpp:58-67`). -/
def selGates (d : ℕ) (input : ℕ → ℕ) (isRight : Lc (ZMod p)) (left right : ℕ → ℕ) : List (Constraint (ZMod p)) :=
  (List.range d).map fun i => ⟨isRight, (Lc.var (right i)).sub (Lc.var (left i)), (Lc.var (input i)).sub (Lc.var (left i))⟩

/-- `digest_selector_component::generate_assignments` (68-82). That `is_right` is 0 or 1 is a precondition (71). -/
def selAssign (d : ℕ) (input : ℕ → ℕ) (isRight : Lc (ZMod p)) (left right : ℕ → ℕ) (s : Asg (ZMod p)) : Asg (ZMod p) :=
  if isRight.eval s = 1 then copyLoop input right s d else copyLoop input left s d

/-- `digest_variable::generate_gates` (`hash_io.hpp:67-71`). -/
def digestGates (d : ℕ) (v : ℕ → ℕ) : List (Constraint (ZMod p)) := (List.range d).map fun i => boolean (Lc.var (v i))

/-- `merkle_proof::generate_gates` (`prove.hpp:70-76`), `merkle_authentication_path_variable::generate_gates` (`authentication_path.hpp:55-60`).
`path i false` is the left and `path i true` the right digest of layer `i`; layer 0 is below the root. -/
def pathGates (d depth : ℕ) (path : ℕ → Bool → ℕ → ℕ) : List (Constraint (ZMod p)) :=
  (List.range depth).flatMap fun i => digestGates d (path i false) ++ digestGates d (path i true)

/-- The variables that the constructors of the path allocate (`prove.hpp:55-68`, `authentication_path.hpp:47-53`) from `base` on. -/
def pathAlloc (d base : ℕ) (i : ℕ) (b : Bool) (q : ℕ) : ℕ := base + d * (2 * i + b.toNat) + q

/-- `merkle_tree_check_read_component` (`check_read.hpp:46-132`) and `merkle_proof_validate` (`validate.hpp:46-126`), which are the same circuit.
`c` is the chunk size given to `bit_vector_copy_component`: `FieldType::number_bits` (`check_read.hpp:131`, `validate.hpp:125`). -/
structure Read (p : ℕ) where
  hash : HashComp p
  depth : ℕ
  address : ℕ → Lc (ZMod p)
  leaf : ℕ → ℕ
  root : ℕ → ℕ
  path : ℕ → Bool → ℕ → ℕ
  success : Lc (ZMod p)
  c : ℕ
  base : ℕ

namespace Read
variable (k : Read p)

/-- The output of hasher `i` (`check_read.hpp:106-116`): `computed_root` for `i = 0`, otherwise `internal_output[i - 1]`. -/
def out (i q : ℕ) : ℕ := if i = 0 then k.base + k.hash.d * (k.depth - 1) + q else k.base + k.hash.d * (i - 1) + q
/-- The first variable of hasher `i`. -/
def hBase (i : ℕ) : ℕ := k.base + k.hash.d * k.depth + k.hash.size * i
/-- The block of hasher `i` (113). -/
def block (i : ℕ) : List ℕ := vlist k.hash.d (k.path i false) ++ vlist k.hash.d (k.path i true)
/-- The input of propagator `i` (126). -/
def inp (i : ℕ) : ℕ → ℕ := if i < k.depth - 1 then k.out (i + 1) else k.leaf
/-- `address_bits[tree_depth - 1 - i]` (127). -/
def addr (i : ℕ) : Lc (ZMod p) := k.address (k.depth - 1 - i)
/-- `check_root` (130-131). -/
def check : BitCopy (ZMod p) := ⟨vlist k.hash.d (k.out 0), vlist k.hash.d k.root, k.success, k.c, k.hBase k.depth⟩

/-- `generate_gates` (134-149). -/
def gates : List (Constraint (ZMod p)) :=
  ((List.range k.depth).flatMap fun i => k.hash.gates (k.block i) (vlist k.hash.d (k.out i)) (k.hBase i)) ++
    ((List.range k.depth).flatMap fun i => selGates k.hash.d (k.inp i) (k.addr i) (k.path i false) (k.path i true)) ++ k.check.gates false false

/-- One iteration of the loop of `generate_assignments` (154-160). -/
def layer (i : ℕ) (s : Asg (ZMod p)) : Asg (ZMod p) :=
  run (k.hash.steps (k.block i) (vlist k.hash.d (k.out i)) (k.hBase i)) (selAssign k.hash.d (k.inp i) (k.addr i) (k.path i false) (k.path i true) s)

/-- The first `n` iterations, from layer `depth - 1` on. -/
def layers (s : Asg (ZMod p)) : ℕ → Asg (ZMod p)
  | 0 => s
  | n + 1 => k.layer (k.depth - 1 - n) (layers s n)

/-- `generate_assignments` (151-163). -/
def assign (s : Asg (ZMod p)) : Asg (ZMod p) := k.check.assign (k.layers s k.depth)

end Read

/-- `sha256_two_to_one_hash_component` as the hash component (`sha256_component.hpp:201-236`). -/
def sha2 : HashComp p := ⟨256, fun block out base => (Sha.Compress.mk' Sha.defaultIV block out base).gates,
  fun block out base => (Sha.Compress.mk' Sha.defaultIV block out base).steps, Sha.Compress.size⟩

end
end Merkle
end R1cs
end Verif
