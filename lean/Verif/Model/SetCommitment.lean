import Verif.Model.R1csVoting

/-!
# Set commitments

`include/nil/blueprint/components/systems/snark/set_commitment.hpp`, `include/nil/blueprint/components/systems/set_commitment/`.

`merkle_tree` is a class of another library; here it is the complete binary tree of the textbook, whose leaves are digests of zeros until they
are set. The hash function is a parameter. `std::ceil(std::log2(n))` is taken to be exact.
-/

namespace Verif
namespace SetCommitment

/-- `depth` (set_commitment.hpp:69, set_commitment_component.hpp:65, set_membership_proof_variable.hpp:54). -/
def depthOf (maxEntries : ℕ) : ℕ := Nat.clog 2 maxEntries

/-- `set_commitment_accumulator` (set_commitment.hpp:56-65): `hash_to_pos` and the leaves of `tree`. -/
structure Acc where
  depth : ℕ
  pos : List (List Bool × ℕ)
  leaf : ℕ → List Bool

/-- The constructor (set_commitment.hpp:67-73); `d` is `digest_bits`. -/
def new (d maxEntries : ℕ) : Acc := ⟨depthOf maxEntries, [], fun _ => List.replicate d false⟩

variable (h : List Bool → List Bool)

/-- `add` (set_commitment.hpp:75-83). -/
def add (a : Acc) (v : List Bool) : Acc :=
  if (a.pos.lookup (h v)).isNone then
    ⟨a.depth, (h v, a.pos.length) :: a.pos, fun i => if i = a.pos.length then h v else a.leaf i⟩
  else a

/-- `is_in_set` (set_commitment.hpp:85-89). -/
def isIn (a : Acc) (v : List Bool) : Bool := (a.pos.lookup (h v)).isSome

/-- The node with number `i` in layer `n` above the leaves. -/
def treeNode (leaf : ℕ → List Bool) : ℕ → ℕ → List Bool
  | 0, i => leaf i
  | n + 1, i => h (treeNode leaf n (2 * i) ++ treeNode leaf n (2 * i + 1))

/-- `get_commitment` (set_commitment.hpp:91-93). -/
def commitment (a : Acc) : List Bool := treeNode h a.leaf a.depth 0

/-- The siblings on the path of leaf `i`, lowest first (`tree->get_path`). -/
def sibling (a : Acc) (i n : ℕ) : List Bool := treeNode h a.leaf n (if (i / 2 ^ n) % 2 = 0 then i / 2 ^ n + 1 else i / 2 ^ n - 1)

/-- `get_membership_proof` (set_commitment.hpp:95-105): address and path; `none` when the assertion fails. -/
def membershipProof (a : Acc) (v : List Bool) : Option (ℕ × (ℕ → List Bool)) :=
  (a.pos.lookup (h v)).map fun i => (i, sibling h a i)

end SetCommitment

namespace R1cs
namespace SetMembership

open Merkle Voting

variable {p : ℕ} [Fact p.Prime]

/-- `set_commitment_component` with its `set_membership_proof_variable` (set_commitment_component.hpp:43-84). -/
structure Member (p : ℕ) where
  hash : AnyHash p
  depth : ℕ
  element : List ℕ
  root : ℕ → ℕ
  address : ℕ → ℕ
  path : ℕ → Bool → ℕ → ℕ
  success : Lc (ZMod p)
  c : ℕ
  base : ℕ

namespace Member
variable (k : Member p)

/-- `element_digest` (set_commitment_component.hpp:73). -/
def digest (q : ℕ) : ℕ := k.base + q

/-- `check_membership` (set_commitment_component.hpp:75-82). -/
def read : Read p :=
  ⟨k.hash.two, k.depth, fun n => Lc.var (k.address n), k.digest, k.root, k.path, k.success, k.c, k.base + k.hash.d + k.hash.size k.element.length⟩

/-- `generate_gates` (set_commitment_component.hpp:70-74, 86-92). -/
def gates : List (Constraint (ZMod p)) :=
  if k.depth = 0 then k.hash.gates k.element (vlist k.hash.d k.root) k.base
  else k.hash.gates k.element (vlist k.hash.d k.digest) (k.base + k.hash.d) ++ k.read.gates

/-- `set_membership_proof_variable::generate_gates` (set_membership_proof_variable.hpp:62-69). -/
def proofGates : List (Constraint (ZMod p)) :=
  if k.depth = 0 then []
  else (List.range k.depth).map (fun i => boolean (Lc.var (k.address i))) ++ pathGates k.hash.d k.depth k.path

/-- `generate_assignments` (set_commitment_component.hpp:94-100). -/
def assign (s : Asg (ZMod p)) : Asg (ZMod p) :=
  if k.depth = 0 then run (k.hash.steps k.element (vlist k.hash.d k.root) k.base) s
  else k.read.assign (run (k.hash.steps k.element (vlist k.hash.d k.digest) (k.base + k.hash.d)) s)

end Member
end SetMembership
end R1cs
end Verif
