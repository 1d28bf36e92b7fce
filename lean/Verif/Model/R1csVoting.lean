import Verif.Model.R1csMerkle

/-!
# r1cs component for voting with an encrypted input

`include/nil/blueprint/components/voting/r1cs/encrypted_input_voting.hpp`.

The hash components are parameters, as in the code; unlike those of the Merkle tree they take blocks of any length.
-/

namespace Verif
namespace R1cs
namespace Voting

open Merkle

section
variable {p : ℕ} [Fact p.Prime]

/-- A hash component for blocks of any length: `size n` is the number of variables it allocates for a block of `n` bits. -/
structure AnyHash (p : ℕ) where
  d : ℕ
  gates : List ℕ → List ℕ → ℕ → List (Constraint (ZMod p))
  steps : List ℕ → List ℕ → ℕ → List (Step (ZMod p))
  size : ℕ → ℕ

/-- The hash component in the Merkle tree, for blocks of two digests. -/
def AnyHash.two (H : AnyHash p) : HashComp p := ⟨H.d, H.gates, H.steps, H.size (2 * H.d)⟩

/-- `encrypted_input_voting` (`encrypted_input_voting.hpp:37-98`). `hash` is `HashComponent`, `tree` is `MerkleTreeHashComponent`, `c` the chunk size
`field_type::number_bits` (95) and of the root validator. -/
structure Vote (p : ℕ) where
  hash : AnyHash p
  tree : AnyHash p
  m : List ℕ
  eid : List ℕ
  sn : ℕ → ℕ
  root : ℕ → ℕ
  depth : ℕ
  address : ℕ → Lc (ZMod p)
  path : ℕ → Bool → ℕ → ℕ
  sk : List ℕ
  success : Lc (ZMod p)
  c : ℕ
  base : ℕ

namespace Vote
variable (k : Vote p)

/-- `sn_computed` (85). -/
def snc (q : ℕ) : ℕ := k.base + q
/-- `pk` (85). -/
def pk (q : ℕ) : ℕ := k.base + k.hash.d + q
/-- `pk_leaf` (86). -/
def leaf (q : ℕ) : ℕ := k.base + 2 * k.hash.d + q
/-- The first variable of `pk_hasher` (86). -/
def pkBase : ℕ := k.base + 2 * k.hash.d + k.tree.d
/-- The first variable of `pk_leaf_hasher` (87). -/
def leafBase : ℕ := k.pkBase + k.hash.size k.sk.length
/-- The first variable of `root_validator` (88). -/
def readBase : ℕ := k.leafBase + k.tree.size k.hash.d
/-- `root_validator` (88). -/
def read : Read p := ⟨k.tree.two, k.depth, k.address, k.leaf, k.root, k.path, k.success, k.c, k.readBase⟩
/-- The first variable of `sn_hasher` (89-94): after the variables of the root validator, the last of which are the packed digests. -/
def snBase : ℕ := k.read.hBase k.depth + 2 * numChunks k.tree.d k.c
/-- `check_sn` (95). -/
def check : BitCopy (ZMod p) :=
  ⟨vlist k.hash.d k.snc, vlist k.hash.d k.sn, k.success, k.c, k.snBase + k.hash.size (k.eid.length + k.sk.length)⟩

/-- The constraints of `pk_hasher`, `pk_leaf_hasher`, `sn_hasher`. -/
def pkGates : List (Constraint (ZMod p)) := k.hash.gates k.sk (vlist k.hash.d k.pk) k.pkBase
def leafGates : List (Constraint (ZMod p)) := k.tree.gates (vlist k.hash.d k.pk) (vlist k.tree.d k.leaf) k.leafBase
def snGates : List (Constraint (ZMod p)) := k.hash.gates (k.eid ++ k.sk) (vlist k.hash.d k.snc) k.snBase

/-- The constraints on the ballot (108-117). -/
def ballotGates : List (Constraint (ZMod p)) :=
  k.m.map (fun v => boolean (Lc.var v)) ++ [⟨Lc.const 1, k.m.map fun v => (v, 1), Lc.const 1⟩]

/-- `generate_gates` (101-118). -/
def gates : List (Constraint (ZMod p)) :=
  k.pkGates ++ k.leafGates ++ k.read.gates ++ k.snGates ++ k.check.gates false false ++ k.ballotGates

/-- The first two steps of `generate_assignments()` (122-123). -/
def keySteps : List (Step (ZMod p)) :=
  k.hash.steps k.sk (vlist k.hash.d k.pk) k.pkBase ++ k.tree.steps (vlist k.hash.d k.pk) (vlist k.tree.d k.leaf) k.leafBase

/-- `generate_assignments()` (121-127). -/
def assign (s : Asg (ZMod p)) : Asg (ZMod p) :=
  k.check.assign (run (k.hash.steps (k.eid ++ k.sk) (vlist k.hash.d k.snc) k.snBase) (k.read.assign (run k.keySteps s)))

/-- `digest_variable::generate_assignments` (`hash_io.hpp:73-75`) and `generate_assignments(root, sn)` (133-137). -/
def assignWith (root sn : List (ZMod p)) (s : Asg (ZMod p)) : Asg (ZMod p) :=
  ((k.assign s).setAll ((vlist k.tree.d k.root).zip root)).setAll ((vlist k.hash.d k.sn).zip sn)

end Vote
end
end Voting
end R1cs
end Verif
