import Verif.Model.R1csMerkle

/-!
# r1cs Merkle tree update

`include/nil/blueprint/components/merkle_tree/r1cs/check_update.hpp`. Two trees are computed side by side, the previous and the next one; here they are
told apart by a `Bool`, `false` for the previous one. The members `left_digests[i]` and `right_digests[i]` of a path, which the code names but
`merkle_proof` does not have (`prove.hpp:53`), are read as `path[i][0]` and `path[i][1]`.
-/

namespace Verif
namespace R1cs
namespace Merkle

/-- `merkle_proof_update` (`check_update.hpp:50-140`). `c` is the chunk size given to `bit_vector_copy_component`: `FieldType::value_bits - 1` (139). -/
structure Update (p : ℕ) where
  hash : HashComp p
  depth : ℕ
  address : ℕ → Lc (ZMod p)
  leaf : Bool → ℕ → ℕ
  prevRoot : ℕ → ℕ
  nextRoot : ℕ → ℕ
  path : Bool → ℕ → Bool → ℕ → ℕ
  success : Lc (ZMod p)
  c : ℕ
  base : ℕ

namespace Update
variable {p : ℕ} [Fact p.Prime] (k : Update p)

/-- The output of hasher `i` of a tree (105-123): the internal outputs are allocated in turns (105-108), then `computed_next_root` (110). -/
def out (sd : Bool) (i q : ℕ) : ℕ :=
  if i = 0 then (if sd then k.base + k.hash.d * (2 * (k.depth - 1)) + q else k.prevRoot q) else k.base + k.hash.d * (2 * (i - 1) + sd.toNat) + q
/-- The first variable of hasher `i` of a tree; the hashers are constructed in turns (112-124). -/
def hBase (sd : Bool) (i : ℕ) : ℕ := k.base + k.hash.d * (2 * (k.depth - 1) + 1) + k.hash.size * (2 * i + sd.toNat)
/-- The block of hasher `i` (114, 120). -/
def block (sd : Bool) (i : ℕ) : List ℕ := vlist k.hash.d (k.path sd i false) ++ vlist k.hash.d (k.path sd i true)
/-- The input of propagator `i` (129, 133). -/
def inp (sd : Bool) (i : ℕ) : ℕ → ℕ := if i < k.depth - 1 then k.out sd (i + 1) else k.leaf sd
/-- `address_bits[tree_depth - 1 - i]`. -/
def addr (i : ℕ) : Lc (ZMod p) := k.address (k.depth - 1 - i)
/-- `check_next_root` (136-139). -/
def check : BitCopy (ZMod p) := ⟨vlist k.hash.d (k.out true 0), vlist k.hash.d k.nextRoot, k.success, k.c, k.hBase false k.depth⟩

/-- The constraint on bit `q` of the auxiliary inputs of layer `i` (160-168). -/
def auxGate (i q : ℕ) : Constraint (ZMod p) :=
  ⟨k.addr i,
    ((Lc.var (k.path false i false q)).sub (Lc.var (k.path true i false q))).sub (Lc.var (k.path false i true q)) |>.add (Lc.var (k.path true i true q)),
    (Lc.var (k.path true i true q)).sub (Lc.var (k.path false i true q))⟩

/-- `generate_gates` (142-186). The flag given to the hashers is ignored by the hash components of the library. -/
def gates : List (Constraint (ZMod p)) :=
  ((List.range k.depth).flatMap fun i => k.hash.gates (k.block false i) (vlist k.hash.d (k.out false i)) (k.hBase false i) ++
    k.hash.gates (k.block true i) (vlist k.hash.d (k.out true i)) (k.hBase true i)) ++
  ((List.range k.depth).flatMap fun i => selGates k.hash.d (k.inp false i) (k.addr i) (k.path false i false) (k.path false i true) ++
    selGates k.hash.d (k.inp true i) (k.addr i) (k.path true i false) (k.path true i true)) ++
  ((List.range k.depth).flatMap fun i => (List.range k.hash.d).map fun q => k.auxGate i q) ++ k.check.gates false false

/-- Copying the digest of the previous path (192-197): the left one if the address bit is zero, otherwise the right one. -/
def copyAux (i : ℕ) (s : Asg (ZMod p)) : Asg (ZMod p) :=
  if (k.addr i).eval s = 0 then copyLoop (k.path false i false) (k.path true i false) s k.hash.d
  else copyLoop (k.path false i true) (k.path true i true) s k.hash.d

/-- One iteration of the loop of `generate_assignments` (190-206). -/
def layer (i : ℕ) (s : Asg (ZMod p)) : Asg (ZMod p) :=
  let s := k.copyAux i s
  let s := selAssign k.hash.d (k.inp false i) (k.addr i) (k.path false i false) (k.path false i true) s
  let s := selAssign k.hash.d (k.inp true i) (k.addr i) (k.path true i false) (k.path true i true) s
  let s := run (k.hash.steps (k.block false i) (vlist k.hash.d (k.out false i)) (k.hBase false i)) s
  run (k.hash.steps (k.block true i) (vlist k.hash.d (k.out true i)) (k.hBase true i)) s

/-- The first `n` iterations, from layer `depth - 1` on. -/
def layers (s : Asg (ZMod p)) : ℕ → Asg (ZMod p)
  | 0 => s
  | n + 1 => k.layer (k.depth - 1 - n) (layers s n)

/-- `generate_assignments` (188-209). -/
def assign (s : Asg (ZMod p)) : Asg (ZMod p) := k.check.assign (k.layers s k.depth)

end Update
end Merkle
end R1cs
end Verif
