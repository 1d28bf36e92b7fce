import Verif.Model.Poseidon
import Verif.Model.Power
import Verif.Model.Flexible
import Verif.Model.XIndex
import Verif.Model.Colinear

/-!
# `plonk_flexible_verifier` (`components/systems/snark/plonk/verifier/verifier.hpp`)

The circuit generated for the verification of a placeholder proof. Hashes are the flexible Poseidon component (the obligations it is
meant to record: it enables selectors `0, 1, ...`, which are those of its gates when the verifier is the first user of the circuit, C58).
Swaps are requested from a batch; `place` tells where the batch puts the request with the given input (C43: equal requests share a
place, and the gate and the copies of every request are there after finalisation). `merkle_tree_positions[i]` etc. are functions; the
code uses them within their sizes.
-/

namespace Verif
namespace Verifier

variable {F : Type*} [Field F]

/-- Component parameters (verifier.hpp:70-76, 307-308) and the parameters of Poseidon. -/
structure Params (F : Type*) where
  c : Cols
  w : ℕ
  mds : ℕ → ℕ → F
  rc : ℕ → ℕ → F
  lambda : ℕ
  r : ℕ
  size : ℕ
  batches : List ℕ
  omega : F
  pow : ℕ
  vk0 : F
  vk1 : F
  place : Swap.In → Cols × ℤ

/-- `input_type` (94-124); the field `proof` is used by `all_vars` only. -/
structure Input where
  commitments : ℕ → Var
  roots : ℕ → Var
  positions : ℕ → ℕ → Var
  initialValues : ℕ → ℕ → Var
  initialHashes : ℕ → ℕ → Var
  roundValues : ℕ → ℕ → Var
  roundHashes : ℕ → ℕ → Var
  challenge : Var

/-- Rows of a hash. -/
def hrows (p : Params F) : ℕ := Poseidon.Flex.rows p.w

/-- `poseidon_output.output_state[2]` of the hash at `row`. -/
def hout (p : Params F) (row : ℤ) : Var := Poseidon.Flex.result p.c p.w row 2

/-- The constraints of the hash of `(a, b, d)` at `row`. -/
def hash (p : Params F) (a b d : Var) (row : ℤ) : List (Op F) :=
  Poseidon.Flex.circuit p.c p.w p.mds p.rc (fun i => if i = 0 then a else if i = 1 then b else d) row

/-- `zero_var`, `vk0_var`, `vk1_var` (602-604). -/
def zero (p : Params F) (srow : ℤ) : Var := ⟨p.c.k 0, srow, false, .constant⟩
def vk0Var (p : Params F) (srow : ℤ) : Var := ⟨p.c.k 0, srow + 2, false, .constant⟩
def vk1Var (p : Params F) (srow : ℤ) : Var := ⟨p.c.k 0, srow + 3, false, .constant⟩

/-- A sequence of hashes in consecutive rows, each with the output of the one before in its first place: constraints, next row and
output. -/
def feed (p : Params F) : Var → List (Var × Var) → ℤ → List (Op F) × ℤ × Var
  | s, [], row => ([], row, s)
  | s, (b, d) :: l, row =>
    let q := feed p (hout p row) l (row + hrows p)
    (hash p s b d row ++ q.1, q.2)

/-- The inputs hashed up to `xi` (606-644). -/
def absorb1 (p : Params F) (inp : Input) (srow : ℤ) : List (Var × Var) :=
  let z := zero p srow
  [(vk0Var p srow, vk1Var p srow), (inp.commitments 0, z), (z, z), (inp.commitments 1, z)] ++ List.replicate 8 (z, z) ++
    [(inp.commitments 2, z)]

/-- The inputs hashed after `xi` for `lpc_theta`, the `fri_alphas` and the `fri_xs` (648-674). -/
def absorb2 (p : Params F) (inp : Input) (srow : ℤ) : List (Var × Var) :=
  let z := zero p srow
  [(vk1Var p srow, inp.commitments 0), (inp.commitments 1, inp.commitments 2)] ++
    (List.range p.r).map (fun i => (inp.roots i, z)) ++ List.replicate p.lambda (z, z)

/-- The output of challenge hash number `k` (in the order of `absorb1` and `absorb2`). -/
def challenge (p : Params F) (srow : ℤ) (k : ℕ) : Var := hout p (srow + (k * hrows p : ℕ))

/-- A Merkle path (740-750, 771-781): swap the running hash with its sibling according to the position, hash the pair. -/
def path (p : Params F) (z : Var) : Var → List (Var × Var) → ℤ → List (Op F) × ℤ × Var
  | s, [], row => ([], row, s)
  | s, (b, h) :: l, row =>
    let at' := p.place ⟨b, h, s⟩
    let o := Swap.result at'.1 at'.2
    let q := path p z (hout p row) l (row + hrows p)
    (Swap.circuit at'.1 ⟨b, h, s⟩ at'.2 ++ hash p z o.1 o.2 row ++ q.1, q.2)

/-- The values of batch `j` in a query: `cur` is twice the number of values before (728, 732). -/
def leafPairs (inp : Input) (i cur n : ℕ) : List (Var × Var) :=
  (List.range n).map fun k => (inp.initialValues i (cur + 2 * k), inp.initialValues i (cur + 2 * k + 1))

/-- The loop over the batches (730-755): `j` is the number of the batch, `cur` and `curHash` the counters. Every batch is assumed to be
nonempty (for an empty one the code takes the last hash computed before as its leaf). -/
def batchLoop (p : Params F) (inp : Input) (srow : ℤ) (i : ℕ) : List ℕ → ℕ → ℕ → ℕ → ℤ → List (Op F) × ℤ
  | [], _, _, _, row => ([], row)
  | n :: l, j, cur, curHash, row =>
    let z := zero p srow
    let leaf := feed p z (leafPairs inp i cur n) row
    let m := path p z leaf.2.2 ((List.range p.size).map fun k => (inp.positions i k, inp.initialHashes i (curHash + k))) leaf.2.1
    let q := batchLoop p inp srow i l (j + 1) (cur + 2 * n) (curHash + p.size) m.2.1
    (leaf.1 ++ m.1 ++ [.copy m.2.2 (if j = 0 then vk1Var p srow else inp.commitments (j - 1))] ++ q.1, q.2)

/-- The loop over the rounds `1 ≤ j < r` (765-789): round 0 only advances `cur_hash` by `size` (784) and round `j` hashes the values
of round `j - 1`. For `j > size` the code's loop bound wraps around. -/
def roundLoop (p : Params F) (inp : Input) (srow : ℤ) (i : ℕ) : ℕ → ℕ → ℕ → ℤ → List (Op F) × ℤ
  | 0, _, _, row => ([], row)
  | n + 1, j, curHash, row =>
    let z := zero p srow
    let leaf := feed p z [(inp.roundValues i (2 * (j - 1)), inp.roundValues i (2 * (j - 1) + 1))] row
    let m := path p z leaf.2.2 ((List.range (p.size - j)).map fun k => (inp.positions i k, inp.roundHashes i (curHash + k))) leaf.2.1
    let q := roundLoop p inp srow i n (j + 1) (curHash + (p.size - j)) m.2.1
    (leaf.1 ++ m.1 ++ [.copy m.2.2 (inp.roots j)] ++ q.1, q.2)

/-- One query (725-790). -/
def query (p : Params F) (inp : Input) (srow : ℤ) (i : ℕ) (row : ℤ) : List (Op F) × ℤ :=
  let a := batchLoop p inp srow i p.batches 0 0 0 row
  let b := roundLoop p inp srow i (p.r - 1) 1 p.size a.2
  (a.1 ++ b.1, b.2)

/-- All queries from number `i`. -/
def queries (p : Params F) (inp : Input) (srow : ℤ) : ℕ → ℕ → ℤ → List (Op F) × ℤ
  | 0, _, row => ([], row)
  | n + 1, i, row =>
    let a := query p inp srow i row
    let q := queries p inp srow n (i + 1) a.2
    (a.1 ++ q.1, q.2)

/-- The output of the power component of query `i`, whose first row is `row` (676-684). -/
def xsVar (p : Params F) (row : ℤ) (i : ℕ) : Var := ConstantPow.result p.c p.w p.pow (row + (i * ConstantPow.rows p.w p.pow : ℕ))

/-- The inputs of the colinearity check (707-717). -/
def colInputs (p : Params F) (inp : Input) (srow row : ℤ) (i : ℕ) : Colinear.Inputs :=
  ⟨xsVar p row i, fun k => if k < 2 then zero p srow else inp.roundValues i (k - 2),
    fun k => if k = 0 then zero p srow else inp.positions i (p.size - k), fun j => challenge p srow (15 + j)⟩

/-- The components between the challenges and the queries (676-722). -/
def middle (p : Params F) (inp : Input) (srow row : ℤ) : List (Op F) × ℤ :=
  let row2 := row + (p.lambda * ConstantPow.rows p.w p.pow : ℕ)
  let row3 := row2 + (p.lambda * XIndex.rows p.w p.size : ℕ)
  (((List.range p.lambda).flatMap fun i =>
      ConstantPow.circuit p.c p.w p.pow (challenge p srow (15 + p.r + i)) (row + (i * ConstantPow.rows p.w p.pow : ℕ))) ++
    ((List.range p.lambda).flatMap fun i =>
      XIndex.circuit p.c p.w p.size p.omega (xsVar p row i) (inp.positions i) (row2 + (i * XIndex.rows p.w p.size : ℕ))) ++
    ((List.range p.lambda).flatMap fun i =>
      Colinear.circuit p.c p.w p.r (colInputs p inp srow row i) (row3 + (i * Colinear.rows p.w p.r : ℕ))),
   row3 + (p.lambda * Colinear.rows p.w p.r : ℕ))

/-- `generate_circuit` (581-794). The constants are written by `generate_assignments` (345-348). -/
def circuit (p : Params F) (inp : Input) (srow : ℤ) : List (Op F) × ℤ :=
  let a := feed p (zero p srow) (absorb1 p inp srow) srow
  let b := feed p a.2.2 (absorb2 p inp srow) a.2.1
  let m := middle p inp srow b.2.1
  let q := queries p inp srow p.lambda 0 m.2
  ([.constant (p.c.k 0) srow 0, .constant (p.c.k 0) (srow + 1) 1, .constant (p.c.k 0) (srow + 2) p.vk0,
      .constant (p.c.k 0) (srow + 3) p.vk1] ++ a.1 ++ [.copy a.2.2 inp.challenge] ++ b.1 ++ m.1 ++ q.1, q.2)

/-- `rows_amount` (289-300): the rows of the challenges, of the queries and of the other components. `r - 1` wraps around for `r = 0`
in the code. -/
def rowsAmount (p : Params F) : ℕ :=
  hrows p * 15 + hrows p * p.r + hrows p * p.lambda +
  (p.batches.map fun b => hrows p * b * p.lambda + hrows p * p.size * p.lambda).sum +
  ((List.range (p.r - 1)).map fun i => hrows p * p.lambda * (p.size - i)).sum +
  ConstantPow.rows p.w p.pow * p.lambda + XIndex.rows p.w p.size * p.lambda + Colinear.rows p.w p.r * p.lambda

end Verifier
end Verif
