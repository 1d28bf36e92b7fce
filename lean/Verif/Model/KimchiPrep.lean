import Verif.Model.KimchiGroup

/-!
# Kimchi: `prepare_scalars`, `map_fq`, `map_fr`, `table_commitment`

`components/systems/snark/plonk/kimchi/detail/`: `batch_scalar/prepare_scalars.hpp`, `map_fq.hpp`, `map_fr.hpp`, `table_commitment.hpp`.
-/

namespace Verif
namespace KimchiPrep
open KimchiGroup (G w2 kv)
variable {p : ℕ} [Fact p.Prime]

/-! ### `prepare_scalars` -/

/-- The loop of `generate_circuit` and of `generate_assignments` (prepare_scalars.hpp:101-110, 128-135); `s` is the first row, `r` is `row`. -/
def prepCalls (s : ℤ) : ℤ → List Var → List G
  | _, [] => []
  | r, x :: xs => .add x (kv s 0) r :: .mul (w2 r) (kv s 1) (r + 1) :: prepCalls s (r + 2) xs

/-- `generate_assignments_constants` (prepare_scalars.hpp:155-171); `larger` is `scalar_larger()`. -/
def prepConsts (larger : Bool) (s : ℤ) : List (Op (ZMod p)) :=
  if larger then [.constant 0 s (-(2 : ZMod p) ^ 255), .constant 0 (s + 1) 1]
  else [.constant 0 s (-(2 : ZMod p) ^ 255 - 1), .constant 0 (s + 1) (1 / 2)]

/-- `generate_circuit` (prepare_scalars.hpp:87-115). -/
def prepCircuit (larger : Bool) (s : ℤ) (xs : List Var) : List (Op (ZMod p)) := prepConsts larger s ++ (prepCalls s s xs).flatMap G.ops

/-- `generate_assignments` (prepare_scalars.hpp:117-138). -/
def prepAssign (s : ℤ) (xs : List Var) (t : Table (ZMod p)) : Table (ZMod p) := (prepCalls s s xs).foldl (G.assign fun _ _ => 0) t

/-- `result.output[i]` (prepare_scalars.hpp:106-108). -/
def prepOut (s : ℤ) (i : ℕ) : Var := w2 (s + 2 * i + 1)

/-- `rows_amount` (prepare_scalars.hpp:76-77). -/
def prepRows (n : ℕ) : ℕ := n * (1 + 1)

/-! ### `prepare_scalars_inversion` -/

/-- `generate_assignments_constants` of `scalar_details/prepare_scalars_inversion.hpp` (157-171). -/
def invConsts (larger : Bool) (s : ℤ) : List (Op (ZMod p)) :=
  if larger then [.constant 0 s (-(2 : ZMod p) ^ 255), .constant 0 (s + 1) 1]
  else [.constant 0 s (-(2 : ZMod p) ^ 255 - 1), .constant 0 (s + 1) (1 / 2)]

/-- `generate_circuit` (prepare_scalars_inversion.hpp:87-117); the loop is that of `prepare_scalars`, word for word. -/
def invCircuit (larger : Bool) (s : ℤ) (xs : List Var) : List (Op (ZMod p)) := invConsts larger s ++ (prepCalls s s xs).flatMap G.ops

/-! ### `map_fq`, `map_fr` -/

/-- `generate_circuit` of `map_fq` (map_fq.hpp:93-104, 126-133) and of `map_fr` (map_fr.hpp:97-108, 130-137): the empty `generate_assignments_constant` is
called, nothing else. The data (`fq_data`, `fr_data`) is given as the list of its variables. -/
def mapCircuit (_dataPublic _dataRecalculated : List Var) (_s : ℤ) : List (Op (ZMod p)) := []

/-! ### `table_commitment` -/

section
variable {P V : Type*}

/-- `msm_size` (table_commitment.hpp:102-103). -/
def msmSize (columns split : ℕ) (runtime : Bool) : ℕ := (columns + if runtime then 1 else 0) * split

/-- One write to `commitments` and `scalars` (table_commitment.hpp:147-148, 154-155); `none`: an index past the end of an array. -/
def put (buf : List (Option (P × V))) (i : ℕ) (c : Option P) (v : Option V) : Option (List (Option (P × V))) :=
  match c, v with
  | some c, some v => if i < buf.length then some (buf.set i (some (c, v))) else none
  | _, _ => none

/-- The first loop (table_commitment.hpp:145-151): the bound is `commitments.size()`, that is `msm_size`. -/
def fillTable (msm split : ℕ) (table : List (List P)) (comb : List V) : Option (List (Option (P × V))) :=
  (List.range msm).foldlM (fun buf i => (List.range split).foldlM (fun buf k => put buf (i * split + k) (table[i]?.bind (·[k]?)) comb[i]?) buf)
    (List.replicate msm none)

/-- Then the runtime table at `j`, the number of writes so far (table_commitment.hpp:152-158). -/
def fill (columns split : ℕ) (runtime : Bool) (table : List (List P)) (comb : List V) (rt : List P) : Option (List (Option (P × V))) :=
  (fillTable (msmSize columns split runtime) split table comb).bind fun buf =>
    if runtime then (List.range split).foldlM (fun buf k => put buf (msmSize columns split runtime * split + k) rt[k]? comb[1]?) buf else some buf

end

end KimchiPrep
end Verif
