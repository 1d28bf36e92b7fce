import Verif.Model.GateMover

/-!
# Component batching (`component_batch.hpp`, `blueprint/plonk/assignment.hpp`)

A batched component occupies one row of `w` witness columns and has one gate (`component_batch.hpp:369`,
`313-327`); constants and public inputs are never given to it (204, 303). It is described by its gate, the columns its
inputs are copied to, the columns of its results and the values `generate_assignments` puts in the row.

Private and shared storages are ordinary columns of the table here (`var_value`, `assignment.hpp:748-778`); the batch
storage is separate, because it is what finalisation replaces.
-/

namespace Verif
namespace Batch

open GateMover

variable {F : Type*}

/-- A one-row component with the largest admissible witness amount (`get_component_witness_amount`,
`build_component_instance`, `component_batch.hpp:202-217`). -/
structure Comp (F : Type*) where
  w : ℕ
  gate : List (GExpr F)
  inputs : List (ℕ × ℕ)
  outs : List ℕ
  assign : List F → ℕ → F

/-- One element of `inputs_results` (`component_batch.hpp:163`): the variables of the input, those of the result, and
whether the result has a value. -/
structure Entry where
  key : List Var
  res : List Var
  done : Bool

/-- `assignment_batch_private_storage` and the maps of the existing batches, by position in `component_batches`
(`assignment.hpp:123`, `139`). -/
structure St (F : Type*) where
  store : List F
  ents : ℕ → List Entry

/-- `batch_private_storage_index` (`assignment.hpp:156`). -/
def batchIndex : ℕ := 2 ^ 64 - 2

/-- The variable returned by `add_batch_variable` for slot `n` (`assignment.hpp:566-570`). -/
def batchVar (n : ℕ) : Var := ⟨batchIndex, n, false, .publicInput⟩

/-- `var_value` (`assignment.hpp:748-778`). -/
def val [Zero F] (t : Table F) (store : List F) (v : Var) : F :=
  if v.index = batchIndex then store.getD v.rotation.toNat 0 else v.value t

/-- `inputs_results.find(input)` (`component_batch.hpp:223`, `272`). Keys are compared through their variables
(44-62). -/
def lookup (es : List Entry) (key : List Var) : Option Entry := es.find? fun e => e.key = key

/-- Insertion in a `std::map` ordered by `le`. -/
def insert (le : List Var → List Var → Bool) (e : Entry) : List Entry → List Entry
  | [] => [e]
  | x :: l => if le e.key x.key then e :: x :: l else x :: insert le e l

/-- `add_input` (`component_batch.hpp:220-285`) on batch `b`. -/
def addInput [Zero F] (c : ℕ → Comp F) (le : List Var → List Var → Bool) (t : Table F) (s : St F) (b : ℕ) (key : List Var)
    (circ : Bool) : St F × List Var :=
  let fresh := (List.range (c b).outs.length).map fun i => batchVar (s.store.length + i)
  let vals := (c b).outs.map ((c b).assign (key.map (val t s.store)))
  let put (es : List Entry) (st : List F) : St F := ⟨st, fun b' => if b' = b then es else s.ents b'⟩
  match lookup (s.ents b) key with
  | some e =>
    if e.done || circ then (s, e.res)
    else
      -- 272-283: values go to the slots handed out earlier, the entry is replaced
      let st := (e.res.zip vals).foldl (fun st p => st.set p.1.rotation.toNat p.2) s.store
      (put (insert le ⟨key, e.res, true⟩ ((s.ents b).filter fun x => x.key ≠ key)) st, e.res)
  | none =>
    if circ then (put (insert le ⟨key, fresh, false⟩ (s.ents b)) (s.store ++ List.replicate (c b).outs.length 0), fresh)
    else (put (insert le ⟨key, fresh, true⟩ (s.ents b)) (s.store ++ vals), fresh)

/-- The step of the packing loop (`component_batch.hpp:323-327`). -/
def step (W w : ℕ) (p : ℕ × ℕ) : ℕ × ℕ :=
  let col := p.2 + w
  if col + w - 1 ≥ W then (p.1 + 1, 0) else (p.1, col)

/-- A component instance at a row and column offset; `fill` marks the repeats of 333-340, which have no copy
constraints and no result variables. -/
structure Place where
  batch : ℕ
  entry : Entry
  row : ℕ
  col : ℕ
  fill : Bool

/-- The packing loop (`component_batch.hpp:306-328`). -/
def placeLoop (W w b : ℕ) : List Entry → ℕ × ℕ → List Place × (ℕ × ℕ)
  | [], p => ([], p)
  | e :: l, p => let r := placeLoop W w b l (step W w p); (⟨b, e, p.1, p.2, false⟩ :: r.1, r.2)

/-- Filling up the last row (`component_batch.hpp:333-340`). -/
def fillLoop (W w b : ℕ) (e : Entry) (row col : ℕ) : List Place :=
  if col + w - 1 < W ∧ 0 < w then ⟨b, e, row, col, true⟩ :: fillLoop W w b e row (col + w) else []
  termination_by W - col

/-- `finalize_batch` (`component_batch.hpp:291-344`): instances placed, and the next free row. -/
def finalizeBatch (W w b : ℕ) (es : List Entry) (srow : ℕ) : List Place × ℕ :=
  match es with
  | [] => ([], srow)
  | e :: _ =>
    let r := placeLoop W w b es (srow, 0)
    if r.2.2 ≠ 0 ∧ r.2.2 + w - 1 < W then (r.1 ++ fillLoop W w b e r.2.1 r.2.2, r.2.1 + 1) else (r.1, r.2.1)

/-- The loop over all batches (`assignment.hpp:207-212`). -/
def finalizeAll (c : ℕ → Comp F) (W : ℕ) (ents : ℕ → List Entry) : List ℕ → ℕ → List Place × ℕ
  | [], row => ([], row)
  | b :: l, row =>
    let r := finalizeBatch W (c b).w b (ents b) row
    let q := finalizeAll c W ents l r.2
    (r.1 ++ q.1, q.2)

/-- Rows on which `finalize_batch` enables the batch gate of batch `b` (`component_batch.hpp:311-313`). -/
def enabled (ps : List Place) (b : ℕ) : List ℕ := (ps.filter fun p => p.batch = b ∧ p.col = 0 ∧ p.fill = false).map (·.row)

/-- `generate_assignments` of one instance (`component_batch.hpp:315`, `338`): `w` cells of its row, from the values of
the input variables at that moment. -/
def assignPlace [Zero F] (c : ℕ → Comp F) (store : List F) (t : Table F) (p : Place) : Table F :=
  let xs := p.entry.key.map (val t store)
  (List.range (c p.batch).w).foldl (fun t i => t.set .witness (p.col + i) p.row ((c p.batch).assign xs i)) t

def assignAll [Zero F] (c : ℕ → Comp F) (store : List F) (t : Table F) (ps : List Place) : Table F :=
  ps.foldl (assignPlace c store) t

/-- Copy constraints of `generate_copy_constraints` (`component_batch.hpp:316`). -/
def copiesOf (c : ℕ → Comp F) (ps : List Place) : List (Var × Var) :=
  (ps.filter fun p => p.fill = false).flatMap fun p =>
    (c p.batch).inputs.map fun jc => (⟨p.col + jc.2, p.row, false, .witness⟩, p.entry.key.getD jc.1 ⟨0, 0, false, .witness⟩)

/-- The assignments to `variable_map` (`component_batch.hpp:317-321`), in order. -/
def mapOf (c : ℕ → Comp F) (ps : List Place) : List (Var × Var) :=
  (ps.filter fun p => p.fill = false).flatMap fun p =>
    p.entry.res.zip ((c p.batch).outs.map fun o => ⟨p.col + o, p.row, false, .witness⟩)

/-- Looking a variable up in `batch_variable_map`; a later assignment replaces an earlier one (`assignment.hpp:216-218`,
`component_batch.hpp:320`). -/
def subst (m : List (Var × Var)) (v : Var) : Var := ((m.reverse.find? fun p => p.1 = v).map (·.2)).getD v

/-- The copy constraints after `finalize_component_batches` (`assignment.hpp:213-220`): the earlier ones and those of
the instances, with batch variables replaced. -/
def finalCopies (c : ℕ → Comp F) (before : List (Var × Var)) (ps : List Place) : List (Var × Var) :=
  (before ++ copiesOf c ps).map fun p => (subst (mapOf c ps) p.1, subst (mapOf c ps) p.2)

end Batch
end Verif
