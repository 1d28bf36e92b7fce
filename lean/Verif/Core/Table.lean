import Mathlib.Algebra.Field.Basic
import Mathlib.Algebra.Order.Ring.Int
import Mathlib.Data.List.Nodup
import Mathlib.Tactic.Ring
import Mathlib.Tactic.LinearCombination
import Mathlib.Tactic.FieldSimp

/-!
# Tables, variables, constraint expressions, component obligations

The objects every PLONK component of the library manipulates.

* `Var` is `crypto3::zk::snark::plonk_variable` (index, rotation, relative flag, column kind).
* `Expr` is `plonk_constraint` (a polynomial expression over variables).
* `Table` is the content of the assignment table seen as a total function from
  (column kind, column index, row) to field elements; never-written cells hold `0`
  (`blueprint/plonk/assignment.hpp:418-489`: accessors resize columns with zeros).
* `Op` is one obligation recorded by a `generate_circuit` function.
-/

namespace Verif

/-- Column kinds, `plonk_variable::column_type`. -/
inductive ColType
  | witness | publicInput | constant | selector
  deriving DecidableEq, Repr

/-- `plonk_variable`: for gate variables `relative = true` and `rotation` is a row offset; for copy
constraint / input variables `relative = false` and `rotation` is the absolute row
(`component.hpp:48-60`, uses throughout `components/`). -/
structure Var where
  index : ℕ
  rotation : ℤ
  relative : Bool
  type : ColType
  deriving DecidableEq, Repr

/-- Constraint expressions (`plonk_constraint`, an expression tree of `+ - * pow` over variables and
field constants). -/
inductive Expr (F : Type*)
  | const (c : F)
  | var (v : Var)
  | add (a b : Expr F)
  | sub (a b : Expr F)
  | mul (a b : Expr F)
  | pow (a : Expr F) (n : ℕ)

namespace Expr
variable {F : Type*}
instance : Add (Expr F) := ⟨.add⟩
instance : Sub (Expr F) := ⟨.sub⟩
instance : Mul (Expr F) := ⟨.mul⟩
instance : HPow (Expr F) ℕ (Expr F) := ⟨.pow⟩
instance [NatCast F] (n : ℕ) : OfNat (Expr F) n := ⟨.const ((n : ℕ) : F)⟩
end Expr

/-- Table content. -/
abbrev Table (F : Type*) := ColType → ℕ → ℤ → F

namespace Table
variable {F : Type*}

/-- Writing one cell (`assignment.witness(i,row) = v` and its siblings). -/
def set (t : Table F) (ty : ColType) (i : ℕ) (r : ℤ) (v : F) : Table F :=
  fun ty' i' r' => if ty' = ty ∧ i' = i ∧ r' = r then v else t ty' i' r'

theorem set_apply (t : Table F) (ty : ColType) (i : ℕ) (r : ℤ) (v : F) (ty' : ColType) (i' : ℕ)
    (r' : ℤ) :
    (t.set ty i r v) ty' i' r' = if ty' = ty ∧ i' = i ∧ r' = r then v else t ty' i' r' := rfl

theorem set_same (t : Table F) (ty : ColType) (i : ℕ) (r : ℤ) (v : F) :
    (t.set ty i r v) ty i r = v := by simp [set]

theorem set_ne (t : Table F) {ty ty' : ColType} {i i' : ℕ} {r r' : ℤ} (v : F)
    (h : ¬ (ty' = ty ∧ i' = i ∧ r' = r)) : (t.set ty i r v) ty' i' r' = t ty' i' r' := by
  simp [set, h]

end Table

/-- Value of a variable in the gate evaluated at `row`. -/
def Var.evalAt {F : Type*} (t : Table F) (row : ℤ) (v : Var) : F :=
  t v.type v.index (if v.relative then row + v.rotation else v.rotation)

/-- `var_value(assignment, v)` (`blueprint/plonk/assignment.hpp:728-772`): the rotation is the absolute
row. (The special private/batch/shared storages are treated in the assignment model.) -/
def Var.value {F : Type*} (t : Table F) (v : Var) : F := t v.type v.index v.rotation

/-- `constraint.evaluate(row, assignments)`. -/
def Expr.eval {F : Type*} [Field F] (t : Table F) (row : ℤ) : Expr F → F
  | .const c => c
  | .var v => v.evalAt t row
  | .add a b => a.eval t row + b.eval t row
  | .sub a b => a.eval t row - b.eval t row
  | .mul a b => a.eval t row * b.eval t row
  | .pow a n => a.eval t row ^ n

section eval
variable {F : Type*} [Field F] (t : Table F) (row : ℤ)
@[simp] theorem Expr.eval_add (a b : Expr F) : (a + b).eval t row = a.eval t row + b.eval t row := rfl
@[simp] theorem Expr.eval_sub (a b : Expr F) : (a - b).eval t row = a.eval t row - b.eval t row := rfl
@[simp] theorem Expr.eval_mul (a b : Expr F) : (a * b).eval t row = a.eval t row * b.eval t row := rfl
@[simp] theorem Expr.eval_pow (a : Expr F) (n : ℕ) : (a ^ n).eval t row = a.eval t row ^ n := rfl
@[simp] theorem Expr.eval_const (c : F) : (Expr.const c).eval t row = c := rfl
@[simp] theorem Expr.eval_ofNat (n : ℕ) [n.AtLeastTwo] :
    (OfNat.ofNat n : Expr F).eval t row = (OfNat.ofNat n : F) := rfl
@[simp] theorem Expr.eval_two : (2 : Expr F).eval t row = 2 := by
  show ((2 : ℕ) : F) = 2; exact Nat.cast_ofNat
@[simp] theorem Expr.eval_three : (3 : Expr F).eval t row = 3 := by
  show ((3 : ℕ) : F) = 3; exact Nat.cast_ofNat
@[simp] theorem Expr.eval_zero : (0 : Expr F).eval t row = 0 := by
  show ((0 : ℕ) : F) = 0; exact Nat.cast_zero
@[simp] theorem Expr.eval_one : (1 : Expr F).eval t row = 1 := by
  show ((1 : ℕ) : F) = 1; exact Nat.cast_one
@[simp] theorem Expr.eval_var (v : Var) : (Expr.var v : Expr F).eval t row = v.evalAt t row := rfl
end eval

/-- The column lists of a component (`component.hpp:56-58`, members `_W`, `_C`, `_PI`). -/
structure Cols where
  W : List ℕ
  C : List ℕ := []
  PI : List ℕ := []

/-- `_W[(_W.size() + index) % _W.size()]` (`component.hpp:67-87`). Out of range (empty list) is 0 here;
the code then divides by zero. -/
def colAt (l : List ℕ) (i : ℤ) : ℕ := l.getD (((l.length : ℤ) + i) % (l.length : ℤ)).toNat 0

namespace Cols
/-- `component.W(i)` (`component.hpp:67-69`). -/
def w (c : Cols) (i : ℤ) : ℕ := colAt c.W i
/-- `component.C(i)` (`component.hpp:76-78`). -/
def k (c : Cols) (i : ℤ) : ℕ := colAt c.C i
/-- `component.PI(i)` (`component.hpp:85-87`). -/
def pi (c : Cols) (i : ℤ) : ℕ := colAt c.PI i

/-- Gate variable `var(component.W(i), rot, true, witness)`. -/
def wv {F : Type*} (c : Cols) (i : ℤ) (rot : ℤ := 0) : Expr F := .var ⟨c.w i, rot, true, .witness⟩
/-- Absolute variable `var(component.W(i), row, false, witness)`. -/
def wa (c : Cols) (i : ℤ) (row : ℤ) : Var := ⟨c.w i, row, false, .witness⟩

@[simp] theorem eval_wv {F : Type*} [Field F] (c : Cols) (i rot : ℤ) (t : Table F) (row : ℤ) :
    (c.wv i rot : Expr F).eval t row = t .witness (c.w i) (row + rot) := rfl
@[simp] theorem value_wa {F : Type*} (c : Cols) (i row : ℤ) (t : Table F) :
    (c.wa i row).value t = t .witness (c.w i) row := rfl
end Cols

theorem colAt_nat {l : List ℕ} {i : ℕ} (h : i < l.length) : colAt l (i : ℤ) = l[i] := by
  unfold colAt
  have h1 : (((l.length : ℤ) + (i : ℤ)) % (l.length : ℤ)).toNat = i := by
    rw [Int.add_emod_left, Int.emod_eq_of_lt (by omega) (by omega)]; simp
  rw [h1]; simp [List.getD, h]

/-- Distinct in-range indices of a duplicate-free column list give distinct columns. -/
theorem colAt_inj {l : List ℕ} (hN : l.Nodup) {i j : ℤ} (hi : 0 ≤ i ∧ i < l.length)
    (hj : 0 ≤ j ∧ j < l.length) : colAt l i = colAt l j ↔ i = j := by
  obtain ⟨i', rfl⟩ := Int.eq_ofNat_of_zero_le hi.1
  obtain ⟨j', rfl⟩ := Int.eq_ofNat_of_zero_le hj.1
  have hi' : i' < l.length := by exact_mod_cast hi.2
  have hj' : j' < l.length := by exact_mod_cast hj.2
  rw [colAt_nat hi', colAt_nat hj', hN.getElem_inj_iff]
  exact_mod_cast Iff.rfl

theorem Cols.w_inj {c : Cols} (hN : c.W.Nodup) {i j : ℤ} (hi : 0 ≤ i ∧ i < c.W.length)
    (hj : 0 ≤ j ∧ j < c.W.length) : c.w i = c.w j ↔ i = j := colAt_inj hN hi hj

/-- A component with exactly `n` pairwise distinct witness columns. -/
structure Cols.OK (c : Cols) (n : ℕ) : Prop where
  nodup : c.W.Nodup
  len : c.W.length = n

theorem Cols.OK.inj {c : Cols} {n : ℕ} (h : c.OK n) {i j : ℤ} (hi : 0 ≤ i ∧ i < n)
    (hj : 0 ≤ j ∧ j < n) : c.w i = c.w j ↔ i = j :=
  Cols.w_inj h.nodup (by rw [h.len]; exact hi) (by rw [h.len]; exact hj)

/-- One obligation recorded while generating a circuit. -/
inductive Op (F : Type*)
  /-- `add_gate(constraints)` and `enable_selector` on the given rows. -/
  | gate (cs : List (Expr F)) (rows : List ℤ)
  /-- `add_copy_constraint({a, b})`. -/
  | copy (a b : Var)
  /-- `assignment.constant(col, row) = v` performed by circuit generation. -/
  | constant (col : ℕ) (row : ℤ) (v : F)
  /-- `add_lookup_gate` of one lookup constraint: the tuple of expressions lies in the table. -/
  | lookup (tbl : List F → Prop) (inputs : List (Expr F)) (rows : List ℤ)

namespace Op
variable {F : Type*} [Field F]
/-- A table meets an obligation. -/
def Holds (t : Table F) : Op F → Prop
  | .gate cs rows => ∀ r ∈ rows, ∀ c ∈ cs, c.eval t r = 0
  | .copy a b => a.value t = b.value t
  | .constant col row v => t .constant col row = v
  | .lookup tbl inputs rows => ∀ r ∈ rows, tbl (inputs.map (Expr.eval t r))

/-- Effect on the table of generating the circuit: only constants are written
(selectors are accounted for by `gate`'s row list). -/
def writeConst (t : Table F) : Op F → Table F
  | .constant col row v => t.set .constant col row v
  | _ => t
end Op

/-- All obligations of a component are met: the satisfiability notion of the constraint system. -/
def Sat {F : Type*} [Field F] (t : Table F) (ops : List (Op F)) : Prop := ∀ o ∈ ops, o.Holds t

/-- The constants written by circuit generation. -/
def writeConsts {F : Type*} [Field F] (ops : List (Op F)) (t : Table F) : Table F :=
  ops.foldl Op.writeConst t

section sat
variable {F : Type*} [Field F] {t : Table F}
@[simp] theorem sat_nil : Sat t [] ↔ True := by simp [Sat]
@[simp] theorem sat_cons (o : Op F) (l : List (Op F)) : Sat t (o :: l) ↔ o.Holds t ∧ Sat t l := by
  simp [Sat]
@[simp] theorem sat_append (l l' : List (Op F)) : Sat t (l ++ l') ↔ Sat t l ∧ Sat t l' := by
  simp [Sat, or_imp, forall_and]
@[simp] theorem holds_gate (cs : List (Expr F)) (rows : List ℤ) :
    (Op.gate cs rows).Holds t ↔ ∀ r ∈ rows, ∀ c ∈ cs, c.eval t r = 0 := Iff.rfl
@[simp] theorem holds_copy (a b : Var) :
    (Op.copy a b : Op F).Holds t ↔ a.value t = b.value t := Iff.rfl
@[simp] theorem holds_constant (col : ℕ) (row : ℤ) (v : F) :
    (Op.constant col row v).Holds t ↔ t .constant col row = v := Iff.rfl
@[simp] theorem holds_lookup (tbl : List F → Prop) (inputs : List (Expr F)) (rows : List ℤ) :
    (Op.lookup tbl inputs rows).Holds t ↔ ∀ r ∈ rows, tbl (inputs.map (Expr.eval t r)) := Iff.rfl
end sat

/-- One cell write of `generate_assignments`. -/
structure Write (F : Type*) where
  type : ColType
  index : ℕ
  row : ℤ
  val : F

/-- Performing the writes in program order. -/
def writeAll {F : Type*} (ws : List (Write F)) (t : Table F) : Table F :=
  ws.foldl (fun t w => t.set w.type w.index w.row w.val) t

section writeAll
variable {F : Type*}
@[simp] theorem writeAll_nil (t : Table F) : writeAll [] t = t := rfl
@[simp] theorem writeAll_cons (w : Write F) (ws : List (Write F)) (t : Table F) :
    writeAll (w :: ws) t = writeAll ws (t.set w.type w.index w.row w.val) := rfl
theorem writeAll_append (l l' : List (Write F)) (t : Table F) :
    writeAll (l ++ l') t = writeAll l' (writeAll l t) := by simp [writeAll]

/-- Cells not written keep their value. -/
theorem writeAll_of_notMem (ws : List (Write F)) (t : Table F) (ty : ColType) (i : ℕ) (r : ℤ)
    (h : ∀ w ∈ ws, ¬ (w.type = ty ∧ w.index = i ∧ w.row = r)) :
    writeAll ws t ty i r = t ty i r := by
  induction ws generalizing t with
  | nil => rfl
  | cons w ws ih =>
    rw [writeAll_cons, ih]
    · apply Table.set_ne
      intro hh
      exact h w (by simp) ⟨hh.1.symm, hh.2.1.symm, hh.2.2.symm⟩
    · intro w' hw'; exact h w' (by simp [hw'])

/-- If all writes to a cell carry the same value and there is at least one, the cell holds it. -/
theorem writeAll_of_mem (ws : List (Write F)) (t : Table F) (w : Write F) (hw : w ∈ ws)
    (h : ∀ w' ∈ ws, w'.type = w.type → w'.index = w.index → w'.row = w.row → w'.val = w.val) :
    writeAll ws t w.type w.index w.row = w.val := by
  induction ws generalizing t with
  | nil => simp at hw
  | cons a ws ih =>
    rw [writeAll_cons]
    by_cases hm : w ∈ ws
    · exact ih _ hm (fun w' hw' => h w' (by simp [hw']))
    · have haw : a = w := by
        rcases List.mem_cons.mp hw with h1 | h1
        · exact h1.symm
        · exact absurd h1 hm
      subst haw
      by_cases hx : ∃ w' ∈ ws, w'.type = a.type ∧ w'.index = a.index ∧ w'.row = a.row
      · obtain ⟨w', hw', e1, e2, e3⟩ := hx
        have hv := h w' (by simp [hw']) e1 e2 e3
        have key : ∀ (l : List (Write F)) (s : Table F),
            (∀ x ∈ l, x.type = a.type → x.index = a.index → x.row = a.row → x.val = a.val) →
            s a.type a.index a.row = a.val → writeAll l s a.type a.index a.row = a.val := by
          intro l
          induction l with
          | nil => intro s _ hs; exact hs
          | cons b l ihl =>
            intro s hl hs
            rw [writeAll_cons]
            apply ihl
            · intro x hx; exact hl x (by simp [hx])
            · rw [Table.set_apply]
              split
              · next hc => exact hl b (by simp) hc.1.symm hc.2.1.symm hc.2.2.symm
              · exact hs
        exact key ws _ (fun x hx => h x (by simp [hx])) (Table.set_same _ _ _ _ _)
      · rw [writeAll_of_notMem]
        · exact Table.set_same _ _ _ _ _
        · intro w' hw' hc; exact hx ⟨w', hw', hc⟩
end writeAll

/-- The variable does not denote a witness cell of rows `[srow, srow+rows)`: how inputs relate to the
rows a component occupies (the caller allocates fresh rows). -/
def Var.Outside (v : Var) (srow : ℤ) (rows : ℕ) : Prop :=
  v.type = .witness → v.rotation < srow ∨ srow + rows ≤ v.rotation

theorem Var.Outside.value_set {F : Type*} {v : Var} {srow : ℤ} {rows : ℕ} (h : v.Outside srow rows)
    {r : ℤ} (hr : srow ≤ r ∧ r < srow + rows) (t : Table F) (i : ℕ) (a : F) :
    v.value (t.set .witness i r a) = v.value t := by
  unfold Var.value
  apply Table.set_ne
  rintro ⟨h1, -, h3⟩
  rcases h h1 with h | h <;> omega

/-- `t'` agrees with `t` outside witness rows `[srow, srow+rows)` of the component's columns. -/
def Frame {F : Type*} (c : Cols) (srow : ℤ) (rows : ℕ) (t t' : Table F) : Prop :=
  ∀ ty i r, ¬ (ty = .witness ∧ i ∈ c.W ∧ srow ≤ r ∧ r < srow + rows) → t' ty i r = t ty i r

theorem Cols.w_mem {c : Cols} (h : 0 < c.W.length) (i : ℤ) : c.w i ∈ c.W := by
  unfold Cols.w colAt
  have h2 : (((c.W.length : ℤ) + i) % (c.W.length : ℤ)).toNat < c.W.length := by
    have h1 := Int.emod_lt_of_pos ((c.W.length : ℤ) + i) (b := (c.W.length : ℤ)) (by omega)
    have h3 := Int.emod_nonneg ((c.W.length : ℤ) + i) (b := (c.W.length : ℤ)) (by omega)
    omega
  rw [List.getD, List.getElem?_eq_getElem h2]
  exact List.getElem_mem h2

theorem Frame.refl {F : Type*} (c : Cols) (srow : ℤ) (rows : ℕ) (t : Table F) :
    Frame c srow rows t t := fun _ _ _ _ => rfl

theorem Frame.set {F : Type*} {c : Cols} {srow : ℤ} {rows : ℕ} {t t' : Table F}
    (h : Frame c srow rows t t') (hW : 0 < c.W.length) {r : ℤ} (hr : srow ≤ r ∧ r < srow + rows)
    (i : ℤ) (a : F) : Frame c srow rows t (t'.set .witness (c.w i) r a) := by
  intro ty j q hq
  rw [Table.set_ne, h ty j q hq]
  rintro ⟨rfl, rfl, rfl⟩
  exact hq ⟨rfl, Cols.w_mem hW i, hr⟩

/-- `Frame.set` for a component of known width. -/
theorem Frame.setOK {F : Type*} {c : Cols} {n : ℕ} (hc : c.OK n) {srow : ℤ} {rows : ℕ}
    {t t' : Table F} (h : Frame c srow rows t t') (hn : 0 < n) {r : ℤ}
    (hr : srow ≤ r ∧ r < srow + rows) (i : ℤ) (a : F) :
    Frame c srow rows t (t'.set .witness (c.w i) r a) :=
  h.set (by rw [hc.len]; exact hn) hr i a

@[simp] theorem writeConsts_nil {F : Type*} [Field F] (t : Table F) :
    writeConsts [] t = t := rfl
@[simp] theorem writeConsts_gate {F : Type*} [Field F] (cs : List (Expr F)) (rows : List ℤ)
    (l : List (Op F)) (t : Table F) : writeConsts (.gate cs rows :: l) t = writeConsts l t := rfl
@[simp] theorem writeConsts_copy {F : Type*} [Field F] (a b : Var)
    (l : List (Op F)) (t : Table F) : writeConsts (.copy a b :: l) t = writeConsts l t := rfl
@[simp] theorem writeConsts_lookup {F : Type*} [Field F] (tbl : List F → Prop) (i : List (Expr F))
    (rows : List ℤ) (l : List (Op F)) (t : Table F) :
    writeConsts (.lookup tbl i rows :: l) t = writeConsts l t := rfl
@[simp] theorem writeConsts_constant {F : Type*} [Field F] (col : ℕ) (row : ℤ) (v : F)
    (l : List (Op F)) (t : Table F) :
    writeConsts (.constant col row v :: l) t = writeConsts l (t.set .constant col row v) := rfl
theorem writeConsts_append {F : Type*} [Field F] (l l' : List (Op F)) (t : Table F) :
    writeConsts (l ++ l') t = writeConsts l' (writeConsts l t) := by simp [writeConsts]

/-- Circuits that write no constants leave the table alone. -/
theorem writeConsts_noConst {F : Type*} [Field F] (l : List (Op F)) (t : Table F)
    (h : ∀ o ∈ l, ∀ col row v, o ≠ .constant col row v) : writeConsts l t = t := by
  induction l with
  | nil => rfl
  | cons o l ih =>
    have ih' := ih fun o' ho' => h o' (by simp [ho'])
    cases o with
    | constant col row v => exact absurd rfl (h _ (by simp) col row v)
    | gate => exact ih'
    | copy => exact ih'
    | lookup => exact ih'

/-- All writes go to the component's own witness cells. -/
def Own {F : Type*} (c : Cols) (srow : ℤ) (rows : ℕ) (ws : List (Write F)) : Prop :=
  ∀ w ∈ ws, w.type = .witness ∧ w.index ∈ c.W ∧ srow ≤ w.row ∧ w.row < srow + rows

theorem Own.frame {F : Type*} {c : Cols} {srow : ℤ} {rows : ℕ} {ws : List (Write F)}
    (h : Own c srow rows ws) (t : Table F) : Frame c srow rows t (writeAll ws t) := by
  intro ty i r hn
  apply writeAll_of_notMem
  rintro w hw ⟨h1, h2, h3⟩
  obtain ⟨h4, h5, h6⟩ := h w hw
  exact hn ⟨h1 ▸ h4, h2 ▸ h5, h3 ▸ h6⟩

theorem Frame.outside {F : Type*} {c : Cols} {srow : ℤ} {rows : ℕ} {t t' : Table F}
    (h : Frame c srow rows t t') {v : Var} (hv : v.Outside srow rows) : v.value t' = v.value t := by
  unfold Var.value
  apply h
  rintro ⟨h1, -, h2⟩
  rcases hv h1 with h | h <;> omega

theorem Frame.trans {F : Type*} {c : Cols} {srow : ℤ} {rows : ℕ} {t t' t'' : Table F}
    (h : Frame c srow rows t t') (h' : Frame c srow rows t' t'') : Frame c srow rows t t'' :=
  fun ty i r hn => (h' ty i r hn).trans (h ty i r hn)

theorem Frame.mono {F : Type*} {c : Cols} {s s' : ℤ} {n n' : ℕ} {t t' : Table F}
    (h : Frame c s' n' t t') (h1 : s ≤ s') (h2 : s' + n' ≤ s + n) : Frame c s n t t' :=
  fun ty i r hn => h ty i r fun ⟨a, b, h3, h4⟩ => hn ⟨a, b, by omega, by omega⟩

/-- Rows outside the frame are untouched. -/
theorem Frame.row {F : Type*} {c : Cols} {s : ℤ} {n : ℕ} {t t' : Table F} (h : Frame c s n t t')
    {r : ℤ} (hr : r < s ∨ s + n ≤ r) (ty : ColType) (i : ℕ) : t' ty i r = t ty i r :=
  h ty i r fun ⟨_, _, h3, h4⟩ => by omega

/-- Constant columns are untouched. -/
theorem Frame.const {F : Type*} {c : Cols} {s : ℤ} {n : ℕ} {t t' : Table F} (h : Frame c s n t t')
    (i : ℕ) (r : ℤ) : t' .constant i r = t .constant i r :=
  h _ i r (by simp)

end Verif
