import Verif.Model.ZkevmBytecode
import Mathlib.Algebra.Field.Rat

/-!
# C105: the lookup based boolean components
-/

namespace Verif
namespace LookupLogic
variable {F : Type*} [Field F]

/-- Specification: a bit as a field element. -/
def bit (b : Bool) : F := if b then 1 else 0

/-- The component computes the boolean function `f`: in every table meeting the circuit the inputs are bits and the output is `f`
of them; conversely bits outside the row of the component are accepted, and the output is `f` of them. -/
structure Computes (op : LookupOp F) (f : Bool → Bool → Bool) : Prop where
  sound : ∀ (c : Cols) (inp : ℕ → Var) (srow : ℤ) (t : Table F), Sat t (circuit op c inp srow) →
    ∃ x y, (inp 0).value t = bit x ∧ (inp 1).value t = bit y ∧ (result c srow).value t = bit (f x y)
  complete : ∀ (c : Cols) (_ : c.OK 3) (inp : ℕ → Var) (srow : ℤ) (t : Table F) (x y : Bool), (inp 0).Outside srow 1 →
    (inp 1).Outside srow 1 → (inp 0).value t = bit x → (inp 1).value t = bit y →
    Sat (assign op c inp srow t) (circuit op c inp srow) ∧ (result c srow).value (assign op c inp srow t) = bit (f x y)
  /-- inputs that are no bits are rejected: no table with such inputs meets the circuit -/
  reject : ∀ (c : Cols) (inp : ℕ → Var) (srow : ℤ) (t : Table F), (∀ b, (inp 0).value t ≠ bit b) ∨ (∀ b, (inp 1).value t ≠ bit b) →
    ¬ Sat t (circuit op c inp srow)

/-- A table with one row for each pair of bits. -/
theorem computes_of {op : LookupOp F} {f : Bool → Bool → Bool}
    (h1 : ∀ r ∈ op.table, ∃ x y, r = (x.toNat, y.toNat, (f x y).toNat))
    (h2 : ∀ x y, (x.toNat, y.toNat, (f x y).toNat) ∈ op.table) (h3 : ∀ x y, op.value (bit x) (bit y) = bit (f x y)) :
    Computes op f := by
  have hbit : ∀ b : Bool, ((b.toNat : ℕ) : F) = bit b := by intro b; cases b <;> simp [bit]
  have sound : ∀ (c : Cols) (inp : ℕ → Var) (srow : ℤ) (t : Table F), Sat t (circuit op c inp srow) →
      ∃ x y, (inp 0).value t = bit x ∧ (inp 1).value t = bit y ∧ (result c srow).value t = bit (f x y) := by
    intro c inp srow t hs
    simp only [circuit, sat_cons, sat_nil, holds_lookup, holds_copy, List.mem_singleton, forall_eq, List.map_cons, List.map_nil,
      Cols.eval_wv, Cols.value_wa, add_zero, and_true] at hs
    obtain ⟨⟨r, hr, e⟩, e0, e1⟩ := hs
    obtain ⟨x, y, rfl⟩ := h1 r hr
    simp only [List.cons.injEq, hbit, and_true] at e
    exact ⟨x, y, e0.trans e.1, e1.trans e.2.1, e.2.2⟩
  refine ⟨sound, ?_, ?_⟩
  · intro c hc inp srow t x y o0 o1 e0 e1
    have n01 : c.w 0 ≠ c.w 1 := fun h => by have := (hc.inj (by norm_num) (by norm_num)).1 h; omega
    have n02 : c.w 0 ≠ c.w 2 := fun h => by have := (hc.inj (by norm_num) (by norm_num)).1 h; omega
    have n12 : c.w 1 ≠ c.w 2 := fun h => by have := (hc.inj (by norm_num) (by norm_num)).1 h; omega
    have hr : srow ≤ srow ∧ srow < srow + ((1 : ℕ) : ℤ) := ⟨le_rfl, by push_cast; omega⟩
    have v1 : (inp 1).value (t.set .witness (c.w 0) srow ((inp 0).value t)) = bit y := by rw [o1.value_set hr, e1]
    have hA : assign op c inp srow t =
        ((t.set .witness (c.w 0) srow (bit x)).set .witness (c.w 1) srow (bit y)).set .witness (c.w 2) srow (bit (f x y)) := by
      simp only [assign, v1]
      rw [e0, h3]
    have a0 : assign op c inp srow t .witness (c.w 0) srow = bit x := by
      rw [hA, Table.set_ne _ _ (by simp [n02]), Table.set_ne _ _ (by simp [n01]), Table.set_same]
    have a1 : assign op c inp srow t .witness (c.w 1) srow = bit y := by
      rw [hA, Table.set_ne _ _ (by simp [n12]), Table.set_same]
    have a2 : assign op c inp srow t .witness (c.w 2) srow = bit (f x y) := by rw [hA, Table.set_same]
    have i0 : (inp 0).value (assign op c inp srow t) = bit x := by
      rw [hA, o0.value_set hr, o0.value_set hr, o0.value_set hr, e0]
    have i1 : (inp 1).value (assign op c inp srow t) = bit y := by
      rw [hA, o1.value_set hr, o1.value_set hr, o1.value_set hr, e1]
    refine ⟨?_, a2⟩
    simp only [circuit, sat_cons, sat_nil, holds_lookup, holds_copy, List.mem_singleton, forall_eq, List.map_cons, List.map_nil,
      Cols.eval_wv, Cols.value_wa, add_zero, and_true, a0, a1, a2, i0, i1]
    exact ⟨_, h2 x y, by simp only [hbit]⟩
  · intro c inp srow t h hs
    obtain ⟨x, y, hx, hy, -⟩ := sound c inp srow t hs
    rcases h with h | h
    · exact h x hx
    · exact h y hy

/-- `lookup_logic_and` computes the conjunction. -/
theorem and_computes : Computes (land : LookupOp F) (fun x y => x && y) := by
  refine computes_of (by simp [land]) (by simp [land]) ?_
  intro x y; cases x <;> cases y <;> simp [land, bit]

/-- `lookup_logic_xor` computes the exclusive or. -/
theorem xor_computes : Computes (lxor : LookupOp F) (fun x y => xor x y) := by
  refine computes_of (by simp [lxor]) (by simp [lxor]) ?_
  intro x y; cases x <;> cases y <;> simp [lxor, bit]; norm_num

/-! ### The hypotheses are met -/
example : ∃ t : Table ℚ, Sat t (circuit lxor ⟨[0, 1, 2], [], []⟩ (fun i => ⟨0, i, false, .publicInput⟩) 0) ∧
    (result ⟨[0, 1, 2], [], []⟩ 0).value t = 1 :=
  ⟨_, (xor_computes (F := ℚ)).complete ⟨[0, 1, 2], [], []⟩ ⟨by decide, rfl⟩ (fun i => ⟨0, i, false, .publicInput⟩) 0
    (fun _ _ r => if r = 0 then 1 else 0) true false (by simp [Var.Outside]) (by simp [Var.Outside]) rfl rfl⟩

end LookupLogic
end Verif
