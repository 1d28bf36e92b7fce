import Verif.Model.ZkevmStack

/-!
# C176: opcodes and the stack of the machine

The rows of an opcode have the words that the EVM has on top of its stack and the result the EVM computes. The stack is put
back as it was, so the rows of a sequence of opcodes are those of single opcodes on the first stack, not of a program.
-/

namespace Verif
namespace ZkevmStack

/-! ### The EVM -/

/-- What the EVM does to its stack. -/
def evm : Opc → List Word → Option (List Word)
  | .iszero, a :: s => some ((if a = 0 then 1 else 0) :: s)
  | .add, a :: b :: s => some (BitVec.ofNat 256 (a.toNat + b.toNat) :: s)
  | .sub, a :: b :: s => some (BitVec.ofInt 256 (a.toNat - b.toNat) :: s)
  | .mul, a :: b :: s => some (BitVec.ofNat 256 (a.toNat * b.toNat) :: s)
  | .div, a :: b :: s => some ((if b = 0 then 0 else BitVec.ofNat 256 (a.toNat / b.toNat)) :: s)
  | _, _ => none

/-- Where the operands and the result are among the words of the rows. -/
def operands : Opc → List Word → List Word
  | .iszero, [a, _] => [a]
  | .sub, [_, b, a] => [a, b]
  | .div, [a, b, _, _] => [a, b]
  | _, [a, b, _] => [a, b]
  | _, _ => []

@[inherit_doc operands] def result : Opc → List Word → Option Word
  | .iszero, [_, r] => some r
  | .sub, [r, _, _] => some r
  | .div, [_, _, r, _] => some r
  | _, [_, _, r] => some r
  | _, _ => none

def arity : Opc → ℕ
  | .iszero => 1
  | _ => 2

/-! ### One opcode -/

/-- **C176**: with enough words on the stack, the rows have the top of the stack and the result of the EVM, and the stack is
as before. -/
theorem assign_evm (o : Opc) (s : List Word) (h : arity o ≤ s.length) :
    ∃ e r, assign o s = some e ∧ operands o e.words = s.take (arity o) ∧ result o e.words = some r ∧
      evm o s = some (r :: s.drop (arity o)) ∧ e.stack = s := by
  match o, s, h with
  | .iszero, a :: s, _ => exact ⟨_, _, rfl, rfl, rfl, rfl, rfl⟩
  | .add, a :: b :: s, _ =>
    exact ⟨_, _, rfl, rfl, rfl, by simp only [evm, arity, List.drop_succ_cons, List.drop_zero, BitVec.ofNat_add, BitVec.ofNat_toNat, BitVec.setWidth_eq], rfl⟩
  | .sub, a :: b :: s, _ =>
    refine ⟨_, _, rfl, rfl, rfl, ?_, rfl⟩
    have e : BitVec.ofInt 256 ((a.toNat : ℤ) - b.toNat) = a - b := by
      apply BitVec.eq_of_toInt_eq
      rw [BitVec.toInt_ofInt, BitVec.toInt_sub]
      simp only [BitVec.toInt_eq_toNat_bmod]
      simp
    simp only [evm, arity, List.drop_succ_cons, List.drop_zero, e]
  | .mul, a :: b :: s, _ =>
    refine ⟨_, _, rfl, rfl, rfl, ?_, rfl⟩
    have e : BitVec.ofNat 256 (a.toNat * b.toNat) = a * b := by
      apply BitVec.eq_of_toNat_eq
      rw [BitVec.toNat_ofNat, BitVec.toNat_mul]
    simp only [evm, arity, List.drop_succ_cons, List.drop_zero, e]
  | .div, a :: b :: s, _ =>
    refine ⟨_, _, rfl, rfl, rfl, ?_, rfl⟩
    simp only [evm, arity, List.drop_succ_cons, List.drop_zero, ite_not]

/-- **C176**: the quotient and the rest in the rows of DIV; for the divisor 0 the rest is the dividend. -/
theorem div_rest {a b : Word} {s : List Word} {e : Effect} (h : assign .div (a :: b :: s) = some e) :
    ∃ r q : Word, e.words = [a, b, r, q] ∧ a.toNat = r.toNat * b.toNat + q.toNat ∧ (b ≠ 0 → q.toNat < b.toNat) := by
  have ha := a.isLt
  obtain rfl : _ = e := Option.some.inj h
  refine ⟨_, _, rfl, ?_, fun hb => ?_⟩
  · by_cases hb : b = 0
    · simp [hb]
    · simp only [ne_eq, hb, not_false_eq_true, if_true, BitVec.toNat_ofNat]
      rw [Nat.mod_eq_of_lt ((Nat.div_le_self _ _).trans_lt ha), Nat.mod_eq_of_lt ((Nat.mod_le _ _).trans_lt ha)]
      exact (Nat.div_add_mod' _ _).symm
  · have hb' : 0 < b.toNat := Nat.pos_of_ne_zero fun h0 => hb (BitVec.eq_of_toNat_eq (by simpa using h0))
    simp only [ne_eq, hb, not_false_eq_true, if_true, BitVec.toNat_ofNat]
    rw [Nat.mod_eq_of_lt ((Nat.mod_le _ _).trans_lt ha)]
    exact Nat.mod_lt _ hb'

/-- **C176**: with too few words there is no assignment. -/
theorem assign_none (o : Opc) (s : List Word) (h : s.length < arity o) : assign o s = none := by
  match o, s with
  | .iszero, [] => rfl
  | .add, [] | .sub, [] | .mul, [] | .div, [] => rfl
  | .add, [_] | .sub, [_] | .mul, [_] | .div, [_] => rfl
  | .iszero, _ :: _ | .add, _ :: _ :: _ | .sub, _ :: _ :: _ | .mul, _ :: _ :: _ | .div, _ :: _ :: _ =>
    simp only [arity, List.length_cons] at h
    omega

/-- **C176**: `swap` exchanges the two upper words, `dup` doubles the top. -/
theorem swap_dup (a b : Word) (s : List Word) :
    swap (a :: b :: s) = some (b :: a :: s) ∧ dup (a :: s) = some (a :: a :: s) ∧ top (a :: s) = some a ∧
      (swap (a :: b :: s)).bind swap = some (a :: b :: s) := ⟨rfl, rfl, rfl, rfl⟩

/-! ### Sequences -/

theorem stack_same {o : Opc} {s : List Word} {e : Effect} (h : assign o s = some e) : e.stack = s := by
  rcases lt_or_ge s.length (arity o) with hl | hl
  · rw [assign_none o s hl] at h
    cases h
  · obtain ⟨e', -, h1, -, -, -, h2⟩ := assign_evm o s hl
    rw [h] at h1
    rw [Option.some.inj h1, h2]

/-- **C176**: after any sequence of opcodes the stack is the first one, and the rows of each opcode are those of the opcode
alone on the first stack. -/
theorem run_same (os : List Opc) (s : List Word) {ws : List (List Word)} {s' : List Word} (h : run os s = some (ws, s')) :
    s' = s ∧ ws.map some = os.map fun o => (assign o s).map Effect.words := by
  induction os generalizing ws s' with
  | nil =>
    obtain ⟨rfl, rfl⟩ : [] = ws ∧ s = s' := by simpa [run] using h
    exact ⟨rfl, rfl⟩
  | cons o os ih =>
    rcases he : assign o s with _ | e
    · simp [run, he] at h
    · have hs := stack_same he
      rcases hr : run os s with _ | ⟨ws', s''⟩
      · simp [run, he, hs, hr] at h
      · obtain ⟨rfl, rfl⟩ : e.words :: ws' = ws ∧ s'' = s' := by simpa [run, he, hs, hr] using h
        obtain ⟨h1, h2⟩ := ih hr
        exact ⟨h1, by rw [List.map_cons, List.map_cons, h2, he, Option.map_some]⟩

/-- **C176** is false for programs: no binary opcode leaves the stack of the EVM. -/
theorem stack_not_evm {o : Opc} (ho : o ≠ .iszero) (s : List Word) {e : Effect} (h : assign o s = some e) :
    evm o s ≠ some e.stack := by
  rw [stack_same h]
  rcases lt_or_ge s.length (arity o) with hl | hl
  · rw [assign_none o s hl] at h
    cases h
  · obtain ⟨-, r, -, -, -, h1, -⟩ := assign_evm o s hl
    rw [h1]
    intro h2
    have h3 := congrArg List.length (Option.some.inj h2)
    have ha : arity o = 2 := by cases o <;> first | rfl | exact absurd rfl ho
    rw [List.length_cons, List.length_drop, ha] at h3
    omega

/-- **C176** is false for programs: after ADD the opcode ISZERO is given the first summand and not the sum. -/
theorem second_operand (a b : Word) (s : List Word) (hb : b ≠ 0) {ws : List (List Word)} {s' : List Word}
    (h : run [.add, .iszero] (a :: b :: s) = some (ws, s')) :
    ∃ w1 w2, ws = [w1, w2] ∧ operands .iszero w2 = [a] ∧ evm .add (a :: b :: s) ≠ some (a :: s) := by
  obtain ⟨rfl, rfl⟩ : [[a, b, a + b], [a, if a = 0 then 1 else 0]] = ws ∧ a :: b :: s = s' := by
    simpa [run, assign, pop, push] using h
  refine ⟨_, _, rfl, rfl, ?_⟩
  simp only [evm, BitVec.ofNat_add, BitVec.ofNat_toNat, BitVec.setWidth_eq, ne_eq, Option.some.injEq, List.cons.injEq, and_true]
  intro h
  apply hb
  have := congrArg (fun x => x - a) h
  rw [BitVec.add_comm, BitVec.add_sub_cancel, BitVec.sub_self] at this
  exact this

/-- A run of two opcodes. -/
example : run [.add, .sub] [5, 3] = some ([[5, 3, 8], [2, 3, 5]], [5, 3]) := by decide

example : run [.add, .iszero] [5, 3, 1] = some ([[5, 3, 8], [5, 0]], [5, 3, 1]) := by decide

end ZkevmStack
end Verif
