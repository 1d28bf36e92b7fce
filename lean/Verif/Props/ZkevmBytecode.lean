import Verif.Model.ZkevmBytecode
import Verif.Core.Paint
import Mathlib.FieldTheory.Finite.Basic
import Mathlib.Tactic.LinearCombination

/-!
# C102, C103, C104: the bytecode circuit of the zkEVM

A *contract* of a table is a header row (`tag = 0`) followed by byte rows (`tag = 1`).
-/

set_option linter.unusedSimpArgs false
set_option linter.unusedSectionVars false

namespace Verif
namespace ZkBytecode

/-! ### Specification -/

/-- EVM: `PUSHn` is opcode `0x5f + n`, `1 ≤ n ≤ 32`, and is followed by `n` bytes of data; no other instruction carries data. -/
def immediates (b : ℕ) : ℕ := if 0x60 ≤ b ∧ b ≤ 0x7f then b - 0x5f else 0

/-- Bytes of data still expected before position `j` of the code `b 0, b 1, …`, if `d` are expected at its start. -/
def pendingFrom (d : ℕ) (b : ℕ → ℕ) : ℕ → ℕ
  | 0 => d
  | j + 1 => if pendingFrom d b j = 0 then immediates (b j) else pendingFrom d b j - 1

/-- Bytes of data still expected before position `j` of a code. -/
def pending (b : ℕ → ℕ) (j : ℕ) : ℕ := pendingFrom 0 b j

/-- Position `j` holds an instruction, not data. -/
def IsCode (b : ℕ → ℕ) (j : ℕ) : Prop := pending b j = 0

instance (b : ℕ → ℕ) (j : ℕ) : Decidable (IsCode b j) := inferInstanceAs (Decidable (pending b j = 0))

/-- Horner value of the first `j` bytes. -/
def horner {F : Type*} [Field F] (x : F) (b : ℕ → ℕ) : ℕ → F
  | 0 => 0
  | j + 1 => horner x b j * x + (b j : F)

/-- The cells of the component at row `r`. -/
def cellAt {F : Type*} (c : Cols) (t : Table F) (j : ℤ) (r : ℤ) : F := t .witness (c.w j) r

/-- Rows `h+1, …, h+m` are the byte rows of the contract whose header is row `h`. -/
structure Segment {F : Type*} [Field F] (c : Cols) (t : Table F) (h : ℤ) (m : ℕ) : Prop where
  header : cellAt c t 0 h = 0
  byte : ∀ j < m, cellAt c t 0 (h + (j : ℕ) + 1) = 1

theorem immediates_le (b : ℕ) : immediates b ≤ 32 := by unfold immediates; split <;> omega
theorem pending_zero (b : ℕ → ℕ) : pending b 0 = 0 := rfl
theorem pending_succ (b : ℕ → ℕ) (j : ℕ) :
    pending b (j + 1) = if pending b j = 0 then immediates (b j) else pending b j - 1 := rfl
theorem pendingFrom_succ' (d : ℕ) (b : ℕ → ℕ) (j : ℕ) :
    pendingFrom d b (j + 1) = pendingFrom (if d = 0 then immediates (b 0) else d - 1) (fun i => b (i + 1)) j := by
  induction j with
  | zero => rfl
  | succ j ih =>
    have : pendingFrom d b (j + 1 + 1) =
      if pendingFrom d b (j + 1) = 0 then immediates (b (j + 1)) else pendingFrom d b (j + 1) - 1 := rfl
    rw [this, ih]; rfl
theorem pending_le (b : ℕ → ℕ) (j : ℕ) : pending b j ≤ 32 := by
  induction j with
  | zero => simp [pending_zero]
  | succ j ih => rw [pending_succ]; have := immediates_le (b j); split <;> omega

/-- The table `zkevm_opcodes` is right: the second column is the number of data bytes, and the values are bytes. -/
theorem opcodeRows_spec : ∀ r ∈ opcodeRows, r.1 < 256 ∧ (r.2.2 = 1 → r.2.1 = immediates r.1 ∧ r.1 ∈ opcodes) ∧
    (r.2.2 = 1 ∨ r = (0, 0, 0)) := by decide +kernel

/-- Every defined opcode is in the table, with its number of data bytes. -/
theorem mem_opcodeRows : ∀ b ∈ opcodes, (b, immediates b, 1) ∈ opcodeRows := by decide +kernel

section
variable {F : Type*} [Field F] {c : Cols} {t : Table F} {n : ℕ} {srow : ℤ}

/-- The constraints at one row, as equations. -/
structure RowEqs (c : Cols) (t : Table F) (r : ℤ) : Prop where
  tag : cellAt c t 0 r * (cellAt c t 0 r - 1) = 0
  index0 : (cellAt c t 0 r - 1) * cellAt c t 1 r = 0
  index1 : (cellAt c t 0 r - 1) * cellAt c t 1 (r + 1) = 0
  index2 : cellAt c t 0 r * cellAt c t 0 (r + 1) * (cellAt c t 1 (r + 1) - cellAt c t 1 r - 1) = 0
  len0 : (cellAt c t 0 r - 1) * (cellAt c t 8 r - cellAt c t 2 r) = 0
  len1 : cellAt c t 0 (r + 1) * (cellAt c t 8 r - cellAt c t 8 (r + 1) - 1) = 0
  len2 : cellAt c t 0 r * (cellAt c t 0 (r + 1) - 1) * cellAt c t 8 r = 0
  op0 : cellAt c t 3 r * (cellAt c t 3 r - 1) = 0
  op1 : (cellAt c t 0 r - 1) * cellAt c t 3 r = 0
  op2 : (cellAt c t 0 r - 1) * cellAt c t 0 (r + 1) * (cellAt c t 3 (r + 1) - 1) = 0
  push0 : cellAt c t 3 (r + 1) * cellAt c t 6 r = 0
  push1 : cellAt c t 0 (r + 1) * (cellAt c t 3 (r + 1) - 1) * (cellAt c t 6 r - cellAt c t 6 (r + 1) - 1) = 0
  hi : cellAt c t 0 (r + 1) * (cellAt c t 4 r - cellAt c t 4 (r + 1)) = 0
  lo : cellAt c t 0 (r + 1) * (cellAt c t 5 r - cellAt c t 5 (r + 1)) = 0
  rlc0 : (cellAt c t 0 r - 1) * cellAt c t 7 r = 0
  rlc1 : cellAt c t 0 r * (cellAt c t 7 r - cellAt c t 7 (r + -1) * cellAt c t 9 r - cellAt c t 2 r) = 0
  ch0 : cellAt c t 0 r * (cellAt c t 9 r - cellAt c t 9 (r + -1)) = 0
  ch1 : (cellAt c t 0 r - 1) * cellAt c t 0 (r + -1) * cellAt c t 0 (r + 1) * (cellAt c t 9 r - cellAt c t 9 (r + -1)) = 0
  byte : byteTable [cellAt c t 0 r * cellAt c t 2 r]
  opcode : opcodeTable [cellAt c t 2 r * cellAt c t 3 r, cellAt c t 6 r * cellAt c t 3 r, cellAt c t 3 r]

theorem sat_iff : Sat t (circuit c n srow) ↔ ∀ i < n, RowEqs c t (srow + (i : ℕ)) := by
  simp only [circuit, sat_cons, sat_nil, and_true, holds_gate, holds_lookup, constraints, List.mem_cons, List.not_mem_nil,
    or_false, forall_eq_or_imp, forall_eq, Expr.eval_mul, Expr.eval_sub, Expr.eval_one, Cols.eval_wv, mem_rowsFrom,
    List.map_cons, List.map_nil, add_zero]
  constructor
  · rintro ⟨h1, h2, h3⟩ i hi
    obtain ⟨a0, a1, a2, a3, a4, a5, a6, a7, a8, a9, a10, a11, a12, a13, a14, a15, a16, a17⟩ := h1 _ ⟨i, hi, rfl⟩
    exact ⟨a0, a1, a2, a3, a4, a5, a6, a7, a8, a9, a10, a11, a12, a13, a14, a15, a16, a17, h2 _ ⟨i, hi, rfl⟩, h3 _ ⟨i, hi, rfl⟩⟩
  · intro h
    refine ⟨?_, ?_, ?_⟩ <;> rintro r ⟨i, hi, rfl⟩
    · obtain ⟨a0, a1, a2, a3, a4, a5, a6, a7, a8, a9, a10, a11, a12, a13, a14, a15, a16, a17, -, -⟩ := h i hi
      exact ⟨a0, a1, a2, a3, a4, a5, a6, a7, a8, a9, a10, a11, a12, a13, a14, a15, a16, a17⟩
    · exact (h i hi).byte
    · exact (h i hi).opcode

/-! ### Soundness of the layout -/

/-- What the circuit says about a contract, apart from the opcode flags. -/
structure Layout (c : Cols) (t : Table F) (h : ℤ) (m : ℕ) (b : ℕ → ℕ) : Prop where
  /-- the values are the bytes -/
  byte : ∀ j < m, b j < 256 ∧ cellAt c t 2 (h + (j : ℕ) + 1) = (b j : F)
  /-- the positions are counted from 0 -/
  index : ∀ j < m, cellAt c t 1 (h + (j : ℕ) + 1) = (j : F)
  /-- all rows carry the hash of the header -/
  hash : ∀ j < m, cellAt c t 4 (h + (j : ℕ) + 1) = cellAt c t 4 h ∧ cellAt c t 5 (h + (j : ℕ) + 1) = cellAt c t 5 h
  /-- the remaining length -/
  left : ∀ j ≤ m, cellAt c t 8 (h + (j : ℕ)) = cellAt c t 2 h - (j : F)
  /-- the combination of the bytes read so far with the powers of the challenge -/
  rlc : ∀ j ≤ m, cellAt c t 7 (h + (j : ℕ)) = horner (cellAt c t 9 h) b j

/-- The rows of a contract inside the component: bytes, positions, hash and random linear combination are right. -/
theorem layout_sound {i m : ℕ} (hs : Sat t (circuit c n srow)) (hm : i + m < n) (hg : Segment c t (srow + (i : ℕ)) m) :
    ∃ b, Layout c t (srow + (i : ℕ)) m b := by
  rw [sat_iff] at hs
  set h : ℤ := srow + (i : ℕ) with hh
  have E : ∀ j ≤ m, RowEqs c t (h + (j : ℕ)) := fun j hj => by
    have := hs (i + j) (by omega)
    rwa [show srow + ((i + j : ℕ) : ℤ) = h + (j : ℕ) by rw [hh]; push_cast; ring] at this
  have e1 : ∀ j : ℕ, h + ((j + 1 : ℕ) : ℤ) = h + (j : ℕ) + 1 := fun j => by push_cast; ring
  have e2 : ∀ j : ℕ, h + ((j + 1 : ℕ) : ℤ) + -1 = h + (j : ℕ) := fun j => by push_cast; ring
  have hb : ∀ j, ∃ b : ℕ, j < m → b < 256 ∧ cellAt c t 2 (h + (j : ℕ) + 1) = (b : F) := by
    intro j
    by_cases hj : j < m
    · obtain ⟨b, hb, e⟩ := (E (j + 1) (by omega)).byte
      rw [e1, hg.byte j hj, one_mul] at e
      exact ⟨b, fun _ => ⟨hb, by simpa using e⟩⟩
    · exact ⟨0, fun h => absurd h hj⟩
  choose b hb using hb
  have hch : ∀ j ≤ m, cellAt c t 9 (h + (j : ℕ)) = cellAt c t 9 h := by
    intro j
    induction j with
    | zero => simp
    | succ j ih =>
      intro hj
      have := (E (j + 1) hj).ch0
      rw [e2, e1, hg.byte j (by omega), one_mul, sub_eq_zero] at this
      rw [e1, this]; exact ih (by omega)
  refine ⟨b, ⟨fun j hj => hb j hj, ?_, ?_, ?_, ?_⟩⟩
  · intro j
    induction j with
    | zero =>
      intro hj
      have := (E 0 (by omega)).index1
      simp only [Nat.cast_zero, add_zero] at this ⊢
      rw [hg.header] at this; simpa using this
    | succ j ih =>
      intro hj
      have := (E (j + 1) (by omega)).index2
      rw [e1, hg.byte j (by omega), ← e1, hg.byte (j + 1) hj, e1, ih (by omega)] at this
      rw [e1]; push_cast; linear_combination this
  · intro j
    induction j with
    | zero =>
      intro hj
      have h4 := (E 0 (by omega)).hi
      have h5 := (E 0 (by omega)).lo
      have h1 := hg.byte 0 hj
      simp only [Nat.cast_zero, add_zero] at h4 h5 h1 ⊢
      rw [h1] at h4 h5
      exact ⟨by linear_combination -h4, by linear_combination -h5⟩
    | succ j ih =>
      intro hj
      have h4 := (E (j + 1) (by omega)).hi
      have h5 := (E (j + 1) (by omega)).lo
      have h1 := hg.byte (j + 1) hj
      rw [h1] at h4 h5
      obtain ⟨i4, i5⟩ := ih (by omega)
      rw [← e1] at i4 i5
      exact ⟨by linear_combination -h4 + i4, by linear_combination -h5 + i5⟩
  · intro j
    induction j with
    | zero =>
      intro _
      have := (E 0 (by omega)).len0
      simp only [Nat.cast_zero, add_zero] at this ⊢
      rw [hg.header] at this; linear_combination -this
    | succ j ih =>
      intro hj
      have h8 := (E j (by omega)).len1
      rw [hg.byte j (by omega), ih (by omega)] at h8
      rw [e1]; push_cast; linear_combination -h8
  · intro j
    induction j with
    | zero =>
      intro _
      have := (E 0 (by omega)).rlc0
      simp only [Nat.cast_zero, add_zero, horner] at this ⊢
      rw [hg.header] at this; linear_combination -this
    | succ j ih =>
      intro hj
      have h7 := (E (j + 1) hj).rlc1
      rw [e2, ih (by omega), hch (j + 1) hj, e1, hg.byte j (by omega), (hb j (by omega)).2] at h7
      rw [e1]; unfold horner; linear_combination h7

/-- Every row of the component is a header or a byte. -/
theorem tag_bit {i : ℕ} (hs : Sat t (circuit c n srow)) (hi : i < n) :
    cellAt c t 0 (srow + (i : ℕ)) = 0 ∨ cellAt c t 0 (srow + (i : ℕ)) = 1 := by
  have := (sat_iff.1 hs i hi).tag
  rcases mul_eq_zero.1 this with h | h
  · exact .inl h
  · exact .inr (sub_eq_zero.1 h)

/-- The header of a contract that ends inside the table states the number of its bytes (as a field element), provided there
is at least one. -/
theorem length_sound_partial {i m : ℕ} (hs : Sat t (circuit c n srow)) (hm : i + m < n) (hm0 : 0 < m)
    (hg : Segment c t (srow + (i : ℕ)) m) (he : cellAt c t 0 (srow + (i : ℕ) + (m : ℕ) + 1) = 0) :
    cellAt c t 2 (srow + (i : ℕ)) = (m : F) := by
  obtain ⟨b, hb⟩ := layout_sound hs hm hg
  have := (sat_iff.1 hs (i + m) hm).len2
  rw [show srow + ((i + m : ℕ) : ℤ) = srow + (i : ℕ) + (m : ℕ) by push_cast; ring, he, hb.left m le_rfl] at this
  have h1 := hg.byte (m - 1) (by omega)
  rw [show srow + (i : ℕ) + ((m - 1 : ℕ) : ℤ) + 1 = srow + (i : ℕ) + (m : ℕ) by omega] at h1
  rw [h1] at this
  linear_combination -this

end

/-! ### Opcode flags -/

section
variable {p : ℕ} [Fact p.Prime] {c : Cols} {t : Table (ZMod p)} {n : ℕ} {srow : ℤ}

theorem natCast_inj {a b : ℕ} (ha : a < p) (hb : b < p) (h : (a : ZMod p) = b) : a = b := by
  rw [ZMod.natCast_eq_natCast_iff'] at h
  rwa [Nat.mod_eq_of_lt ha, Nat.mod_eq_of_lt hb] at h

/-- A byte flagged as opcode is a defined opcode, and the push size beside it is its number of data bytes. -/
theorem flagged {r : ℤ} (h : RowEqs c t r) (hp : 256 ≤ p) {b : ℕ} (hb : b < 256) (hv : cellAt c t 2 r = (b : ZMod p))
    (h1 : cellAt c t 3 r = 1) : b ∈ opcodes ∧ cellAt c t 6 r = (immediates b : ZMod p) := by
  obtain ⟨q, hq, e⟩ := h.opcode
  rw [h1, hv, mul_one, mul_one] at e
  simp only [List.cons.injEq, and_true] at e
  obtain ⟨e0, e1, e2⟩ := e
  obtain ⟨s0, s1, s2⟩ := opcodeRows_spec q hq
  have : q.2.2 = 1 := by
    rcases s2 with s2 | s2
    · exact s2
    · rw [s2] at e2; simp at e2
  obtain ⟨s3, s4⟩ := s1 this
  have hbq : b = q.1 := natCast_inj (by omega) (by omega) e0
  rw [hbq]
  exact ⟨s4, by rw [e1, s3]⟩

/-- Flags of the bytes of a contract, in the order of the rows. The flags follow the instructions of the code up to some
point; from there on (if the point is not the end) every byte is declared data. -/
theorem flags_shape {f q : ℕ → ZMod p} {b : ℕ → ℕ} {m : ℕ} (hm : m + 32 < p) (h0 : q 0 = 0)
    (H1 : ∀ j < m, f j = 0 ∨ f j = 1) (H2 : ∀ j < m, f j * q j = 0) (H3 : ∀ j < m, f j = 0 → q (j + 1) = q j - 1)
    (H4 : ∀ j < m, f j = 1 → q (j + 1) = (immediates (b j) : ZMod p)) : ∀ j ≤ m,
    (q j = (pending b j : ZMod p) ∧ ∀ i < j, f i = if IsCode b i then 1 else 0) ∨
    ∃ k < j, IsCode b k ∧ (∀ i < k, f i = if IsCode b i then 1 else 0) ∧ (∀ i, k ≤ i → i < j → f i = 0) ∧
      q j = -((j - k : ℕ) : ZMod p) := by
  intro j
  induction j with
  | zero => intro _; left; exact ⟨by simp [pending_zero, h0], by simp⟩
  | succ j ih =>
    intro hj
    have hj' : j < m := by omega
    rcases ih (by omega) with ⟨hq, hf⟩ | ⟨k, hk, hc, hf, hz, hq⟩
    · by_cases hc : IsCode b j
      · have hc' : pending b j = 0 := hc
        rcases H1 j hj' with h | h
        · right
          refine ⟨j, by omega, hc, hf, fun i h1 h2 => ?_, ?_⟩
          · rw [show i = j by omega]; exact h
          · rw [H3 j hj' h, hq, hc', show j + 1 - j = 1 by omega]; simp
        · left
          refine ⟨by rw [H4 j hj' h]; simp [pending_succ, hc'], fun i hi => ?_⟩
          rcases Nat.lt_succ_iff_lt_or_eq.1 hi with hi | rfl
          · exact hf i hi
          · rw [h, if_pos hc]
      · have hc' : pending b j ≠ 0 := hc
        have hne : q j ≠ 0 := by
          rw [hq]; intro e
          exact hc' (natCast_inj (p := p) (b := 0) (by have := pending_le b j; omega) (by omega) (by simpa using e))
        have h : f j = 0 := (mul_eq_zero.1 (H2 j hj')).resolve_right hne
        left
        refine ⟨?_, fun i hi => ?_⟩
        · rw [H3 j hj' h, hq]
          simp only [pending_succ, if_neg hc']
          rw [Nat.cast_sub (by omega)]; simp
        · rcases Nat.lt_succ_iff_lt_or_eq.1 hi with hi | rfl
          · exact hf i hi
          · rw [h, if_neg hc]
    · have hne : q j ≠ 0 := by
        rw [hq, neg_ne_zero]; intro e
        have := natCast_inj (p := p) (a := j - k) (b := 0) (by omega) (by omega) (by simpa using e)
        omega
      have h : f j = 0 := (mul_eq_zero.1 (H2 j hj')).resolve_right hne
      right
      refine ⟨k, by omega, hc, hf, fun i h1 h2 => ?_, ?_⟩
      · rcases Nat.lt_succ_iff_lt_or_eq.1 h2 with hi | rfl
        · exact hz i h1 hi
        · exact h
      · rw [H3 j hj' h, hq, show j + 1 - k = (j - k) + 1 by omega]; push_cast; ring

/-- The flag and push size cells of the bytes of a contract. -/
theorem segment_flags {i m : ℕ} {b : ℕ → ℕ} (hp : 256 ≤ p) (hpm : m + 32 < p) (hs : Sat t (circuit c n srow)) (hm : i + m < n)
    (hg : Segment c t (srow + (i : ℕ)) m) (hb : Layout c t (srow + (i : ℕ)) m b) : ∀ j ≤ m,
    (cellAt c t 6 (srow + (i : ℕ) + (j : ℕ)) = (pending b j : ZMod p) ∨ j = 0) ∧
      (∀ k < j, cellAt c t 3 (srow + (i : ℕ) + (k : ℕ) + 1) = if IsCode b k then 1 else 0) ∨
    ∃ k < j, IsCode b k ∧ (∀ l < k, cellAt c t 3 (srow + (i : ℕ) + (l : ℕ) + 1) = if IsCode b l then 1 else 0) ∧
      (∀ l, k ≤ l → l < j → cellAt c t 3 (srow + (i : ℕ) + (l : ℕ) + 1) = 0) ∧
      cellAt c t 6 (srow + (i : ℕ) + (j : ℕ)) = -((j - k : ℕ) : ZMod p) := by
  have hs' := hs
  rw [sat_iff] at hs
  set h : ℤ := srow + (i : ℕ) with hh
  have E : ∀ j ≤ m, RowEqs c t (h + (j : ℕ)) := fun j hj => by
    have := hs (i + j) (by omega)
    rwa [show srow + ((i + j : ℕ) : ℤ) = h + (j : ℕ) by rw [hh]; push_cast; ring] at this
  have e1 : ∀ j : ℕ, h + ((j + 1 : ℕ) : ℤ) = h + (j : ℕ) + 1 := fun j => by push_cast; ring
  rcases Nat.eq_zero_or_pos m with rfl | hm0
  · intro j hj; left; exact ⟨.inr (by omega), fun k hk => by omega⟩
  -- the first byte is an opcode, hence nothing is pending at the header
  have hq0 : cellAt c t 6 (h + ((0 : ℕ) : ℤ)) = 0 := by
    have a := (E 0 (by omega)).op2
    have b' := (E 0 (by omega)).push0
    have h1 := hg.byte 0 hm0
    simp only [Nat.cast_zero, add_zero] at a b' h1 ⊢
    rw [hg.header, h1] at a
    have : cellAt c t 3 (h + 1) = 1 := by linear_combination -a
    rw [this] at b'; simpa using b'
  have key := flags_shape (p := p) (f := fun j => cellAt c t 3 (h + (j : ℕ) + 1)) (q := fun j => cellAt c t 6 (h + (j : ℕ))) (b := b)
    hpm hq0
    (fun j hj => by
      have := (E (j + 1) (by omega)).op0
      rw [e1] at this
      rcases mul_eq_zero.1 this with h | h
      · exact .inl h
      · exact .inr (sub_eq_zero.1 h))
    (fun j hj => (E j (by omega)).push0)
    (fun j hj hf => by
      have := (E j (by omega)).push1
      have hf : cellAt c t 3 (h + (j : ℕ) + 1) = 0 := hf
      rw [hg.byte j hj, hf] at this
      show cellAt c t 6 (h + ((j + 1 : ℕ) : ℤ)) = _
      rw [e1]; linear_combination this)
    (fun j hj hf => by
      have hr := E (j + 1) (by omega)
      rw [e1] at hr
      show cellAt c t 6 (h + ((j + 1 : ℕ) : ℤ)) = _
      rw [e1]
      exact (flagged hr hp (hb.byte j hj).1 (hb.byte j hj).2 hf).2)
  intro j hj
  rcases key j hj with ⟨a, b'⟩ | ⟨k, hk, h1, h2, h3, h4⟩
  · exact .inl ⟨.inl a, b'⟩
  · exact .inr ⟨k, hk, h1, h2, h3, h4⟩

/-- A byte the table declares to be an opcode is the start of an instruction of the code, and a defined opcode.
The converse fails (`flags_not_forced`): the full claim is that the flag is set exactly on the starts of instructions. -/
theorem opcode_sound_partial {i m : ℕ} {b : ℕ → ℕ} (hp : 256 ≤ p) (hpm : m + 32 < p) (hs : Sat t (circuit c n srow)) (hm : i + m < n)
    (hg : Segment c t (srow + (i : ℕ)) m) (hb : Layout c t (srow + (i : ℕ)) m b) {j : ℕ} (hj : j < m)
    (h1 : cellAt c t 3 (srow + (i : ℕ) + (j : ℕ) + 1) = 1) : IsCode b j ∧ b j ∈ opcodes := by
  constructor
  · rcases segment_flags hp hpm hs hm hg hb m le_rfl with ⟨-, hf⟩ | ⟨k, hk, -, hf, hz, -⟩
    · have := hf j hj
      by_contra hc
      rw [h1, if_neg hc] at this; exact one_ne_zero this
    · by_cases hjk : j < k
      · have := hf j hjk
        by_contra hc
        rw [h1, if_neg hc] at this; exact one_ne_zero this
      · have := hz j (by omega) hj
        rw [h1] at this; exact absurd this one_ne_zero
  · have hr := sat_iff.1 hs (i + j + 1) (by omega)
    rw [show srow + ((i + j + 1 : ℕ) : ℤ) = srow + (i : ℕ) + (j : ℕ) + 1 by push_cast; ring] at hr
    exact (flagged hr hp (hb.byte j hj).1 (hb.byte j hj).2 h1).1

/-- If the push size beside the last byte is a small number (as in every honest table: at most 32), the flags are exactly the
starts of the instructions. -/
theorem opcode_exact {i m : ℕ} {b : ℕ → ℕ} (hp : 256 ≤ p) (hpm : m + 32 < p) (hs : Sat t (circuit c n srow)) (hm : i + m < n)
    (hg : Segment c t (srow + (i : ℕ)) m) (hb : Layout c t (srow + (i : ℕ)) m b)
    (hl : (cellAt c t 6 (srow + (i : ℕ) + (m : ℕ))).val ≤ 32) {j : ℕ} (hj : j < m) :
    cellAt c t 3 (srow + (i : ℕ) + (j : ℕ) + 1) = if IsCode b j then 1 else 0 := by
  rcases segment_flags hp hpm hs hm hg hb m le_rfl with ⟨-, hf⟩ | ⟨k, hk, -, -, -, h6⟩
  · exact hf j hj
  · exfalso
    rw [h6] at hl
    have e : (-((m - k : ℕ) : ZMod p)) = ((p - (m - k) : ℕ) : ZMod p) := by
      rw [Nat.cast_sub (show m - k ≤ p by omega), CharP.cast_eq_zero (ZMod p) p, zero_sub]
    rw [e, ZMod.val_natCast_of_lt (by omega)] at hl
    omega

/-- The first byte of a contract cannot be an undefined opcode: no table at all satisfies the circuit then. -/
theorem undefined_first_byte_rejected {i m : ℕ} {b : ℕ → ℕ} (hp : 256 ≤ p) (hs : Sat t (circuit c n srow)) (hm : i + m < n)
    (hm0 : 0 < m) (hg : Segment c t (srow + (i : ℕ)) m) (hb : Layout c t (srow + (i : ℕ)) m b) : b 0 ∈ opcodes := by
  have a := (sat_iff.1 hs i (by omega)).op2
  have h1 := hg.byte 0 hm0
  have hr := sat_iff.1 hs (i + 1) (by omega)
  rw [show srow + ((i + 1 : ℕ) : ℤ) = srow + (i : ℕ) + 1 by push_cast; ring] at hr
  obtain ⟨b1, b2⟩ := hb.byte 0 hm0
  simp only [Nat.cast_zero, add_zero] at a h1 b2
  rw [hg.header, h1] at a
  exact (flagged hr hp b1 b2 (by linear_combination -a)).1

end
end ZkBytecode
end Verif
