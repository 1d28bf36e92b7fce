import Verif.Props.ZkevmBytecode
import Mathlib.Data.List.Chain
import Mathlib.Tactic.NormNum.Prime

/-!
# C102, C103, C104, second part: honest tables are accepted; tables the circuit should reject
-/

set_option linter.unusedSimpArgs false
set_option linter.unusedSectionVars false

namespace Verif
namespace ZkBytecode

section
variable {F : Type*} [Field F]

/-- The row of cells of the component at row `r`. -/
def rowOf (c : Cols) (t : Table F) (r : ℤ) : Row F :=
  ⟨cellAt c t 0 r, cellAt c t 1 r, cellAt c t 2 r, cellAt c t 3 r, cellAt c t 4 r, cellAt c t 5 r, cellAt c t 6 r, cellAt c t 7 r,
   cellAt c t 8 r, cellAt c t 9 r⟩

/-- Constraints on a row alone. `C` is the challenge. -/
structure Unary (C : F) (x : Row F) : Prop where
  tag : x.tag = 0 ∨ x.tag = 1 ∧ x.ch = C
  index : (x.tag - 1) * x.index = 0
  len : (x.tag - 1) * (x.len - x.value) = 0
  op0 : x.isOp * (x.isOp - 1) = 0
  op1 : (x.tag - 1) * x.isOp = 0
  rlc : (x.tag - 1) * x.rlc = 0
  byte : byteTable [x.tag * x.value]
  opcode : opcodeTable [x.value * x.isOp, x.push * x.isOp, x.isOp]

/-- Constraints on a row and the next one, gate at the first. -/
structure Fwd (C : F) (x y : Row F) : Prop where
  index1 : (x.tag - 1) * y.index = 0
  index2 : x.tag * y.tag * (y.index - x.index - 1) = 0
  len1 : y.tag * (x.len - y.len - 1) = 0
  len2 : x.tag * (y.tag - 1) * x.len = 0
  op2 : (x.tag - 1) * y.tag * (y.isOp - 1) = 0
  push0 : y.isOp * x.push = 0
  push1 : y.tag * (y.isOp - 1) * (x.push - y.push - 1) = 0
  hi : y.tag * (x.hi - y.hi) = 0
  lo : y.tag * (x.lo - y.lo) = 0
  ch : y.tag = 0 ∨ x.ch = C

/-- Constraints on a row and the next one, gate at the second. -/
structure Bwd (x y : Row F) : Prop where
  rlc : y.tag * (y.rlc - x.rlc * y.ch - y.value) = 0
  ch : y.tag * (y.ch - x.ch) = 0

theorem rowEqs_of {C : F} {c : Cols} {t : Table F} {r : ℤ} (hu : Unary C (rowOf c t r)) (hf : Fwd C (rowOf c t r) (rowOf c t (r + 1)))
    (hb : Bwd (rowOf c t (r + -1)) (rowOf c t r))
    (hw : cellAt c t 0 (r + -1) = 0 ∨ cellAt c t 9 (r + -1) = C) : RowEqs c t r where
  tag := by
    rcases hu.tag with h | ⟨h, -⟩
    · have h : cellAt c t 0 r = 0 := h
      rw [h]; ring
    · have h : cellAt c t 0 r = 1 := h
      rw [h]; ring
  index0 := hu.index
  index1 := hf.index1
  index2 := hf.index2
  len0 := hu.len
  len1 := hf.len1
  len2 := hf.len2
  op0 := hu.op0
  op1 := hu.op1
  op2 := hf.op2
  push0 := hf.push0
  push1 := hf.push1
  hi := hf.hi
  lo := hf.lo
  rlc0 := hu.rlc
  rlc1 := hb.rlc
  ch0 := hb.ch
  ch1 := by
    rcases hf.ch with h | h
    · have h : cellAt c t 0 (r + 1) = 0 := h
      rw [h]; ring
    · have h : cellAt c t 9 r = C := h
      rcases hw with h' | h'
      · rw [h']; ring
      · rw [h, h']; ring
  byte := hu.byte
  opcode := hu.opcode

/-- Blank row. -/
def blank : Row F := ⟨0, 0, 0, 0, 0, 0, 0, 0, 0, 0⟩

theorem opcodeTable_zero : opcodeTable ([0, 0, 0] : List F) :=
  ⟨(0, 0, 0), by decide +kernel, by simp⟩
theorem byteTable_zero : byteTable ([0] : List F) := ⟨0, by omega, by simp⟩

theorem blank_unary (C : F) : Unary C (blank : Row F) := by
  constructor <;> simp [blank, opcodeTable_zero, byteTable_zero]

/-- A list of rows meets all constraints inside. `x` is the row above. -/
def Chained (C : F) (x : Row F) (l : List (Row F)) : Prop := List.IsChain (fun a b => Fwd C a b ∧ Bwd a b) (x :: l)

/-- Rows after which a contract may start. -/
def Closed (x : Row F) : Prop := x.tag * x.len = 0

theorem fwd_off {C : F} {x y : Row F} (hx : Closed x) (h0 : y.tag = 0) (h1 : y.index = 0) (h3 : y.isOp = 0) : Fwd C x y := by
  have hx : x.tag * x.len = 0 := hx
  constructor <;> simp [h0, h1, h3]
  rcases mul_eq_zero.1 hx with h | h <;> simp [h]

theorem bwd_off {x y : Row F} (h0 : y.tag = 0) : Bwd x y := by constructor <;> simp [h0]

theorem chained_blank (C : F) (k : ℕ) : ∀ x : Row F, Closed x → Chained C x (List.replicate k blank) := by
  induction k with
  | zero => intro x _; exact List.isChain_singleton x
  | succ k ih =>
    intro x hx
    rw [List.replicate_succ]
    exact List.isChain_cons_cons.2 ⟨⟨fwd_off hx rfl rfl rfl, bwd_off rfl⟩, ih _ (by simp [Closed, blank])⟩

/-- The constraints on a table whose rows in the component are a chained list. -/
theorem sat_of_chained {C : F} {c : Cols} {t : Table F} {n : ℕ} {srow : ℤ} {l : List (Row F)} (hl : l.length = n)
    (hr : ∀ (i : ℕ) (h : i < l.length), rowOf c t (srow + (i : ℕ)) = l[i]) (hu : ∀ x ∈ l, Unary C x) (x0 : Row F)
    (hch : Chained C x0 l)
    (h0 : ∀ h : 0 < l.length, Bwd (rowOf c t (srow + -1)) l[0])
    (hw : cellAt c t 0 (srow + -1) = 0 ∨ cellAt c t 9 (srow + -1) = C)
    (hlast : ∀ h : 0 < l.length, Fwd C l[l.length - 1] (rowOf c t (srow + (n : ℕ)))) : Sat t (circuit c n srow) := by
  rw [sat_iff]
  intro i hi
  have hi' : i < l.length := by omega
  have hch := List.isChain_iff_getElem.1 hch
  refine rowEqs_of (C := C) ?_ ?_ ?_ ?_
  · rw [hr i hi']; exact hu _ (List.getElem_mem _)
  · rw [hr i hi']
    by_cases h : i + 1 < l.length
    · have := hch (i + 1) (by simp; omega)
      have e := hr (i + 1) h
      rw [show srow + (i : ℕ) + 1 = srow + ((i + 1 : ℕ) : ℤ) by push_cast; ring, e]
      simpa using this.1
    · have e : i = l.length - 1 := by omega
      have := hlast (by omega)
      rw [show srow + (i : ℕ) + 1 = srow + ((n : ℕ) : ℤ) by omega]
      simpa [e] using this
  · rw [hr i hi']
    rcases Nat.eq_zero_or_pos i with rfl | hp
    · simpa using h0 hi'
    · have := hch i (by simp; omega)
      have e := hr (i - 1) (by omega)
      rw [show srow + (i : ℕ) + -1 = srow + ((i - 1 : ℕ) : ℤ) by omega, e]
      obtain ⟨k, rfl⟩ : ∃ k, i = k + 1 := ⟨i - 1, by omega⟩
      simpa using this.2
  · rcases Nat.eq_zero_or_pos i with rfl | hp
    · simpa using hw
    · have e := hr (i - 1) (by omega)
      rw [show srow + (i : ℕ) + -1 = srow + ((i - 1 : ℕ) : ℤ) by omega]
      rcases (hu _ (List.getElem_mem (show i - 1 < l.length by omega))).tag with h | ⟨-, h⟩
      · left; rw [← e] at h; exact h
      · right; rw [← e] at h; exact h

end

/-! ### Completeness -/

section
variable {p : ℕ} [Fact p.Prime]

/-- A code: bytes, and every instruction is one of the opcodes of the table. -/
structure Valid (bs : List ℕ) : Prop where
  byte : ∀ b ∈ bs, b < 256
  defined : ∀ j (h : j < bs.length), IsCode (fun i => bs.getD i 0) j → bs[j] ∈ opcodes

/-- The same from a position where `d` bytes of data are expected. -/
def ValidFrom (d : ℕ) (bs : List ℕ) : Prop :=
  (∀ b ∈ bs, b < 256) ∧ ∀ j (h : j < bs.length), pendingFrom d (fun i => bs.getD i 0) j = 0 → bs[j] ∈ opcodes

theorem ValidFrom.tail {d b : ℕ} {bs : List ℕ} (h : ValidFrom d (b :: bs)) :
    ValidFrom (if d = 0 then immediates b else d - 1) bs := by
  refine ⟨fun x hx => h.1 x (by simp [hx]), fun j hj hz => ?_⟩
  have := h.2 (j + 1) (by simpa using hj)
  rw [pendingFrom_succ'] at this
  simpa using this (by simpa using hz)

theorem cast_ne_zero {d : ℕ} (hp : 256 ≤ p) (hd : d ≤ 32) : (d : ZMod p) = 0 ↔ d = 0 := by
  constructor
  · intro h; exact natCast_inj (p := p) (b := 0) (by omega) (by omega) (by simpa using h)
  · rintro rfl; simp

theorem pushAfter_eq (hp : 256 ≤ p) {d b : ℕ} (hd : d ≤ 32) (hb : b < 256) :
    pushAfter (d : ZMod p) (b : ZMod p) = ((if d = 0 then immediates b else d - 1 : ℕ) : ZMod p) := by
  unfold pushAfter
  have hv : (b : ZMod p).val = b := ZMod.val_natCast_of_lt (by omega)
  rw [hv]
  by_cases h : d = 0
  · subst h
    simp only [Nat.cast_zero, if_true]
    unfold immediates
    by_cases h1 : 0x60 ≤ b ∧ b ≤ 0x7f
    · rw [if_pos ⟨by omega, by omega⟩, if_pos h1, Nat.cast_sub (by omega)]; norm_num
    · rw [if_neg (by omega), if_neg h1]; simp
  · rw [if_neg (by rw [cast_ne_zero hp hd]; exact h), if_neg h, Nat.cast_sub (by omega)]; simp

/-- The rows of the bytes of a contract meet the constraints. -/
theorem byteRows_ok (hp : 256 ≤ p) (hi lo C : ZMod p) (bs : List ℕ) : ∀ (j d : ℕ) (x : Row (ZMod p)) (rest : List (Row (ZMod p))),
    d ≤ 32 → ValidFrom d bs → (x.tag = 0 ∧ j = 0 ∧ d = 0 ∨ x.tag = 1 ∧ x.index + 1 = (j : ℕ)) → x.push = (d : ℕ) →
    x.len = (bs.length : ℕ) → x.hi = hi → x.lo = lo → x.ch = C → (∀ y, Closed y → Chained C y rest) →
    (∀ y ∈ byteRows hi lo C j (d : ℕ) (d : ℕ) x.len x.rlc (bs.map Nat.cast), Unary C y) ∧
    Chained C x (byteRows hi lo C j (d : ℕ) (d : ℕ) x.len x.rlc (bs.map Nat.cast) ++ rest) := by
  induction bs with
  | nil =>
    intro j d x rest _ _ _ _ hl _ _ _ hr
    exact ⟨by simp [byteRows], hr x (by simp [Closed, hl])⟩
  | cons b bs ih =>
    intro j d x rest hd hv hx hpush hl h4 h5 h9 hr
    have hb : b < 256 := hv.1 b (by simp)
    have hd' : (if d = 0 then immediates b else d - 1) ≤ 32 := by have := immediates_le b; split <;> omega
    simp only [List.map_cons, byteRows, pushAfter_eq hp hd hb, List.cons_append]
    set y : Row (ZMod p) := ⟨1, (j : ℕ), (b : ℕ), if ((d : ℕ) : ZMod p) = 0 then 1 else 0, hi, lo,
      ((if d = 0 then immediates b else d - 1 : ℕ) : ZMod p), x.rlc * C + (b : ℕ), x.len - 1, C⟩ with hy
    obtain ⟨i1, i2⟩ := ih (j + 1) (if d = 0 then immediates b else d - 1) y rest hd' hv.tail
      (.inr ⟨rfl, by rw [hy]; push_cast; rfl⟩) rfl (by rw [hy]; simp [hl]) rfl rfl rfl hr
    refine ⟨?_, List.isChain_cons_cons.2 ⟨⟨?_, ?_⟩, i2⟩⟩
    · intro z hz
      rcases List.mem_cons.1 hz with rfl | hz
      · refine ⟨.inr ⟨rfl, rfl⟩, by simp [hy], by simp [hy], ?_, by simp [hy], by simp [hy], ⟨b, hb, by simp [hy]⟩, ?_⟩
        · simp only [hy]; split <;> simp
        · simp only [hy, cast_ne_zero hp hd]
          by_cases h : d = 0
          · have hm : b ∈ opcodes := hv.2 0 (by simp) (by simpa [pendingFrom] using h)
            exact ⟨_, mem_opcodeRows b hm, by simp [h]⟩
          · simpa [h] using opcodeTable_zero
      · exact i1 z hz
    · constructor
      · rcases hx with ⟨h, rfl, -⟩ | ⟨h, -⟩ <;> simp [hy, h]
      · rcases hx with ⟨h, -, -⟩ | ⟨h, h'⟩
        · simp [h]
        · simp only [hy, h]; linear_combination -h'
      · simp [hy]
      · simp [hy]
      · rcases hx with ⟨h, -, rfl⟩ | ⟨h, -⟩ <;> simp [hy, h]
      · simp only [hy, hpush, cast_ne_zero hp hd]
        split
        · next h => simp [h]
        · simp
      · simp only [hy, hpush, cast_ne_zero hp hd]
        split
        · simp
        · next h => rw [Nat.cast_sub (by omega)]; simp
      · simp [hy, h4]
      · simp [hy, h5]
      · exact .inr h9
    · constructor
      · simp [hy]
      · simp [hy, h9]

/-- A contract of the input as the caller should give it: the length, then the bytes. (Or no entry at all.) -/
def Honest (k : Contract (ZMod p)) : Prop :=
  k.bytes = [] ∨ ∃ bs : List ℕ, Valid bs ∧ k.bytes = ((bs.length : ℕ) : ZMod p) :: bs.map Nat.cast

theorem allRows_ok (hp : 256 ≤ p) (C : ZMod p) (ks : List (Contract (ZMod p))) (hk : ∀ k ∈ ks, Honest k)
    (rest : List (Row (ZMod p))) (hr : ∀ y, Closed y → Chained C y rest) :
    (∀ y ∈ allRows C ks, Unary C y) ∧ ∀ x, Closed x → Chained C x (allRows C ks ++ rest) := by
  induction ks with
  | nil => exact ⟨by simp [allRows], by simpa [allRows] using hr⟩
  | cons k ks ih =>
    obtain ⟨i1, i2⟩ := ih fun k' hk' => hk k' (by simp [hk'])
    have e : allRows C (k :: ks) = contractRows C k ++ allRows C ks := by simp [allRows]
    rw [e]
    rcases hk k (by simp) with h | ⟨bs, hv, h⟩
    · have e0 : contractRows C k = [] := by simp [contractRows, h]
      rw [e0]; exact ⟨i1, i2⟩
    · set y : Row (ZMod p) := ⟨0, 0, ((bs.length : ℕ) : ZMod p), 0, k.hi, k.lo, 0, 0, ((bs.length : ℕ) : ZMod p), C⟩ with hy
      have e0 : contractRows C k = y :: byteRows k.hi k.lo C 0 ((0 : ℕ) : ZMod p) ((0 : ℕ) : ZMod p) y.len y.rlc (bs.map Nat.cast) := by
        simp [contractRows, h, hy]
      obtain ⟨j1, j2⟩ := byteRows_ok hp k.hi k.lo C bs 0 0 y (allRows C ks ++ rest) (by omega)
        ⟨hv.byte, fun j hj hz => hv.defined j hj hz⟩ (.inl ⟨rfl, rfl, rfl⟩) (by simp [hy]) rfl rfl rfl rfl i2
      rw [e0]
      refine ⟨?_, fun x hx => ?_⟩
      · intro z hz
        rcases List.mem_append.1 hz with hz | hz
        · rcases List.mem_cons.1 hz with rfl | hz
          · constructor <;> simp [hy, byteTable_zero, opcodeTable_zero]
          · exact j1 z hz
        · exact i1 z hz
      · rw [List.cons_append, List.cons_append, List.append_assoc]
        exact List.isChain_cons_cons.2 ⟨⟨fwd_off hx rfl rfl rfl, bwd_off rfl⟩, j2⟩

theorem closed_last {C : ZMod p} {l : List (Row (ZMod p))} : ∀ {x : Row (ZMod p)}, Closed x →
    (∀ k, Chained C x (l ++ List.replicate k blank)) → ∀ y ∈ l.getLast?, Closed y := by
  intro x _ h y hy
  have := h 1
  obtain ⟨l', rfl⟩ : ∃ l', l = l' ++ [y] := by
    rw [Option.mem_def, List.getLast?_eq_some_iff] at hy; exact hy
  rw [Chained, show x :: (l' ++ [y] ++ List.replicate 1 blank) = (x :: l') ++ y :: [blank] by simp,
    List.isChain_append] at this
  have h2 := (List.isChain_cons_cons.1 this.2.1).1.1.len2
  have h2 : y.tag * (0 - 1) * y.len = 0 := h2
  show y.tag * y.len = 0
  linear_combination -h2

theorem allRows_head (C : ZMod p) (ks : List (Contract (ZMod p))) : ∀ y ∈ (allRows C ks).head?, y.tag = 0 := by
  induction ks with
  | nil => intro y h; simp [allRows] at h
  | cons k ks ih =>
    intro y h
    have e : allRows C (k :: ks) = contractRows C k ++ allRows C ks := by simp [allRows]
    rw [e] at h
    rcases hb : k.bytes with _ | ⟨v, bs⟩
    · rw [show contractRows C k = [] by simp [contractRows, hb]] at h
      exact ih y h
    · simp only [contractRows, hb, List.cons_append, List.head?_cons, Option.mem_def, Option.some.injEq] at h
      rw [← h]

variable {c : Cols} {w : ℕ}

/-- What the written rows contain. -/
theorem assign_rows (hc : c.OK w) (hw : 10 ≤ w) (ks : List (Contract Var)) (ch : Var) (srow : ℤ) (t : Table (ZMod p)) :
    let l := allRows (ch.value t) (ks.map (Contract.read t))
    (∀ (i : ℕ) (h : i < l.length), rowOf c (assign c ks ch srow t) (srow + (i : ℕ)) = l[i]) ∧
    Frame c srow l.length t (assign c ks ch srow t) := by
  intro l
  have hg : GridWrites c srow w l.length (fun r j => ((l[r]?).map fun x => x.cell j).getD 0) (writes c srow l) := by
    intro x hx
    simp only [writes, List.mem_flatMap, List.mem_range, List.mem_map] at hx
    obtain ⟨r, hr, j, hj, rfl⟩ := hx
    exact ⟨r, hr, j, by omega, rfl⟩
  refine ⟨fun i hi => ?_, (hg.own hc).frame t⟩
  have key : ∀ j : ℕ, j < 10 → cellAt c (assign c ks ch srow t) (j : ℤ) (srow + (i : ℕ)) = l[i].cell j := by
    intro j hj
    have := hg.read hc t (r := i) (j := j) (by omega) (by
      simp only [writes, List.mem_flatMap, List.mem_range, List.mem_map]
      exact ⟨i, hi, j, hj, rfl⟩)
    simp only [List.getElem?_eq_getElem hi, Option.map_some, Option.getD_some] at this
    exact this
  have k0 := key 0 (by omega); have k1 := key 1 (by omega); have k2 := key 2 (by omega); have k3 := key 3 (by omega)
  have k4 := key 4 (by omega); have k5 := key 5 (by omega); have k6 := key 6 (by omega); have k7 := key 7 (by omega)
  have k8 := key 8 (by omega); have k9 := key 9 (by omega)
  simp only [Nat.cast_ofNat, Nat.cast_zero, Nat.cast_one] at k0 k1 k2 k3 k4 k5 k6 k7 k8 k9
  unfold rowOf
  rw [k0, k1, k2, k3, k4, k5, k6, k7, k8, k9]
  rfl

/-- Honest contracts fitting in the component, on fresh rows: the assignment meets the circuit. Missing for the full claim: codes
with undefined opcodes at an instruction position (`undefined_first_byte_rejected`). -/
theorem complete_partial (hp : 256 ≤ p) (hc : c.OK w) (hw : 10 ≤ w) (ks : List (Contract Var)) (ch : Var) (srow : ℤ) (n : ℕ)
    (t : Table (ZMod p)) (hk : ∀ k ∈ ks, Honest (k.read t))
    (hn : (allRows (ch.value t) (ks.map (Contract.read t))).length ≤ n)
    (hfresh : ∀ (i : ℕ), (allRows (ch.value t) (ks.map (Contract.read t))).length ≤ i → i < n → rowOf c t (srow + (i : ℕ)) = blank)
    (habove : cellAt c t 0 (srow - 1) = 0)
    (hbelow : cellAt c t 0 (srow + (n : ℕ)) = 0 ∧ cellAt c t 1 (srow + (n : ℕ)) = 0 ∧ cellAt c t 3 (srow + (n : ℕ)) = 0) :
    Sat (assign c ks ch srow t) (circuit c n srow) := by
  obtain ⟨hrow, hframe⟩ := assign_rows (p := p) hc hw ks ch srow t
  set l := allRows (ch.value t) (ks.map (Contract.read t)) with hl
  set t' := assign c ks ch srow t with ht'
  have hcell : ∀ (j r : ℤ), (r < srow ∨ srow + (l.length : ℕ) ≤ r) → cellAt c t' j r = cellAt c t j r :=
    fun j r hr => hframe.row hr _ _
  have hko : ∀ k ∈ ks.map (Contract.read t), Honest k := by
    intro k hk'
    obtain ⟨k0, h0, rfl⟩ := List.mem_map.1 hk'
    exact hk k0 h0
  obtain ⟨a1, a2⟩ := allRows_ok hp (ch.value t) _ hko (List.replicate (n - l.length) blank) (chained_blank _ _)
  have hx0 : Closed (blank : Row (ZMod p)) := by simp [Closed, blank]
  have hclosed := closed_last (l := l) hx0 fun k => (allRows_ok hp (ch.value t) _ hko (List.replicate k blank) (chained_blank _ _)).2 _ hx0
  have hlen : (l ++ List.replicate (n - l.length) blank).length = n := by simp; omega
  refine sat_of_chained (C := ch.value t) (l := l ++ List.replicate (n - l.length) blank) hlen ?_ ?_ blank (a2 _ hx0) ?_ ?_ ?_
  · intro i hi
    rw [hlen] at hi
    by_cases h : i < l.length
    · rw [hrow i h, List.getElem_append_left h]
    · rw [List.getElem_append_right (by omega), List.getElem_replicate, ← hfresh i (by omega) hi]
      unfold rowOf
      simp only [hcell _ (srow + (i : ℕ)) (.inr (by omega))]
  · intro x hx
    rcases List.mem_append.1 hx with hx | hx
    · exact a1 x hx
    · rw [(List.mem_replicate.1 hx).2]; exact blank_unary _
  · intro h
    have : (l ++ List.replicate (n - l.length) blank)[0].tag = 0 := by
      by_cases h0 : 0 < l.length
      · rw [List.getElem_append_left h0]
        exact allRows_head _ _ _ (by rw [← hl, List.head?_eq_getElem?, List.getElem?_eq_getElem h0]; rfl)
      · rw [List.getElem_append_right (by omega), List.getElem_replicate]; rfl
    exact bwd_off this
  · left; rw [hcell _ _ (.inl (by omega))]; exact habove
  · intro h
    refine fwd_off ?_ ?_ ?_ ?_
    · by_cases hz : n - l.length = 0
      · have hmem : l.getLast? = some (l ++ List.replicate (n - l.length) blank)[(l ++ List.replicate (n - l.length) blank).length - 1] := by
          simp only [hz, List.replicate_zero, List.append_nil]
          rw [List.getLast?_eq_getElem?, List.getElem?_eq_getElem]
        exact hclosed _ hmem
      · rw [List.getElem_append_right (by simp; omega), List.getElem_replicate]; exact hx0
    · show cellAt c t' 0 _ = 0
      rw [hcell _ _ (.inr (by omega))]; exact hbelow.1
    · show cellAt c t' 1 _ = 0
      rw [hcell _ _ (.inr (by omega))]; exact hbelow.2.1
    · show cellAt c t' 3 _ = 0
      rw [hcell _ _ (.inr (by omega))]; exact hbelow.2.2


/-- The tuple of a row. -/
def Row.tuple {F : Type*} (x : Row F) : List F := [x.tag, x.index, x.value, x.isOp, x.hi, x.lo]

theorem byteRows_get (hp : 256 ≤ p) (hi lo C : ZMod p) (bs : List ℕ) : ∀ (j d : ℕ) (len rlc : ZMod p), d ≤ 32 → (∀ b ∈ bs, b < 256) →
    ∀ i (h : i < bs.length), ∃ x ∈ byteRows hi lo C j (d : ℕ) (d : ℕ) len rlc (bs.map Nat.cast),
      x.tuple = [1, ((j + i : ℕ) : ZMod p), (bs[i] : ℕ), if pendingFrom d (fun i => bs.getD i 0) i = 0 then 1 else 0, hi, lo] := by
  induction bs with
  | nil => intro j d len rlc _ _ i h; simp at h
  | cons b bs ih =>
    intro j d len rlc hd hb i h
    have hd' : (if d = 0 then immediates b else d - 1) ≤ 32 := by have := immediates_le b; split <;> omega
    simp only [List.map_cons, byteRows, pushAfter_eq hp hd (hb b (by simp))]
    rcases i with _ | i
    · refine ⟨_, List.mem_cons_self .., ?_⟩
      by_cases h0 : d = 0 <;> simp [Row.tuple, pendingFrom, cast_ne_zero hp hd, h0]
    · obtain ⟨x, hx, e⟩ := ih (j + 1) (if d = 0 then immediates b else d - 1) (len - 1) (rlc * C + (b : ℕ)) hd'
        (fun b' hb' => hb b' (by simp [hb'])) i (by simpa using h)
      refine ⟨x, List.mem_cons_of_mem _ hx, ?_⟩
      rw [e, pendingFrom_succ', show j + 1 + i = j + (i + 1) by omega]
      simp

/-- The dynamic table of an honest assignment has, for every byte of every contract, the row with its position, its value, whether
an instruction starts there, and the hash. -/
theorem honest_tuples (hp : 256 ≤ p) (hc : c.OK w) (hw : 10 ≤ w) (ks : List (Contract Var)) (ch : Var) (srow : ℤ) (n : ℕ)
    (t : Table (ZMod p)) (hn : (allRows (ch.value t) (ks.map (Contract.read t))).length ≤ n) (k : Contract Var) (hk : k ∈ ks)
    (bs : List ℕ) (hb : ∀ b ∈ bs, b < 256) (v : ZMod p) (hv : (k.read t).bytes = v :: bs.map Nat.cast) (j : ℕ) (hj : j < bs.length) :
    dynamicTable c n srow (assign c ks ch srow t)
      [1, (j : ZMod p), (bs[j] : ZMod p), if IsCode (fun i => bs.getD i 0) j then 1 else 0, k.hi.value t, k.lo.value t] := by
  obtain ⟨hrow, -⟩ := assign_rows (p := p) hc hw ks ch srow t
  obtain ⟨x, hx, e⟩ := byteRows_get hp (k.hi.value t) (k.lo.value t) (ch.value t) bs 0 0 v 0 (by omega) hb j hj
  have hm : x ∈ allRows (ch.value t) (ks.map (Contract.read t)) := by
    refine List.mem_flatMap.2 ⟨k.read t, List.mem_map.2 ⟨k, hk, rfl⟩, ?_⟩
    simp only [contractRows, hv]
    refine List.mem_cons_of_mem _ ?_
    simpa [Contract.read] using hx
  obtain ⟨i, hi, rfl⟩ := List.getElem_of_mem hm
  refine ⟨i, by omega, ?_⟩
  have := hrow i hi
  show _ = [(rowOf c (assign c ks ch srow t) (srow + (i : ℕ))).tag, (rowOf c (assign c ks ch srow t) (srow + (i : ℕ))).index,
    (rowOf c (assign c ks ch srow t) (srow + (i : ℕ))).value, (rowOf c (assign c ks ch srow t) (srow + (i : ℕ))).isOp,
    (rowOf c (assign c ks ch srow t) (srow + (i : ℕ))).hi, (rowOf c (assign c ks ch srow t) (srow + (i : ℕ))).lo]
  rw [this]
  have e' : [_, _, _, _, _, _] = _ := e
  rw [e']
  simp only [Nat.zero_add]
  rfl

/-! ### Tables that should be rejected -/

theorem paint_rows (hc : c.OK w) (hw : 10 ≤ w) (srow : ℤ) (l : List (Row (ZMod p))) (t : Table (ZMod p)) :
    ∃ t', Frame c srow l.length t t' ∧ ∀ (i : ℕ) (h : i < l.length), rowOf c t' (srow + (i : ℕ)) = l[i] := by
  obtain ⟨t', hf, hg⟩ := paint hc srow l.length (fun r j => ((l[r]?).map fun x => x.cell j).getD 0) t
  refine ⟨t', hf, fun i hi => ?_⟩
  have key : ∀ j : ℕ, j < 10 → cellAt c t' (j : ℤ) (srow + (i : ℕ)) = l[i].cell j := by
    intro j hj
    have := hg i j hi (by omega)
    simp only [List.getElem?_eq_getElem hi, Option.map_some, Option.getD_some] at this
    exact this
  have k0 := key 0 (by omega); have k1 := key 1 (by omega); have k2 := key 2 (by omega); have k3 := key 3 (by omega)
  have k4 := key 4 (by omega); have k5 := key 5 (by omega); have k6 := key 6 (by omega); have k7 := key 7 (by omega)
  have k8 := key 8 (by omega); have k9 := key 9 (by omega)
  simp only [Nat.cast_ofNat, Nat.cast_zero, Nat.cast_one] at k0 k1 k2 k3 k4 k5 k6 k7 k8 k9
  unfold rowOf
  rw [k0, k1, k2, k3, k4, k5, k6, k7, k8, k9]
  rfl

/-- Rows followed by blank ones, on an arbitrary table. -/
theorem exists_table (hc : c.OK w) (hw : 10 ≤ w) (srow : ℤ) (n : ℕ) (l : List (Row (ZMod p))) (hn : l.length < n) (t : Table (ZMod p))
    (hbelow : cellAt c t 0 (srow + (n : ℕ)) = 0 ∧ cellAt c t 1 (srow + (n : ℕ)) = 0 ∧ cellAt c t 3 (srow + (n : ℕ)) = 0)
    (hu : ∀ x ∈ l, Unary (cellAt c t 9 (srow + -1)) x)
    (hch : List.IsChain (fun a b => Fwd (cellAt c t 9 (srow + -1)) a b ∧ Bwd a b) (l ++ [blank]))
    (h0 : ∀ y ∈ l.head?, Bwd (rowOf c t (srow + -1)) y) :
    ∃ t', Frame c srow n t t' ∧ Sat t' (circuit c n srow) ∧
      (∀ (i : ℕ) (h : i < l.length), rowOf c t' (srow + (i : ℕ)) = l[i]) ∧
      ∀ i : ℕ, l.length ≤ i → i < n → rowOf c t' (srow + (i : ℕ)) = blank := by
  set C := cellAt c t 9 (srow + -1) with hC
  set l' := l ++ List.replicate (n - l.length) blank with hl'
  have hlen : l'.length = n := by simp [hl']; omega
  obtain ⟨t', hf, hr⟩ := paint_rows hc hw srow l' t
  rw [hlen] at hf
  have hx0 : Closed (blank : Row (ZMod p)) := by simp [Closed, blank]
  have e : List.replicate (n - l.length) (blank : Row (ZMod p)) = blank :: List.replicate (n - l.length - 1) blank := by
    rw [← List.replicate_succ]; congr 1; omega
  have hcell : ∀ (j r : ℤ), (r < srow ∨ srow + (n : ℕ) ≤ r) → cellAt c t' j r = cellAt c t j r := fun j r hr => hf.row hr _ _
  refine ⟨t', hf, ?_, fun i hi => ?_, fun i hi hi' => ?_⟩
  · have hchain : List.IsChain (fun a b => Fwd C a b ∧ Bwd a b) l' := by
      rw [hl', e]
      exact List.isChain_split.2 ⟨hch, chained_blank C _ _ hx0⟩
    have hch' := List.isChain_iff_getElem.1 hchain
    rw [sat_iff]
    intro i hi
    refine rowEqs_of (C := C) ?_ ?_ ?_ ?_
    · rw [hr i (by omega)]
      rcases List.mem_append.1 (List.getElem_mem (l := l') (show i < l'.length by omega)) with h | h
      · exact hu _ h
      · rw [(List.mem_replicate.1 h).2]; exact blank_unary _
    · rw [hr i (by omega)]
      by_cases h : i + 1 < l'.length
      · rw [show srow + (i : ℕ) + 1 = srow + ((i + 1 : ℕ) : ℤ) by push_cast; ring, hr (i + 1) h]
        exact (hch' i h).1
      · rw [show srow + (i : ℕ) + 1 = srow + ((n : ℕ) : ℤ) by omega]
        refine fwd_off ?_ ?_ ?_ ?_
        · simp only [hl']
          rw [List.getElem_append_right (by omega), List.getElem_replicate]; exact hx0
        · show cellAt c t' 0 _ = 0
          rw [hcell _ _ (.inr le_rfl)]; exact hbelow.1
        · show cellAt c t' 1 _ = 0
          rw [hcell _ _ (.inr le_rfl)]; exact hbelow.2.1
        · show cellAt c t' 3 _ = 0
          rw [hcell _ _ (.inr le_rfl)]; exact hbelow.2.2
    · rw [hr i (by omega)]
      rcases Nat.eq_zero_or_pos i with rfl | hp
      · have ea : rowOf c t' (srow + ((0 : ℕ) : ℤ) + -1) = rowOf c t (srow + -1) := by
          unfold rowOf
          simp only [Nat.cast_zero, add_zero, hcell _ (srow + -1) (.inl (by omega))]
        rw [ea]
        by_cases h : 0 < l.length
        · simp only [hl']
          rw [List.getElem_append_left h]
          exact h0 _ (by rw [List.head?_eq_getElem?, List.getElem?_eq_getElem h]; rfl)
        · apply bwd_off
          simp only [hl']
          rw [List.getElem_append_right (by omega), List.getElem_replicate]; rfl
      · rw [show srow + (i : ℕ) + -1 = srow + ((i - 1 : ℕ) : ℤ) by omega, hr (i - 1) (by omega)]
        obtain ⟨k, rfl⟩ : ∃ k, i = k + 1 := ⟨i - 1, by omega⟩
        exact (hch' k (by omega)).2
    · rcases Nat.eq_zero_or_pos i with rfl | hp
      · right
        simp only [Nat.cast_zero, add_zero]
        rw [hcell _ _ (.inl (by omega))]
      · have e := hr (i - 1) (by omega)
        rw [show srow + (i : ℕ) + -1 = srow + ((i - 1 : ℕ) : ℤ) by omega]
        have hu' : Unary C (l'[i - 1]'(by omega)) := by
          rcases List.mem_append.1 (List.getElem_mem (l := l') (show i - 1 < l'.length by omega)) with h | h
          · exact hu _ h
          · rw [(List.mem_replicate.1 h).2]; exact blank_unary _
        rcases hu'.tag with h | ⟨-, h⟩
        · left; rw [← e] at h; exact h
        · right; rw [← e] at h; exact h
  · rw [hr i (by omega)]
    simp only [hl']
    rw [List.getElem_append_left hi]
  · rw [hr i (by omega)]
    simp only [hl']
    rw [List.getElem_append_right hi, List.getElem_replicate]

/-- The circuit accepts the code `STOP ADD` with `ADD` declared to be data, whatever is around. -/
theorem flags_not_forced (hc : c.OK w) (hw : 10 ≤ w) (srow : ℤ) (n : ℕ) (hn : 4 ≤ n) (t : Table (ZMod p))
    (hbelow : cellAt c t 0 (srow + (n : ℕ)) = 0 ∧ cellAt c t 1 (srow + (n : ℕ)) = 0 ∧ cellAt c t 3 (srow + (n : ℕ)) = 0)
    (hi lo : ZMod p) :
    ∃ t', Frame c srow n t t' ∧ Sat t' (circuit c n srow) ∧ Segment c t' srow 2 ∧ cellAt c t' 0 (srow + 3) = 0 ∧
      cellAt c t' 2 (srow + 1) = ((0 : ℕ) : ZMod p) ∧ IsCode (fun j => j) 1 ∧ tuple c t' (srow + 2) = [1, 1, ((1 : ℕ) : ZMod p), 0, hi, lo] := by
  set C := cellAt c t 9 (srow + -1) with hC
  obtain ⟨t', hf, hs, hr, hz⟩ := exists_table (p := p) hc hw srow n
    [⟨0, 0, 2, 0, hi, lo, 0, 0, 2, C⟩, ⟨1, 0, 0, 1, hi, lo, 0, 0, 1, C⟩, ⟨1, 1, 1, 0, hi, lo, -1, 1, 0, C⟩] (by
      simp; omega) t hbelow (by
      intro x hx
      simp only [List.mem_cons, List.not_mem_nil, or_false] at hx
      rcases hx with rfl | rfl | rfl
      · constructor <;> simp [byteTable_zero, opcodeTable_zero]
      · constructor <;> simp [byteTable_zero]
        · rfl
        · exact ⟨(0, 0, 1), by decide +kernel, by simp⟩
      · constructor <;> simp [opcodeTable_zero]
        · rfl
        · exact ⟨1, by omega, by simp⟩)
    (by
      simp only [List.cons_append, List.nil_append, List.isChain_cons_cons, List.isChain_singleton, and_true]
      refine ⟨⟨?_, ?_⟩, ⟨?_, ?_⟩, fwd_off (by simp [Closed]) rfl rfl rfl, bwd_off rfl⟩
      · constructor <;> simp [hC]; norm_num
      · constructor <;> simp
      · constructor <;> simp [hC]
      · constructor <;> simp)
    (by
      intro y hy
      simp only [List.head?_cons, Option.mem_def, Option.some.injEq] at hy
      rw [← hy]; exact bwd_off rfl)
  have r0 := hr 0 (by simp); have r1 := hr 1 (by simp); have r2 := hr 2 (by simp); have r3 := hz 3 (by simp) (by omega)
  simp only [Nat.cast_zero, add_zero, Nat.cast_one, Nat.cast_ofNat, List.getElem_cons_zero, List.getElem_cons_succ] at r0 r1 r2 r3
  simp only [rowOf, Row.mk.injEq, blank] at r0 r1 r2 r3
  refine ⟨t', hf, hs, ⟨r0.1, ?_⟩, r3.1, by rw [r1.2.2.1]; simp, by decide, ?_⟩
  · intro j hj
    interval_cases j
    · simpa using r1.1
    · have : srow + ((1 : ℕ) : ℤ) + 1 = srow + 2 := by push_cast; ring
      rw [this]; exact r2.1
  · have e : tuple c t' (srow + 2) = [cellAt c t' 0 (srow + 2), cellAt c t' 1 (srow + 2), cellAt c t' 2 (srow + 2), cellAt c t' 3 (srow + 2),
      cellAt c t' 4 (srow + 2), cellAt c t' 5 (srow + 2)] := rfl
    rw [e, r2.1, r2.2.1, r2.2.2.1, r2.2.2.2.1, r2.2.2.2.2.1, r2.2.2.2.2.2.1]
    simp

/-- The first row may be a byte of no contract: the dynamic table then has a row with an arbitrary position and hash. -/
theorem orphan_byte (hc : c.OK w) (hw : 10 ≤ w) (srow : ℤ) (n : ℕ) (hn : 2 ≤ n) (t : Table (ZMod p))
    (hbelow : cellAt c t 0 (srow + (n : ℕ)) = 0 ∧ cellAt c t 1 (srow + (n : ℕ)) = 0 ∧ cellAt c t 3 (srow + (n : ℕ)) = 0)
    (x hi lo : ZMod p) (v : ℕ) (hv : v < 256) :
    ∃ t', Frame c srow n t t' ∧ Sat t' (circuit c n srow) ∧ dynamicTable c n srow t' [1, x, (v : ZMod p), 0, hi, lo] := by
  set C := cellAt c t 9 (srow + -1) with hC
  obtain ⟨t', hf, hs, hr, hz⟩ := exists_table (p := p) hc hw srow n
    [⟨1, x, (v : ℕ), 0, hi, lo, 0, cellAt c t 7 (srow + -1) * C + (v : ℕ), 0, C⟩] (by simp; omega) t hbelow (by
      intro y hy
      simp only [List.mem_cons, List.not_mem_nil, or_false] at hy
      rw [hy]
      constructor <;> simp [opcodeTable_zero]
      · rfl
      · exact ⟨v, hv, rfl⟩)
    (by
      simp only [List.cons_append, List.nil_append, List.isChain_cons_cons, List.isChain_singleton, and_true]
      exact ⟨fwd_off (by simp [Closed]) rfl rfl rfl, bwd_off rfl⟩)
    (by
      intro y hy
      simp only [List.head?_cons, Option.mem_def, Option.some.injEq] at hy
      rw [← hy]
      constructor
      · simp [rowOf]
      · simp [rowOf, hC])
  have r0 := hr 0 (by simp)
  simp only [List.getElem_cons_zero, rowOf, Row.mk.injEq] at r0
  refine ⟨t', hf, hs, 0, by omega, ?_⟩
  have e : tuple c t' (srow + ((0 : ℕ) : ℤ)) = [cellAt c t' 0 (srow + ((0 : ℕ) : ℤ)), cellAt c t' 1 (srow + ((0 : ℕ) : ℤ)),
    cellAt c t' 2 (srow + ((0 : ℕ) : ℤ)), cellAt c t' 3 (srow + ((0 : ℕ) : ℤ)), cellAt c t' 4 (srow + ((0 : ℕ) : ℤ)),
    cellAt c t' 5 (srow + ((0 : ℕ) : ℤ))] := rfl
  rw [e, r0.1, r0.2.1, r0.2.2.1, r0.2.2.2.1, r0.2.2.2.2.1, r0.2.2.2.2.2.1]

/-- A header followed by a header may state any length. -/
theorem empty_contract_any_length (hc : c.OK w) (hw : 10 ≤ w) (srow : ℤ) (n : ℕ) (hn : 2 ≤ n) (t : Table (ZMod p))
    (hbelow : cellAt c t 0 (srow + (n : ℕ)) = 0 ∧ cellAt c t 1 (srow + (n : ℕ)) = 0 ∧ cellAt c t 3 (srow + (n : ℕ)) = 0)
    (v hi lo : ZMod p) :
    ∃ t', Frame c srow n t t' ∧ Sat t' (circuit c n srow) ∧ cellAt c t' 0 (srow + 1) = 0 ∧
      dynamicTable c n srow t' [0, 0, v, 0, hi, lo] := by
  set C := cellAt c t 9 (srow + -1) with hC
  obtain ⟨t', hf, hs, hr, hz⟩ := exists_table (p := p) hc hw srow n
    [⟨0, 0, v, 0, hi, lo, 0, 0, v, C⟩] (by simp; omega) t hbelow (by
      intro y hy
      simp only [List.mem_cons, List.not_mem_nil, or_false] at hy
      rw [hy]
      constructor <;> simp [opcodeTable_zero, byteTable_zero])
    (by
      simp only [List.cons_append, List.nil_append, List.isChain_cons_cons, List.isChain_singleton, and_true]
      exact ⟨fwd_off (by simp [Closed]) rfl rfl rfl, bwd_off rfl⟩)
    (by
      intro y hy
      simp only [List.head?_cons, Option.mem_def, Option.some.injEq] at hy
      rw [← hy]; exact bwd_off rfl)
  have r0 := hr 0 (by simp)
  have r1 := hz 1 (by simp) (by omega)
  simp only [List.getElem_cons_zero, rowOf, Row.mk.injEq, blank, Nat.cast_one] at r0 r1
  refine ⟨t', hf, hs, r1.1, 0, by omega, ?_⟩
  have e : tuple c t' (srow + ((0 : ℕ) : ℤ)) = [cellAt c t' 0 (srow + ((0 : ℕ) : ℤ)), cellAt c t' 1 (srow + ((0 : ℕ) : ℤ)),
    cellAt c t' 2 (srow + ((0 : ℕ) : ℤ)), cellAt c t' 3 (srow + ((0 : ℕ) : ℤ)), cellAt c t' 4 (srow + ((0 : ℕ) : ℤ)),
    cellAt c t' 5 (srow + ((0 : ℕ) : ℤ))] := rfl
  rw [e, r0.1, r0.2.1, r0.2.2.1, r0.2.2.2.1, r0.2.2.2.2.1, r0.2.2.2.2.2.1]

end

/-! ### The tester of the dynamic table -/

/-- The lookup of the row aside is enabled nowhere: whatever columns 0 to 5 hold, the tester accepts. -/
theorem tester_aside_unchecked {F : Type*} [Field F] {c : Cols} (hc : c.OK 12) (n : ℕ) (srow : ℤ) (tbl : List F → Prop) (t : Table F)
    (hs : Sat t (testerCircuit c n srow tbl)) (j : ℕ) (hj : j < 6) (r : ℤ) (v : F) :
    Sat (t.set .witness (c.w (j : ℤ)) r v) (testerCircuit c n srow tbl) := by
  have hne : ∀ k : ℤ, 6 ≤ k → k < 12 → ∀ q, (t.set .witness (c.w (j : ℤ)) r v) .witness (c.w k) q = t .witness (c.w k) q := by
    intro k h1 h2 q
    apply Table.set_ne
    rintro ⟨-, h, -⟩
    have := (hc.inj ⟨by omega, by omega⟩ ⟨by omega, by omega⟩).1 h
    omega
  simp only [testerCircuit, sat_cons, sat_nil, holds_lookup, List.map_cons, List.map_nil, Cols.eval_wv] at hs ⊢
  refine ⟨fun q hq => ?_, by simp⟩
  rw [hne 6 (by norm_num) (by norm_num), hne 7 (by norm_num) (by norm_num), hne 8 (by norm_num) (by norm_num),
    hne 9 (by norm_num) (by norm_num), hne 10 (by norm_num) (by norm_num), hne 11 (by norm_num) (by norm_num)]
  exact hs.1 q hq

/-! ### The hypotheses are met -/

namespace Ex
instance : Fact (Nat.Prime 257) := ⟨by norm_num⟩
def cols : Cols := ⟨[0, 1, 2, 3, 4, 5, 6, 7, 8, 9, 10], [], []⟩
theorem cols_ok : cols.OK 11 := ⟨by decide, rfl⟩

/-- `PUSH1 0x0c STOP`: the undefined byte `0x0c` is data. -/
def code : List ℕ := [0x60, 0x0c, 0x00]
theorem valid : Valid code := ⟨by decide, by decide⟩

/-- Public input: length and bytes, two halves of the hash, challenge. -/
def base : Table (ZMod 257) := fun ty _ r =>
  if ty = .publicInput then (if r = 0 then 3 else if r = 1 then 0x60 else if r = 2 then 0x0c else if r = 4 then 7 else if r = 5 then 9
    else if r = 6 then 5 else 0) else 0
def v (r : ℤ) : Var := ⟨0, r, false, .publicInput⟩
def contract : Contract Var := ⟨v 4, v 5, [v 0, v 1, v 2, v 3]⟩

theorem honest : Honest (contract.read base) := .inr ⟨code, valid, by decide⟩

example : Sat (assign cols [contract] (v 6) 0 base) (circuit cols 6 0) :=
  complete_partial (by norm_num) cols_ok (by norm_num) [contract] (v 6) 0 6 base
    (by intro k hk; rw [List.mem_singleton.1 hk]; exact honest) (by decide) (fun i _ _ => rfl) rfl ⟨rfl, rfl, rfl⟩

/-- The segment of that table: all soundness theorems apply to it. -/
theorem segment : Segment cols (assign cols [contract] (v 6) 0 base) 0 3 := by
  obtain ⟨h, -⟩ := assign_rows (p := 257) cols_ok (by norm_num) [contract] (v 6) 0 base
  have e : ∀ i : ℕ, i < 4 → cellAt cols (assign cols [contract] (v 6) 0 base) 0 (0 + (i : ℕ)) = if i = 0 then 0 else 1 := by
    intro i hi
    have := congrArg Row.tag (h i hi)
    refine Eq.trans this ?_
    interval_cases i <;> rfl
  refine ⟨e 0 (by omega), fun j hj => ?_⟩
  have := e (j + 1) (by omega)
  rw [if_neg (by omega)] at this
  rw [← this]; congr 1

/-- The first byte `0x0c` is not accepted at all. -/
example : 0x0c ∉ opcodes := by decide
end Ex

end ZkBytecode
end Verif
