import Verif.Model.EdCurve
import Verif.Props.Ed25519Mul
import Verif.Core.Seq
import Mathlib.Data.ZMod.Basic

/-!
# Sequences of calls of the arithmetic modulo `2^255 - 19`

Soundness and completeness of the single components (C49) carried over to programs: in every satisfying table with the
chunks within their widths the registers hold the values of the program in `ZMod (2^255 - 19)`; the generated table
satisfies the circuits.
-/

set_option linter.unusedSimpArgs false
set_option linter.unusedVariables false
set_option linter.unusedSectionVars false
set_option exponentiation.threshold 600

namespace Verif
namespace EdCurve

open Ed25519

/-- Meaning of a call. -/
def Kind.eval {K : Type*} [CommRing K] : Kind → K → K → K
  | mul, x, y => x * y
  | add, x, y => x + y
  | sub, x, y => x - y

/-- Meaning of a program. -/
def values {K : Type*} [CommRing K] : List Call → ℕ → (ℕ → K) → ℕ → K
  | [], _, v => v
  | q :: l, k, v => values l (k + 1) (Function.update v k (q.kind.eval (v q.a) (v q.b)))

/-- Operands are registers already written. -/
def Fits : List Call → ℕ → Prop
  | [], _ => True
  | q :: l, k => q.a < k ∧ q.b < k ∧ Fits l (k + 1)

/-- Chunks of a call within their widths. -/
def Kind.Widths {F : Type*} [Field F] (t : Table F) (c : Cols) : Kind → ℤ → Prop
  | mul, row => RangeCells t c row ∧ RangeCells t c (row + 2) ∧ CarryCells t c (row + 6) 0 4 ∧
      CarryCells t c (row + 6) 4 9
  | add, row => RangeCells t c (row + 2) ∧ CarryCells t c row 3 1
  | sub, row => RangeCells t c (row + 2) ∧ CarryCells t c row 3 2

/-- Chunks of a program within their widths. -/
def Widths {F : Type*} [Field F] (t : Table F) (c : Cols) : List Call → ℤ → Prop
  | [], _ => True
  | q :: l, row => q.kind.Widths t c row ∧ Widths t c l (row + q.kind.rows)

theorem mod_eq : modulus = 2 ^ 255 - 19 := rfl

/-! ### Soundness -/

section sound
variable {F : Type*} [Field F] {t : Table F} {c : Cols} {n : ℕ} [CharP F n]

theorem call_sound (hodd : n % 2 = 1) (hn : 2 ^ 254 < n) (k : Kind) {inp : In} {row : ℤ} {x y : ℕ}
    (h : Sat t (k.circuit c inp row)) (hx : Limbs t inp.a x) (hy : Limbs t inp.b y) (hw : k.Widths t c row) :
    ∃ z, Limbs t (k.result c row) z ∧ (z : ZMod modulus) = k.eval (x : ZMod modulus) y := by
  cases k with
  | mul =>
    obtain ⟨z, h1, h2⟩ := mul_sound hodd hn h hx hy hw.1 hw.2.1 hw.2.2.1 hw.2.2.2
    refine ⟨z, h1, ?_⟩
    rw [← mod_eq, ← ZMod.natCast_eq_natCast_iff] at h2
    rw [h2]; push_cast; rfl
  | add =>
    obtain ⟨z, h1, h2⟩ := add_sound hodd hn h hx hy hw.1 hw.2
    refine ⟨z, h1, ?_⟩
    simp only [Kind.eval]
    rcases h2 with h2 | h2
    · rw [h2]; push_cast; rfl
    · have := congrArg (Nat.cast (R := ZMod modulus)) h2
      rw [← mod_eq, Nat.cast_add, ZMod.natCast_self, add_zero] at this
      rw [this]; push_cast; rfl
  | sub =>
    obtain ⟨z, h1, h2⟩ := sub_sound hodd hn h hx hy hw.1 hw.2
    refine ⟨z, h1, ?_⟩
    simp only [Kind.eval]
    rw [eq_sub_iff_add_eq]
    rcases h2 with h2 | h2
    · rw [← h2]; push_cast; rfl
    · have := congrArg (Nat.cast (R := ZMod modulus)) h2
      rw [← mod_eq, Nat.cast_add, Nat.cast_add, ZMod.natCast_self, add_zero] at this
      exact this

theorem prog_sound (hodd : n % 2 = 1) (hn : 2 ^ 254 < n) (l : List Call) : ∀ (k : ℕ) (R : Regs) (row : ℤ) (v : ℕ → ℕ),
    Fits l k → (∀ i < k, Limbs t (R i) (v i)) → Sat t (circuits c l k R row) → Widths t c l row →
    ∃ v' : ℕ → ℕ, (∀ i < k + l.length, Limbs t (regs c l k R row i) (v' i)) ∧
      ∀ i, (v' i : ZMod modulus) = values l k (fun j => (v j : ZMod modulus)) i := by
  induction l with
  | nil => intro k R row v _ h _ _; exact ⟨v, h, fun i => rfl⟩
  | cons q l ih =>
    intro k R row v hf h hs hw
    rw [circuits, sat_append] at hs
    obtain ⟨z, hz, he⟩ := call_sound hodd hn q.kind hs.1 (h _ hf.1) (h _ hf.2.1) hw.1
    obtain ⟨v', h1, h2⟩ := ih (k + 1) _ _ (Function.update v k z) hf.2.2 (fun i hi => by
      rcases eq_or_ne i k with rfl | hne
      · rw [Function.update_self, Function.update_self]; exact hz
      · rw [Function.update_of_ne hne, Function.update_of_ne hne]; exact h i (by omega)) hs.2 hw.2
    refine ⟨v', fun i hi => h1 i (by rw [List.length_cons] at hi; omega), fun i => ?_⟩
    rw [h2 i, values]
    congr 1
    funext j
    rcases eq_or_ne j k with rfl | hne
    · rw [Function.update_self, Function.update_self, he]
    · rw [Function.update_of_ne hne, Function.update_of_ne hne]

end sound

/-! ### Stability -/

section stable
variable {F : Type*} [Field F] {t t' : Table F} {c : Cols}

/-- Same contents of the rows of a call. -/
def SameRows (t t' : Table F) (row : ℤ) (k : ℕ) : Prop :=
  ∀ i r, row ≤ r → r < row + k → t' .witness i r = t .witness i r

theorem SameRows.mono {row row' : ℤ} {k k' : ℕ} (h : SameRows t t' row k) (h1 : row ≤ row') (h2 : row' + k' ≤ row + k) :
    SameRows t t' row' k' := fun i r a b => h i r (by omega) (by omega)

theorem rangeCells_stable {row : ℤ} (h : SameRows t t' row 2) (hr : RangeCells t c row) : RangeCells t' c row := by
  have a0 : ∀ i, t' .witness i row = t .witness i row := fun i => h i row (by omega) (by omega)
  have a1 : ∀ i, t' .witness i (row + 1) = t .witness i (row + 1) := fun i => h i _ (by omega) (by omega)
  unfold RangeCells at *
  simp only [a0, a1]
  exact hr

theorem carryCells_stable {row : ℤ} {k : ℤ} {w : ℕ} (h : SameRows t t' row 1) (hr : CarryCells t c row k w) :
    CarryCells t' c row k w := by
  have a0 : ∀ i, t' .witness i row = t .witness i row := fun i => h i row (by omega) (by omega)
  unfold CarryCells at *
  simp only [a0]
  exact hr

theorem Kind.Widths.stable {k : Kind} {row : ℤ} (h : SameRows t t' row k.rows) (hw : k.Widths t c row) :
    k.Widths t' c row := by
  cases k with
  | mul =>
    have h7 : SameRows t t' row 7 := h
    exact ⟨rangeCells_stable (h7.mono (by omega) (by omega)) hw.1, rangeCells_stable (h7.mono (by omega) (by omega)) hw.2.1,
      carryCells_stable (h7.mono (by omega) (by omega)) hw.2.2.1, carryCells_stable (h7.mono (by omega) (by omega)) hw.2.2.2⟩
  | add =>
    have h4 : SameRows t t' row 4 := h
    exact ⟨rangeCells_stable (h4.mono (by omega) (by omega)) hw.1, carryCells_stable (h4.mono (by omega) (by omega)) hw.2⟩
  | sub =>
    have h4 : SameRows t t' row 4 := h
    exact ⟨rangeCells_stable (h4.mono (by omega) (by omega)) hw.1, carryCells_stable (h4.mono (by omega) (by omega)) hw.2⟩

theorem range_stable {inp : ℕ → Var} {row : ℤ} (h : SameRows t t' row 2)
    (hi : ∀ i < 4, (inp i).value t' = (inp i).value t) (hs : Sat t (rangeCircuit c inp row)) :
    Sat t' (rangeCircuit c inp row) := by
  have a0 : ∀ i, t' .witness i (row + 0) = t .witness i (row + 0) := fun i => h i _ (by omega) (by omega)
  have a1 : ∀ i, t' .witness i (row + 1) = t .witness i (row + 1) := fun i => h i _ (by omega) (by omega)
  refine rangeCircuit_sat ?_ fun i hi4 => ?_
  · have hg : (Op.gate (rangeGate c) [row] : Op F).Holds t := hs _ (by simp [rangeCircuit])
    simp only [rangeGate, rangeSum, holds_gate, List.mem_singleton, forall_eq, List.forall_mem_cons, Expr.eval_sub,
      Expr.eval_add, Expr.eval_mul, Cols.eval_wv, sh, Expr.eval_const, Expr.eval_one] at hg ⊢
    simp only [a0, a1]
    exact hg
  · rw [hi i hi4, ← range_copies hs i hi4]
    simpa using a0 (c.w i)

theorem addCopies_stable {inp : In} {row : ℤ} (h : SameRows t t' row 4)
    (ha : ∀ i < 4, (inp.a i).value t' = (inp.a i).value t) (hb : ∀ i < 4, (inp.b i).value t' = (inp.b i).value t)
    (hs : Sat t (addCopies c inp row)) : Sat t' (addCopies c inp row) := by
  have a1 : ∀ i, t' .witness i (row + 1) = t .witness i (row + 1) := fun i => h i _ (by omega) (by omega)
  simp only [addCopies, sat_cons, holds_copy, Cols.value_wa, sat_nil, and_true] at hs ⊢
  simp only [a1, ha 0 (by omega), ha 1 (by omega), ha 2 (by omega), ha 3 (by omega), hb 0 (by omega), hb 1 (by omega),
    hb 2 (by omega), hb 3 (by omega)]
  exact hs

theorem call_stable {k : Kind} {inp : In} {row : ℤ} (h : SameRows t t' row k.rows)
    (ha : ∀ i < 4, (inp.a i).value t' = (inp.a i).value t) (hb : ∀ i < 4, (inp.b i).value t' = (inp.b i).value t)
    (hs : Sat t (k.circuit c inp row)) : Sat t' (k.circuit c inp row) := by
  cases k with
  | add =>
    have h : SameRows t t' row 4 := h
    have a0 : ∀ i, t' .witness i (row + 1 + -1) = t .witness i (row + 1 + -1) :=
      fun i => h i _ (by omega) (by omega)
    have a1 : ∀ i, t' .witness i (row + 1 + 0) = t .witness i (row + 1 + 0) :=
      fun i => h i _ (by omega) (by omega)
    have a2 : ∀ i, t' .witness i (row + 1 + 1) = t .witness i (row + 1 + 1) :=
      fun i => h i _ (by omega) (by omega)
    simp only [Kind.circuit, Ed25519.addCircuit, sat_cons, sat_append] at hs ⊢
    obtain ⟨hg, hc, hr⟩ := hs
    refine ⟨?_, addCopies_stable h ha hb hc, range_stable (h.mono (by omega) (by omega)) (fun i _ => ?_) hr⟩
    · simp only [addGate, holds_gate, List.mem_singleton, forall_eq, List.forall_mem_cons, Expr.eval_sub, Expr.eval_add,
        Expr.eval_mul, Cols.eval_wv, sh, Expr.eval_const, composeE, Expr.eval_one] at hg ⊢
      simp only [a0, a1, a2]
      exact hg
    · exact h _ (row + 2) (by omega) (by omega)
  | sub =>
    have h : SameRows t t' row 4 := h
    have a0 : ∀ i, t' .witness i (row + 1 + -1) = t .witness i (row + 1 + -1) :=
      fun i => h i _ (by omega) (by omega)
    have a1 : ∀ i, t' .witness i (row + 1 + 0) = t .witness i (row + 1 + 0) :=
      fun i => h i _ (by omega) (by omega)
    have a2 : ∀ i, t' .witness i (row + 1 + 1) = t .witness i (row + 1 + 1) :=
      fun i => h i _ (by omega) (by omega)
    simp only [Kind.circuit, Ed25519.subCircuit, sat_cons, sat_append] at hs ⊢
    obtain ⟨hg, hc, hr⟩ := hs
    refine ⟨?_, addCopies_stable h ha hb hc, range_stable (h.mono (by omega) (by omega)) (fun i _ => ?_) hr⟩
    · simp only [subGate, holds_gate, List.mem_singleton, forall_eq, List.forall_mem_cons, Expr.eval_sub, Expr.eval_add,
        Expr.eval_mul, Cols.eval_wv, sh, Expr.eval_const, composeE, Expr.eval_one] at hg ⊢
      simp only [a0, a1, a2]
      exact hg
    · exact h _ (row + 2) (by omega) (by omega)
  | mul =>
    have h : SameRows t t' row 7 := h
    have a0 : ∀ i, t' .witness i (row + 5 + -1) = t .witness i (row + 5 + -1) :=
      fun i => h i _ (by omega) (by omega)
    have a1 : ∀ i, t' .witness i (row + 5 + 0) = t .witness i (row + 5 + 0) :=
      fun i => h i _ (by omega) (by omega)
    have a2 : ∀ i, t' .witness i (row + 5 + 1) = t .witness i (row + 5 + 1) :=
      fun i => h i _ (by omega) (by omega)
    have a4 : ∀ i, t' .witness i (row + 4) = t .witness i (row + 4) :=
      fun i => h i _ (by omega) (by omega)
    simp only [Kind.circuit, Ed25519.mulCircuit, sat_cons, sat_append] at hs ⊢
    obtain ⟨hg, ⟨hc, hq⟩, hr⟩ := hs
    refine ⟨?_, ⟨?_, range_stable (h.mono (by omega) (by omega)) (fun i hi => ?_) hq⟩,
      range_stable (h.mono (by omega) (by omega)) (fun i _ => ?_) hr⟩
    · simp only [mulGate, mulT, holds_gate, List.mem_singleton, forall_eq, List.forall_mem_cons, Expr.eval_sub,
        Expr.eval_add, Expr.eval_mul, Cols.eval_wv, sh, Expr.eval_const, composeE, Expr.eval_one] at hg ⊢
      simp only [a0, a1, a2]
      exact hg
    · simp only [mulCopies, List.range, List.range.loop, List.map_cons, List.map_nil, List.cons_append, List.nil_append,
        sat_cons, holds_copy, Cols.value_wa, sat_nil, and_true] at hc ⊢
      simp only [a4, ha 0 (by omega), ha 1 (by omega), ha 2 (by omega), ha 3 (by omega), hb 0 (by omega), hb 1 (by omega),
        hb 2 (by omega), hb 3 (by omega)]
      exact hc
    · unfold mulQ
      split_ifs
      · exact a4 _
      · exact h _ (row + 5) (by omega) (by omega)
    · exact h _ (row + 5) (by omega) (by omega)

theorem limbs_stable {v : ℕ → Var} {x : ℕ} (h : ∀ i < 4, (v i).value t' = (v i).value t) (hl : Limbs t v x) : Limbs t' v x := by
  obtain ⟨l0, l1, l2, l3, h0, h1, h2, h3, e0, e1, e2, e3, e⟩ := hl
  exact ⟨l0, l1, l2, l3, h0, h1, h2, h3, by rw [h 0 (by omega), e0], by rw [h 1 (by omega), e1], by rw [h 2 (by omega), e2],
    by rw [h 3 (by omega), e3], e⟩

end stable

/-! ### Completeness -/

/-- A call on reduced numbers. -/
def Kind.nat : Kind → ℕ → ℕ → ℕ
  | mul, x, y => x * y % modulus
  | add, x, y => (x + y) % modulus
  | sub, x, y => (x + (modulus - y)) % modulus

/-- A program on reduced numbers. -/
def nats : List Call → ℕ → (ℕ → ℕ) → ℕ → ℕ
  | [], _, v => v
  | q :: l, k, v => nats l (k + 1) (Function.update v k (q.kind.nat (v q.a) (v q.b)))

/-- Subtraction can be assigned (`Ed25519.sub_complete_partial`). -/
def Kind.Low : Kind → ℕ → ℕ → Prop
  | sub, x, y => y ≤ x ∨ y % 2 ^ 66 ≤ x % 2 ^ 66 + (2 ^ 66 - 19)
  | _, _, _ => True

/-- All the subtractions of a program can be assigned. -/
def Low : List Call → ℕ → (ℕ → ℕ) → Prop
  | [], _, _ => True
  | q :: l, k, v => q.kind.Low (v q.a) (v q.b) ∧ Low l (k + 1) (Function.update v k (q.kind.nat (v q.a) (v q.b)))

theorem modulus_pos : 0 < modulus := by rw [modulus_val]; norm_num

theorem nat_lt (k : Kind) (x y : ℕ) : k.nat x y < modulus := by
  cases k <;> exact Nat.mod_lt _ modulus_pos

theorem nat_cast (k : Kind) {x y : ℕ} (hy : y < modulus) :
    ((k.nat x y : ℕ) : ZMod modulus) = k.eval (x : ZMod modulus) y := by
  cases k with
  | mul => simp only [Kind.nat, Kind.eval, ZMod.natCast_mod, Nat.cast_mul]
  | add => simp only [Kind.nat, Kind.eval, ZMod.natCast_mod, Nat.cast_add]
  | sub =>
    simp only [Kind.nat, Kind.eval, ZMod.natCast_mod, Nat.cast_add]
    rw [Nat.cast_sub hy.le, ZMod.natCast_self]
    ring

theorem nats_values (l : List Call) : ∀ (k : ℕ) (v : ℕ → ℕ), Fits l k → (∀ i < k, v i < modulus) →
    ∀ i, (nats l k v i : ZMod modulus) = values l k (fun j => (v j : ZMod modulus)) i := by
  induction l with
  | nil => intro k v _ _ i; rfl
  | cons q l ih =>
    intro k v hf hv i
    rw [nats, values, ih (k + 1) _ hf.2.2 (fun j hj => ?_) i]
    · congr 1
      funext j
      rcases eq_or_ne j k with rfl | hne
      · rw [Function.update_self, Function.update_self, nat_cast _ (hv _ hf.2.1)]
      · rw [Function.update_of_ne hne, Function.update_of_ne hne]
    · rcases eq_or_ne j k with rfl | hne
      · rw [Function.update_self]; exact nat_lt _ _ _
      · rw [Function.update_of_ne hne]; exact hv j (by omega)

theorem nats_lt (l : List Call) : ∀ (k : ℕ) (v : ℕ → ℕ), (∀ i < k, v i < modulus) → ∀ i < k + l.length, nats l k v i < modulus := by
  induction l with
  | nil => intro k v h i hi; exact h i hi
  | cons q l ih =>
    intro k v hv i hi
    rw [nats]
    refine ih (k + 1) _ (fun j hj => ?_) i (by rw [List.length_cons] at hi; omega)
    rcases eq_or_ne j k with rfl | hne
    · rw [Function.update_self]; exact nat_lt _ _ _
    · rw [Function.update_of_ne hne]; exact hv j (by omega)

/-- Later calls do not touch earlier registers. -/
theorem nats_keep (l : List Call) : ∀ (k : ℕ) (v : ℕ → ℕ) (i : ℕ), i < k → nats l k v i = v i := by
  induction l with
  | nil => intro k v i _; rfl
  | cons q l ih => intro k v i hi; rw [nats, ih _ _ _ (by omega), Function.update_of_ne (by omega)]

section complete
variable {n : ℕ} [Fact n.Prime] {c : Cols}

theorem call_complete (hn : 2 ^ 254 < n) (hc : c.OK 9) (hid : ∀ i : ℕ, i < 4 → c.w i = i) (k : Kind) {inp : In} {row : ℤ}
    {t : Table (ZMod n)} {x y : ℕ} (hx : Limbs t inp.a x) (hy : Limbs t inp.b y) (hxp : x < modulus) (hyp : y < modulus)
    (hlow : k.Low x y) (hoa : ∀ i, i < 4 → (inp.a i).Outside row k.rows) (hob : ∀ i, i < 4 → (inp.b i).Outside row k.rows) :
    let t' := k.assign c inp row t
    Sat t' (k.circuit c inp row) ∧ Limbs t' (k.result c row) (k.nat x y) ∧ k.Widths t' c row ∧
      Frame c row k.rows t t' := by
  cases k with
  | mul =>
    obtain ⟨h1, h2, h3, h4, h5, h6, h7⟩ := mul_complete hn hc hx hy hxp hyp hoa hob
    exact ⟨h1, h2, ⟨h3, h4, h5, h6⟩, h7⟩
  | add =>
    obtain ⟨h1, h2, h3, h4, h5⟩ := add_complete_partial hn hc hid hx hy hxp hyp hoa hob
    exact ⟨h1, h2, ⟨h3, h4⟩, h5⟩
  | sub =>
    obtain ⟨h1, h2, h3, h4, h5⟩ := sub_complete_partial hn hc hid hx hy hxp hyp hlow hoa hob
    exact ⟨h1, h2, ⟨h3, h4⟩, h5⟩

theorem result_outside (k : Kind) (row : ℤ) (m : ℕ) (i : ℕ) : (k.result c row i).Outside (row + k.rows) m := by
  intro _
  left
  cases k <;> simp [Kind.result, Kind.rows, mulResult, addResult, Cols.wa]

theorem prog_complete (hn : 2 ^ 254 < n) (hc : c.OK 9) (hid : ∀ i : ℕ, i < 4 → c.w i = i) (l : List Call) :
    ∀ (k : ℕ) (R : Regs) (row : ℤ) (v : ℕ → ℕ) (t : Table (ZMod n)), Fits l k → (∀ i < k, Limbs t (R i) (v i)) →
    (∀ i < k, v i < modulus) → (∀ i < k, ∀ j < 4, (R i j).Outside row (rows l)) → Low l k v →
    let t' := assigns c l k R row t
    Sat t' (circuits c l k R row) ∧ (∀ i < k + l.length, Limbs t' (regs c l k R row i) (nats l k v i)) ∧
      Widths t' c l row ∧ Frame c row (rows l) t t' := by
  induction l with
  | nil => intro k R row v t _ h _ _ _; exact ⟨by simp [circuits], h, trivial, Frame.refl _ _ _ _⟩
  | cons q l ih =>
    intro k R row v t hf h hv ho hlow
    have hrows : rows (q :: l) = q.kind.rows + rows l := rfl
    obtain ⟨s1, s2, s3, s4⟩ := call_complete hn hc hid q.kind (inp := ⟨R q.a, R q.b⟩) (row := row) (h _ hf.1) (h _ hf.2.1)
      (hv _ hf.1) (hv _ hf.2.1) hlow.1 (fun i hi => Var.Outside.mono (ho _ hf.1 i hi) (by omega) (by rw [hrows]; push_cast; omega))
      (fun i hi => Var.Outside.mono (ho _ hf.2.1 i hi) (by omega) (by rw [hrows]; push_cast; omega))
    set t1 := q.kind.assign c ⟨R q.a, R q.b⟩ row t with ht1
    have hR : ∀ i < k + 1, ∀ j < 4, (Function.update R k (q.kind.result c row) i j).Outside (row + q.kind.rows) (rows l) := by
      intro i hi j hj
      rcases eq_or_ne i k with rfl | hne
      · rw [Function.update_self]; exact result_outside _ _ _ _
      · rw [Function.update_of_ne hne]
        exact Var.Outside.mono (ho i (by omega) j hj) (by omega) (by rw [hrows]; push_cast; omega)
    obtain ⟨i1, i2, i3, i4⟩ := ih (k + 1) (Function.update R k (q.kind.result c row)) (row + q.kind.rows)
      (Function.update v k (q.kind.nat (v q.a) (v q.b))) t1 hf.2.2 (fun i hi => by
        rcases eq_or_ne i k with rfl | hne
        · rw [Function.update_self, Function.update_self]; exact s2
        · rw [Function.update_of_ne hne, Function.update_of_ne hne]
          refine limbs_stable (fun j hj => s4.outside ?_) (h i (by omega))
          exact Var.Outside.mono (ho i (by omega) j hj) (by omega) (by rw [hrows]; push_cast; omega)) (fun i hi => by
        rcases eq_or_ne i k with rfl | hne
        · rw [Function.update_self]; exact nat_lt _ _ _
        · rw [Function.update_of_ne hne]; exact hv i (by omega)) hR hlow.2
    have same : SameRows t1 (assigns c l (k + 1) (Function.update R k (q.kind.result c row)) (row + q.kind.rows) t1) row
        q.kind.rows := fun i r h1 h2 => i4.row (by omega) _ _
    have op : ∀ i < k, ∀ j < 4, (R i j).value
        (assigns c l (k + 1) (Function.update R k (q.kind.result c row)) (row + q.kind.rows) t1) = (R i j).value t1 := by
      intro i hi j hj
      refine i4.outside ?_
      exact Var.Outside.mono (ho i hi j hj) (by omega) (by rw [hrows]; push_cast; omega)
    intro t'
    refine ⟨?_, fun i hi => i2 i (by rw [List.length_cons] at hi; omega), ⟨s3.stable same, i3⟩, ?_⟩
    · rw [circuits, sat_append]
      exact ⟨call_stable same (op _ hf.1) (op _ hf.2.1) s1, i1⟩
    · rw [hrows]
      exact (s4.mono (by omega) (by push_cast; omega)).trans (i4.mono (by omega) (by push_cast; omega))

/-! ### A coordinate written and range checked -/

theorem putLimbs_spec (hn : 2 ^ 254 < n) (hc : c.OK 9) (row : ℤ) {x : ℕ} (hx : x < modulus) (t : Table (ZMod n)) :
    let t' := putLimbs c row x t
    Sat t' (rangeCircuit c (limbVars c row) row) ∧ Limbs t' (limbVars c row) x ∧ RangeCells t' c row ∧ Frame c row 2 t t' := by
  intro t'
  have hx255 : x < 2 ^ 255 := hx.trans (by rw [modulus_val]; norm_num)
  obtain ⟨l3, le⟩ := limb_num hx255
  set ws : List (Write (ZMod n)) := (List.range 4).map fun j : ℕ => ⟨.witness, c.w j, row, (limb x j : ZMod n)⟩ with hws
  have hg : GridWrites c row 9 1 (fun _ j => (limb x j : ZMod n)) ws := by
    intro w hw
    rw [hws] at hw
    simp only [List.mem_map, List.mem_range] at hw
    obtain ⟨j, hj, rfl⟩ := hw
    exact ⟨0, by omega, j, by omega, by simp⟩
  have rd : ∀ j : ℕ, j < 4 → writeAll ws t .witness (c.w j) row = (limb x j : ZMod n) := by
    intro j hj
    have := hg.read hc t (r := 0) (j := j) (by omega) (by
      rw [hws]; simp only [List.mem_map, List.mem_range]
      exact ⟨j, hj, by simp⟩)
    simpa using this
  have hfr : Frame c row 2 t (writeAll ws t) := ((hg.own hc).frame t).mono (by omega) (by push_cast; omega)
  have hv : ∀ i, i < 4 → ((limbVars c row i).value (writeAll ws t)).val = limb x i := by
    intro i hi
    have : (limbVars c row i).value (writeAll ws t) = (limb x i : ZMod n) := rd i hi
    rw [this, ZMod.val_cast_of_lt]
    have := limb_lt x i
    omega
  have hat := (rangeAssign_at hc (limbVars c row) row (writeAll ws t)).congr hv
  have h57 : limb x 3 < 2 ^ 57 := l3
  refine ⟨rangeCircuit_sat (hat.gate (limb_lt _ _) (limb_lt _ _) (limb_lt _ _) h57 ?_) fun i hi => rfl, ?_, hat.cells, ?_⟩
  · have hch : chunk (fun i => ((limbVars c row i).value (writeAll ws t)).val) 0 = chunk (limb x) 0 := by
      simp only [chunk]
      rw [hv _ (by decide)]
    rw [hch]
    exact flag_ok hn (limb_lt _ _) (limb_lt _ _) (limb_lt _ _) h57 (by rw [← le]; exact hx)
  · exact hat.limbs hx255
  · exact hfr.trans (rangeAssign_frame hc _ _ _)

end complete

end EdCurve
end Verif
