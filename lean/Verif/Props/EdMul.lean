import Verif.Model.EdMul
import Verif.Core.EdGroup
import Verif.Props.EdDouble
import Verif.Props.BoolScalarMul
import Verif.Props.BitBuilder

/-!
# Scalar multiplication on Ed25519: properties

The group is `TEd.Point` of `Core/EdGroup.lean`: pairs of elements of the field `ZMod (2^255 - 19)` on the curve, with the group law of twisted
Edwards curves, independent of the model. A point of the group is held by eight cells when these are limbs of two numbers whose residues are
its coordinates.
-/

set_option linter.unusedSectionVars false

namespace Verif
namespace EdMul

open Ed25519 EdCurve

/-- The group of the curve. -/
abbrev G : Type := TEd.Point (Edwards.Complete.ted complete)

section sound
variable {n : ℕ} [Fact n.Prime] {t : Table (ZMod n)} {c : Cols}

/-- The cells hold the point `P`. -/
def Holds (t : Table (ZMod n)) (vx vy : ℕ → Var) (P : G) : Prop :=
  ∃ x y : ℕ, Limbs t vx x ∧ Limbs t vy y ∧ (x : ZMod modulus) = P.1.1 ∧ (y : ZMod modulus) = P.1.2

theorem on_of {P : G} {x y : ℕ} (hx : (x : ZMod modulus) = P.1.1) (hy : (y : ZMod modulus) = P.1.2) :
    Edwards.On (dInt : ZMod modulus) x y := by
  rw [hx, hy]; exact (Edwards.on_iff_ted _ _ _).2 P.2

theorem sum_coords {P Q : G} {x1 y1 x2 y2 : ℕ} (hx1 : (x1 : ZMod modulus) = P.1.1) (hy1 : (y1 : ZMod modulus) = P.1.2)
    (hx2 : (x2 : ZMod modulus) = Q.1.1) (hy2 : (y2 : ZMod modulus) = Q.1.2) :
    (P + Q).1 = (Edwards.addX (dInt : ZMod modulus) x1 y1 x2 y2, Edwards.addY (dInt : ZMod modulus) x1 y1 x2 y2) := by
  rw [TEd.Point.coe_add, hx1, hy1, hx2, hy2, ← Edwards.add_eq_ted]

theorem add_holds (hodd : n % 2 = 1) (hn : 2 ^ 254 < n) {inp : AddIn} {srow : ℤ} {P Q : G}
    (h : Sat t (EdCurve.addCircuit c inp srow)) (hw : AddWidths t c srow)
    (hP : Holds t inp.tx inp.ty P) (hQ : Holds t inp.rx inp.ry Q) :
    Holds t (resultX c srow) (resultY c srow) (P + Q) := by
  obtain ⟨x1, y1, lx1, ly1, ex1, ey1⟩ := hP
  obtain ⟨x2, y2, lx2, ly2, ex2, ey2⟩ := hQ
  obtain ⟨x, y, lx, ly, ex, ey⟩ := add_sound hodd hn h hw lx1 ly1 lx2 ly2 (on_of ex1 ey1) (on_of ex2 ey2)
  have := sum_coords ex1 ey1 ex2 ey2
  exact ⟨x, y, lx, ly, by rw [ex, this], by rw [ey, this]⟩

theorem dbl_holds (hodd : n % 2 = 1) (hn : 2 ^ 254 < n) {inp : DblIn} {srow : ℤ} {P : G}
    (h : Sat t (dblCircuit c inp srow)) (hw : DblWidths t c srow) (hm : DblMissing t c srow)
    (hP : Holds t inp.tx inp.ty P) :
    Holds t (resultX c srow) (resultY c srow) (2 • P) := by
  obtain ⟨x1, y1, lx1, ly1, ex1, ey1⟩ := hP
  obtain ⟨x, y, lx, ly, ex, ey⟩ := dbl_sound_copies hodd hn h hw hm lx1 ly1 (on_of ex1 ey1)
  have := sum_coords ex1 ey1 ex1 ey1
  rw [two_nsmul]
  exact ⟨x, y, lx, ly, by rw [ex, this], by rw [ey, this]⟩

theorem limbs_congr {v v' : ℕ → Var} {t' : Table (ZMod n)} {x : ℕ} (hx : ∀ i < 4, (v' i).value t' = (v i).value t) (h : Limbs t v x) :
    Limbs t' v' x := by
  obtain ⟨l0, l1, l2, l3, h0, h1, h2, h3, e0, e1, e2, e3, e⟩ := h
  exact ⟨l0, l1, l2, l3, h0, h1, h2, h3, by rw [hx 0 (by omega), e0], by rw [hx 1 (by omega), e1],
    by rw [hx 2 (by omega), e2], by rw [hx 3 (by omega), e3], e⟩

theorem holds_congr {v w v' w' : ℕ → Var} {t' : Table (ZMod n)} {P : G} (hx : ∀ i < 4, (v' i).value t' = (v i).value t)
    (hy : ∀ i < 4, (w' i).value t' = (w i).value t) (h : Holds t v w P) : Holds t' v' w' P := by
  obtain ⟨x, y, lx, ly, e⟩ := h
  exact ⟨x, y, limbs_congr hx lx, limbs_congr hy ly, e⟩

theorem holds_zero {v w : ℕ → Var} (hx : ∀ i < 4, (v i).value t = 0) (h0 : (w 0).value t = 1)
    (hy : ∀ i, 0 < i → i < 4 → (w i).value t = 0) : Holds t v w 0 := by
  refine ⟨0, 1, ⟨0, 0, 0, 0, by norm_num, by norm_num, by norm_num, by norm_num, by simp [hx 0], by simp [hx 1], by simp [hx 2],
    by simp [hx 3], by simp [num]⟩, ⟨1, 0, 0, 0, by norm_num, by norm_num, by norm_num, by norm_num, by simp [h0], by simp [hy 1],
    by simp [hy 2], by simp [hy 3], by simp [num]⟩, ?_, ?_⟩ <;> simp [TEd.Point.coe_zero]

theorem bool_holds {inp : BoolScalarMul.In} {srow : ℤ} {P : G} (h : Sat t (BoolScalarMul.circuit c inp srow))
    (hP : Holds t inp.x inp.y P) :
    ∃ b : Bool, inp.k.value t = (b.toNat : ZMod n) ∧
      Holds t (BoolScalarMul.resultX c srow) (BoolScalarMul.resultY c srow) (b.toNat • P) := by
  rcases BoolScalarMul.bool_sound c inp srow t h with ⟨hk, hx, h0, hy⟩ | ⟨hk, hxy⟩
  · refine ⟨false, by simpa using hk, ?_⟩
    rw [Bool.toNat_false, zero_nsmul]
    exact holds_zero hx h0 hy
  · refine ⟨true, by simpa using hk, ?_⟩
    rw [Bool.toNat_true, one_nsmul]
    exact holds_congr (fun i hi => (hxy i hi).1) (fun i hi => (hxy i hi).2) hP

/-- What the circuit of a step leaves unconstrained: the widths of the range checks of the arithmetic sub-components and the two
limbs doubling does not compare. -/
def BitAbsent (t : Table (ZMod n)) (c : Cols) (srow : ℤ) : Prop :=
  DblWidths t c (srow + 2) ∧ DblMissing t c (srow + 2) ∧ AddWidths t c (srow + 65)

/-- The columns of the component begin with the columns of the table. -/
def FirstCols (c : Cols) : Prop := ∀ i : ℕ, i < 4 → c.w i = i

theorem resultX_eq (hid : FirstCols c) (t : Table (ZMod n)) (srow : ℤ) (i : ℕ) (hi : i < 4) :
    (bitResultX srow i).value t = (resultX c (srow + 65) i).value t := by
  have e : srow + (bitRows : ℤ) - (addRows : ℤ) = srow + 65 := by
    have : (bitRows : ℤ) = 141 := rfl
    have : (addRows : ℤ) = 76 := rfl
    omega
  have hw : resCols.w (i : ℤ) = i := by interval_cases i <;> rfl
  simp only [bitResultX, resultX, limbVars, Cols.value_wa, e, hid i hi, hw]

theorem resultY_eq (hid : FirstCols c) (t : Table (ZMod n)) (srow : ℤ) (i : ℕ) (hi : i < 4) :
    (bitResultY srow i).value t = (resultY c (srow + 65) i).value t := by
  have e : srow + (bitRows : ℤ) - (addRows : ℤ) = srow + 65 := by
    have : (bitRows : ℤ) = 141 := rfl
    have : (addRows : ℤ) = 76 := rfl
    omega
  have hw : resCols.w (i : ℤ) = i := by interval_cases i <;> rfl
  simp only [bitResultY, resultY, limbVars, Cols.value_wa, e, hid i hi, hw]

/-- **C112**, soundness with the absent constraints: a step outputs `2 R + k T`, and `k` is a bit. -/
theorem bit_sound_partial (hodd : n % 2 = 1) (hn : 2 ^ 254 < n) (hid : FirstCols c) {inp : BitIn} {srow : ℤ} {T R : G}
    (h : Sat t (bitCircuit c inp srow)) (hw : BitAbsent t c srow) (hT : Holds t inp.tx inp.ty T) (hR : Holds t inp.rx inp.ry R) :
    ∃ b : Bool, inp.k.value t = (b.toNat : ZMod n) ∧
      Holds t (bitResultX srow) (bitResultY srow) (2 • R + b.toNat • T) := by
  simp only [bitCircuit, sat_append] at h
  obtain ⟨h1, h2, h3⟩ := h
  obtain ⟨b, hb, hB⟩ := bool_holds h1 (P := T) hT
  have hD := dbl_holds hodd hn h2 hw.1 hw.2.1 (P := R) hR
  refine ⟨b, hb, ?_⟩
  exact holds_congr (resultX_eq hid t srow) (resultY_eq hid t srow) (add_holds hodd hn h3 hw.2.2 (P := 2 • R) (Q := b.toNat • T) hD hB)

/-- The number with the bits `b 0` (first) to `b m`. -/
def acc (b : ℕ → Bool) : ℕ → ℕ
  | 0 => (b 0).toNat
  | m + 1 => 2 * acc b m + (b (m + 1)).toNat

theorem acc_shift (k j : ℕ) : ∀ m, m ≤ j → acc (fun i => k.testBit (j - i)) m = k / 2 ^ (j - m) % 2 ^ (m + 1)
  | 0, _ => by simp [acc, Nat.toNat_testBit]
  | m + 1, h => by
    obtain ⟨l, rfl⟩ : ∃ l, j = l + m + 1 := ⟨j - m - 1, by omega⟩
    have e1 : l + m + 1 - m = l + 1 := by omega
    have e2 : l + m + 1 - (m + 1) = l := by omega
    rw [acc, acc_shift k _ m (by omega), Nat.toNat_testBit, e1, e2, pow_succ, ← Nat.div_div_eq_div_mul, pow_succ _ (m + 1)]
    have := Nat.mod_mul (x := k / 2 ^ l) (a := 2) (b := 2 ^ (m + 1))
    rw [mul_comm (2 ^ (m + 1)) 2, this]
    omega

/-- What the circuit of multiplication leaves unconstrained. -/
def MulAbsent (t : Table (ZMod n)) (c : Cols) (bits : ℕ) (srow : ℤ) (m : ℕ) : Prop :=
  ∀ i < m, BitAbsent t c (stepRow bits srow i)

/-- Where the running result is after `m` steps. -/
def accX (c : Cols) (bits : ℕ) (srow : ℤ) : ℕ → ℕ → Var
  | 0 => BoolScalarMul.resultX c (srow + decRows bits)
  | m + 1 => bitResultX (stepRow bits srow m)
@[inherit_doc accX] def accY (c : Cols) (bits : ℕ) (srow : ℤ) : ℕ → ℕ → Var
  | 0 => BoolScalarMul.resultY c (srow + decRows bits)
  | m + 1 => bitResultY (stepRow bits srow m)

theorem stepIn_eq (c : Cols) (bits : ℕ) (msb : Bool) (inp : MulIn) (srow : ℤ) (m : ℕ) :
    stepIn c bits msb inp srow m = ⟨inp.tx, inp.ty, accX c bits srow m, accY c bits srow m, bitVar c bits msb srow (m + 1)⟩ := by
  cases m <;> rfl

theorem toNat_cast_inj (hn : 2 ^ 254 < n) {b b' : Bool} (h : (b.toNat : ZMod n) = (b'.toNat : ZMod n)) : b = b' := by
  have := cast_inj hn (by cases b <;> norm_num) (by cases b' <;> norm_num) h
  cases b <;> cases b' <;> simp_all

theorem prefix_sound (hodd : n % 2 = 1) (hn : 2 ^ 254 < n) (hid : FirstCols c) {bits : ℕ} {msb : Bool} {inp : MulIn} {srow : ℤ}
    {T : G} {b : ℕ → Bool} {N : ℕ} (hb : ∀ i ≤ N, (bitVar c bits msb srow i).value t = ((b i).toNat : ZMod n))
    (hT : Holds t inp.tx inp.ty T) : ∀ m ≤ N, Sat t (mulPrefix c bits msb inp srow m) → MulAbsent t c bits srow m →
      Holds t (accX c bits srow m) (accY c bits srow m) (acc b m • T)
  | 0, _, h, _ => by
    simp only [mulPrefix, sat_append] at h
    obtain ⟨b0, e, hB⟩ := bool_holds h.2 (P := T) hT
    have : b0 = b 0 := toNat_cast_inj hn (e.symm.trans (hb 0 (by omega)))
    subst this
    exact hB
  | m + 1, hm, h, ha => by
    simp only [mulPrefix, sat_append] at h
    have ih := prefix_sound hodd hn hid hb hT m (by omega) h.1 fun i hi => ha i (by omega)
    have hs := h.2
    rw [stepIn_eq] at hs
    obtain ⟨b', e, hB⟩ := bit_sound_partial hodd hn hid hs (ha m (by omega)) (T := T) (R := acc b m • T) hT ih
    have : b' = b (m + 1) := toNat_cast_inj hn (e.symm.trans (hb (m + 1) (by omega)))
    subst this
    rw [acc, add_nsmul, mul_comm, mul_nsmul]
    exact hB

theorem mulResult_eq (bits : ℕ) (srow : ℤ) :
    mulResultX bits srow = accX c bits srow 252 ∧ mulResultY bits srow = accY c bits srow 252 := by
  have e : srow + (mulRows bits : ℤ) - (bitRows : ℤ) = stepRow bits srow 251 := by
    have : (bitRows : ℤ) = 141 := rfl
    simp only [mulRows, stepRow]
    push_cast
    omega
  exact ⟨by simp only [mulResultX, accX, e], by simp only [mulResultY, accY, e]⟩

theorem size_gt (hn : 2 ^ 254 < n) : 254 < Nat.size n := Nat.lt_size.2 hn.le

/-- What multiplication computes in either mode. -/
theorem mul_holds (hodd : n % 2 = 1) (hn : 2 ^ 254 < n) (hid : FirstCols c) (hk0 : c.k 0 = 0) {bits : ℕ} (h1 : 253 ≤ bits) (h2 : bits ≤ 254)
    {msb : Bool} {inp : MulIn} {srow : ℤ} {T : G} (h : Sat t (mulCircuit c bits msb inp srow)) (ha : MulAbsent t c bits srow 252)
    (hT : Holds t inp.tx inp.ty T) :
    (inp.k.value t).val < 2 ^ bits ∧ Holds t (mulResultX bits srow) (mulResultY bits srow)
      (acc (fun i => (inp.k.value t).val.testBit (bitWeight msb bits i)) 252 • T) := by
  have h0 : ∀ m, Sat t (mulPrefix c bits msb inp srow m) → Sat t (mulPrefix c bits msb inp srow 0) := by
    intro m
    induction m with
    | zero => exact id
    | succ m ih => intro h; exact ih (by simp only [mulPrefix, sat_append] at h ⊢; exact h.1)
  have hd := h0 252 h
  simp only [mulPrefix, sat_append] at hd
  obtain ⟨hlt, hb⟩ := bitDecomp_sound c 9 bits (by omega) (by omega) (by have := size_gt hn; omega) hk0 msb inp.k srow t hd.1
  refine ⟨hlt, ?_⟩
  obtain ⟨ex, ey⟩ := mulResult_eq (c := c) bits srow
  rw [ex, ey]
  refine prefix_sound hodd hn hid (N := 252) (fun i hi => ?_) hT 252 le_rfl h ha
  rw [bitVar, hb i (by omega)]
  cases (inp.k.value t).val.testBit (bitWeight msb bits i) <;> simp

/-- **C113**, soundness with the absent constraints, for the default of 253 bits, most significant first: the output is `k T` and `k < 2^253`. -/
theorem mul_sound_partial (hodd : n % 2 = 1) (hn : 2 ^ 254 < n) (hid : FirstCols c) (hk0 : c.k 0 = 0) {inp : MulIn} {srow : ℤ} {T : G}
    (h : Sat t (mulCircuit c 253 true inp srow)) (ha : MulAbsent t c 253 srow 252) (hT : Holds t inp.tx inp.ty T) :
    (inp.k.value t).val < 2 ^ 253 ∧
      Holds t (mulResultX 253 srow) (mulResultY 253 srow) ((inp.k.value t).val • T) := by
  obtain ⟨h1, h2⟩ := mul_holds hodd hn hid hk0 (by omega) (by omega) h ha hT
  refine ⟨h1, ?_⟩
  have e : acc (fun i => (inp.k.value t).val.testBit (bitWeight true 253 i)) 252 = (inp.k.value t).val := by
    have := acc_shift (inp.k.value t).val 252 252 le_rfl
    simp only [Nat.sub_self, pow_zero, Nat.div_one] at this
    rw [Nat.mod_eq_of_lt h1] at this
    exact this
  rwa [e] at h2

/-- **C113**: with 254 bits the last bit is dropped: the output is `(k / 2) T`. -/
theorem mul_254 (hodd : n % 2 = 1) (hn : 2 ^ 254 < n) (hid : FirstCols c) (hk0 : c.k 0 = 0) {inp : MulIn} {srow : ℤ} {T : G}
    (h : Sat t (mulCircuit c 254 true inp srow)) (ha : MulAbsent t c 254 srow 252) (hT : Holds t inp.tx inp.ty T) :
    Holds t (mulResultX 254 srow) (mulResultY 254 srow) (((inp.k.value t).val / 2) • T) := by
  obtain ⟨h1, h2⟩ := mul_holds hodd hn hid hk0 (by omega) (by omega) h ha hT
  have e : acc (fun i => (inp.k.value t).val.testBit (bitWeight true 254 i)) 252 = (inp.k.value t).val / 2 := by
    have := acc_shift (inp.k.value t).val 253 252 (by omega)
    simp only [show 253 - 252 = 1 by norm_num, pow_one] at this
    rw [Nat.mod_eq_of_lt (by omega)] at this
    exact this
  rwa [e] at h2

theorem acc_first : ∀ m, acc (fun i => Nat.testBit 1 i) m = 2 ^ m
  | 0 => by simp [acc]
  | m + 1 => by
    rw [acc, acc_first m]
    have : Nat.testBit 1 (m + 1) = false := Nat.testBit_lt_two_pow (by have := Nat.one_lt_two_pow (n := m + 1) (by omega); omega)
    rw [this, pow_succ]; simp; ring

/-- **C113**: in the mode with the least significant bit first the order of the bits is not taken into account: for `k = 1` the output is
`2^252 T`. -/
theorem mul_lsb (hodd : n % 2 = 1) (hn : 2 ^ 254 < n) (hid : FirstCols c) (hk0 : c.k 0 = 0) {inp : MulIn} {srow : ℤ} {T : G}
    (h : Sat t (mulCircuit c 253 false inp srow)) (ha : MulAbsent t c 253 srow 252) (hT : Holds t inp.tx inp.ty T)
    (hk : inp.k.value t = 1) : Holds t (mulResultX 253 srow) (mulResultY 253 srow) (2 ^ 252 • T) := by
  obtain ⟨h1, h2⟩ := mul_holds hodd hn hid hk0 (by omega) (by omega) h ha hT
  have hv : (inp.k.value t).val = 1 := by
    rw [hk, ZMod.val_one'']
    have : 2 ^ 254 > 1 := by norm_num
    omega
  rw [hv] at h2
  have e : acc (fun i => Nat.testBit 1 (bitWeight false 253 i)) 252 = 2 ^ 252 := acc_first 252
  rwa [e] at h2

end sound

/-! ### The obligations of a part concern its rows, its inputs and constants -/

section stable
variable {F : Type*} [Field F] {t t' : Table F} {c : Cols}

theorem result_stable (k : Kind) {row : ℤ} (h : SameRows t t' row k.rows) (i : ℕ) :
    (k.result c row i).value t' = (k.result c row i).value t := by
  cases k with
  | mul => have h : SameRows t t' row 7 := h; exact h _ (row + 5) (by omega) (by omega)
  | add => have h : SameRows t t' row 4 := h; exact h _ (row + 2) (by omega) (by omega)
  | sub => have h : SameRows t t' row 4 := h; exact h _ (row + 2) (by omega) (by omega)

theorem circuits_stable : ∀ (l : List Call) (k : ℕ) (R : Regs) (row : ℤ), SameRows t t' row (EdCurve.rows l) →
    (∀ j, ∀ i < 4, (R j i).value t' = (R j i).value t) → Sat t (circuits c l k R row) → Sat t' (circuits c l k R row)
  | [], _, _, _, _, _, _ => by intro o ho; simp [circuits] at ho
  | q :: l, k, R, row, hs, hR, h => by
    simp only [circuits, sat_append] at h ⊢
    have e : EdCurve.rows (q :: l) = q.kind.rows + EdCurve.rows l := rfl
    rw [e] at hs
    have hq : SameRows t t' row q.kind.rows := hs.mono (by omega) (by push_cast; omega)
    refine ⟨call_stable hq (hR _) (hR _) h.1, circuits_stable l (k + 1) _ _ (hs.mono (by omega) (by push_cast; omega)) (fun j i hi => ?_) h.2⟩
    by_cases hj : j = k
    · subst hj; rw [Function.update_self]; exact result_stable q.kind hq i
    · rw [Function.update_of_ne hj]; exact hR j i hi

theorem widths_stable : ∀ (l : List Call) (row : ℤ), SameRows t t' row (EdCurve.rows l) → Widths t c l row → Widths t' c l row
  | [], _, _, _ => trivial
  | q :: l, row, hs, h => by
    have e : EdCurve.rows (q :: l) = q.kind.rows + EdCurve.rows l := rfl
    rw [e] at hs
    exact ⟨h.1.stable (hs.mono (by omega) (by push_cast; omega)), widths_stable l _ (hs.mono (by omega) (by push_cast; omega)) h.2⟩

theorem limbVars_stable {row : ℤ} (h : SameRows t t' row 1) (i : ℕ) : (limbVars c row i).value t' = (limbVars c row i).value t :=
  h _ row (by omega) (by omega)

theorem add_stable {inp : AddIn} {srow : ℤ} (hk : ∀ i r, t' .constant i r = t .constant i r) (h : SameRows t t' srow 76)
    (h1 : ∀ i < 4, (inp.tx i).value t' = (inp.tx i).value t) (h2 : ∀ i < 4, (inp.ty i).value t' = (inp.ty i).value t)
    (h3 : ∀ i < 4, (inp.rx i).value t' = (inp.rx i).value t) (h4 : ∀ i < 4, (inp.ry i).value t' = (inp.ry i).value t)
    (hs : Sat t (EdCurve.addCircuit c inp srow)) : Sat t' (EdCurve.addCircuit c inp srow) := by
  simp only [EdCurve.addCircuit, sat_append] at hs ⊢
  obtain ⟨s1, s2, s3, s4, s5⟩ := hs
  have l0 : ∀ i, (limbVars c srow i).value t' = (limbVars c srow i).value t := limbVars_stable (h.mono (by omega) (by omega))
  have l2 : ∀ i, (limbVars c (srow + 2) i).value t' = (limbVars c (srow + 2) i).value t := limbVars_stable (h.mono (by omega) (by omega))
  refine ⟨range_stable (h.mono (by omega) (by omega)) (fun i _ => l0 i) s1, range_stable (h.mono (by omega) (by omega)) (fun i _ => l2 i) s2,
    circuits_stable _ _ _ _ (h.mono (by omega) ?_) (fun j i hi => ?_) s3, ?_, ?_⟩
  · have : EdCurve.rows addProg = 72 := rfl
    rw [this]; push_cast; omega
  · match j with
    | 0 => exact h1 i hi
    | 1 => exact h2 i hi
    | 2 => exact h3 i hi
    | 3 => exact h4 i hi
    | 4 => exact l0 i
    | 5 => exact l2 i
    | j + 6 => exact hk _ _
  · simp only [addConsts, List.range, List.range.loop, List.map_cons, List.map_nil, sat_cons, holds_constant, sat_nil, and_true, hk] at s4 ⊢
    exact s4
  · have e : (addRows : ℤ) = 76 := rfl
    have a1 : ∀ i, t' .witness i (srow + 32 + 2) = t .witness i (srow + 32 + 2) := fun i => h i _ (by omega) (by omega)
    have a2 : ∀ i, t' .witness i (srow + 76 - 4 - 2) = t .witness i (srow + 76 - 4 - 2) := fun i => h i _ (by omega) (by omega)
    have a3 : ∀ i, t' .witness i (srow + 36 + 2) = t .witness i (srow + 36 + 2) := fun i => h i _ (by omega) (by omega)
    have a4 : ∀ i, t' .witness i (srow + 76 - 2) = t .witness i (srow + 76 - 2) := fun i => h i _ (by omega) (by omega)
    simp only [addCopyOut, List.range, List.range.loop, List.map_cons, List.map_nil, sat_cons, sat_append, holds_copy, sat_nil, and_true,
      Cols.value_wa, e, a1, a2, a3, a4] at s5 ⊢
    exact s5

theorem addWidths_stable {srow : ℤ} (h : SameRows t t' srow 76) (hw : AddWidths t c srow) : AddWidths t' c srow :=
  ⟨rangeCells_stable (h.mono (by omega) (by omega)) hw.1, rangeCells_stable (h.mono (by omega) (by omega)) hw.2.1,
    widths_stable _ _ (h.mono (by omega) (by
      have : EdCurve.rows addProg = 72 := rfl
      rw [this]; push_cast; omega)) hw.2.2⟩

theorem dbl_stable {inp : DblIn} {srow : ℤ} (h : SameRows t t' srow 63)
    (h1 : ∀ i < 4, (inp.tx i).value t' = (inp.tx i).value t) (h2 : ∀ i < 4, (inp.ty i).value t' = (inp.ty i).value t)
    (hs : Sat t (dblCircuit c inp srow)) : Sat t' (dblCircuit c inp srow) := by
  simp only [dblCircuit, sat_append] at hs ⊢
  obtain ⟨s1, s2, s3, s5⟩ := hs
  have l0 : ∀ i, (limbVars c srow i).value t' = (limbVars c srow i).value t := limbVars_stable (h.mono (by omega) (by omega))
  have l2 : ∀ i, (limbVars c (srow + 2) i).value t' = (limbVars c (srow + 2) i).value t := limbVars_stable (h.mono (by omega) (by omega))
  refine ⟨range_stable (h.mono (by omega) (by omega)) (fun i _ => l0 i) s1, range_stable (h.mono (by omega) (by omega)) (fun i _ => l2 i) s2,
    circuits_stable _ _ _ _ (h.mono (by omega) ?_) (fun j i hi => ?_) s3, ?_⟩
  · have : EdCurve.rows dblProg = 59 := rfl
    rw [this]; push_cast; omega
  · match j with
    | 0 => exact h1 i hi
    | 1 => exact h2 i hi
    | 2 => exact l0 i
    | j + 3 => exact l2 i
  · have a1 : ∀ i, t' .witness i (srow + 41 + 5) = t .witness i (srow + 41 + 5) := fun i => h i _ (by omega) (by omega)
    have a2 : ∀ i, t' .witness i (srow + 29 + 2) = t .witness i (srow + 29 + 2) := fun i => h i _ (by omega) (by omega)
    have a3 : ∀ i, t' .witness i (srow + 33 + 2) = t .witness i (srow + 33 + 2) := fun i => h i _ (by omega) (by omega)
    have a4 : ∀ i, t' .witness i (srow + 59 + 2) = t .witness i (srow + 59 + 2) := fun i => h i _ (by omega) (by omega)
    simp only [dblCopyOut, List.range, List.range.loop, List.map_cons, List.map_nil, sat_cons, sat_append, holds_copy, sat_nil, and_true,
      Cols.value_wa, a1, a2, a3, a4] at s5 ⊢
    exact s5

theorem dblWidths_stable {srow : ℤ} (h : SameRows t t' srow 63) (hw : DblWidths t c srow) : DblWidths t' c srow :=
  ⟨rangeCells_stable (h.mono (by omega) (by omega)) hw.1, rangeCells_stable (h.mono (by omega) (by omega)) hw.2.1,
    widths_stable _ _ (h.mono (by omega) (by
      have : EdCurve.rows dblProg = 59 := rfl
      rw [this]; push_cast; omega)) hw.2.2⟩

theorem dblMissing_stable {srow : ℤ} (h : SameRows t t' srow 63) (hw : DblMissing t c srow) : DblMissing t' c srow := by
  have a3 : ∀ i, t' .witness i (srow + 33 + 2) = t .witness i (srow + 33 + 2) := fun i => h i _ (by omega) (by omega)
  have a4 : ∀ i, t' .witness i (srow + 59 + 2) = t .witness i (srow + 59 + 2) := fun i => h i _ (by omega) (by omega)
  simp only [DblMissing, a3, a4] at hw ⊢
  exact hw

theorem bool_stable {inp : BoolScalarMul.In} {srow : ℤ} (h : SameRows t t' srow 2)
    (h1 : ∀ i < 4, (inp.x i).value t' = (inp.x i).value t) (h2 : ∀ i < 4, (inp.y i).value t' = (inp.y i).value t)
    (h3 : inp.k.value t' = inp.k.value t)
    (hs : Sat t (BoolScalarMul.circuit c inp srow)) : Sat t' (BoolScalarMul.circuit c inp srow) := by
  have a0 : ∀ i, t' .witness i srow = t .witness i srow := fun i => h i srow (by omega) (by omega)
  have a1 : ∀ i, t' .witness i (srow + 1) = t .witness i (srow + 1) := fun i => h i _ (by omega) (by omega)
  simp only [BoolScalarMul.circuit, BoolScalarMul.gate, BoolScalarMul.copies, sat_cons, sat_nil, holds_gate, holds_copy, List.mem_singleton,
    forall_eq, List.forall_mem_cons, Expr.eval_sub, Expr.eval_add, Expr.eval_mul, Expr.eval_one, Cols.eval_wv, Cols.value_wa,
    add_zero] at hs ⊢
  simp only [a0, a1, h1 0 (by omega), h1 1 (by omega), h1 2 (by omega), h1 3 (by omega), h2 0 (by omega), h2 1 (by omega),
    h2 2 (by omega), h2 3 (by omega), h3]
  exact hs

theorem val_stable {w R : ℕ} {srow : ℤ} (h : SameRows t t' srow R) {k : ℕ} (hk : k < w * R) :
    BitBuilder.val c w srow t' k = BitBuilder.val c w srow t k := by
  rw [BitBuilder.val_eq, BitBuilder.val_eq]
  have : ((k / w : ℕ) : ℤ) < R := by exact_mod_cast Nat.div_lt_of_lt_mul hk
  have h0 : (0 : ℤ) ≤ ((k / w : ℕ) : ℤ) := Int.natCast_nonneg _
  exact h _ _ (by linarith) (by linarith)

theorem out_lt {w bits : ℕ} (hw : 3 ≤ w) (hb : 0 < bits) (i : ℕ) (hi : i < bits) :
    BitBuilder.bitCell w (BitBuilder.padding w bits true + i) < w * BitBuilder.rows w bits true := by
  obtain ⟨G, hG0, -, hT, hR, -, -⟩ := BitBuilder.layout w bits true hw hb
  rw [hR]
  have hB : BitBuilder.bpg w + 2 = 3 * w := by unfold BitBuilder.bpg; omega
  have hL : BitBuilder.lastPos w = BitBuilder.bpg w + 1 := by unfold BitBuilder.lastPos BitBuilder.bpg; omega
  set j := BitBuilder.padding w bits true + i with hj
  have hjlt : j < BitBuilder.bpg w * G + 1 := by omega
  have e : w * (3 * G) = BitBuilder.bpg w * G + 2 * G := by rw [← add_mul, hB]; ring
  unfold BitBuilder.bitCell
  rw [e]
  split_ifs with h
  · have hd : (j - BitBuilder.lastPos w) / BitBuilder.bpg w < G - 1 := by
      rw [Nat.div_lt_iff_lt_mul (by omega), Nat.sub_mul, one_mul, mul_comm]
      omega
    omega
  · omega

theorem decomp_stable {w bits : ℕ} (hw : 3 ≤ w) (hb : 0 < bits) {x : Var} {srow : ℤ} (hk : ∀ i r, t' .constant i r = t .constant i r)
    (h : SameRows t t' srow (BitBuilder.rows w bits true)) (hx : x.value t' = x.value t)
    (hs : Sat t (BitDecomp.circuit c w bits x srow)) : Sat t' (BitDecomp.circuit c w bits x srow) := by
  obtain ⟨G, hG0, hS, hT, hR, hp, -⟩ := BitBuilder.layout w bits true hw hb
  have hB : BitBuilder.bpg w + 2 = 3 * w := by unfold BitBuilder.bpg; omega
  have hL : BitBuilder.lastPos w = BitBuilder.bpg w + 1 := by unfold BitBuilder.lastPos BitBuilder.bpg; omega
  rw [hR] at h
  have hv : ∀ k, k < 3 * w * G → BitBuilder.val c w srow t' k = BitBuilder.val c w srow t k :=
    fun k hk => val_stable h (by rw [show w * (3 * G) = 3 * w * G by ring]; exact hk)
  have hblk : ∀ g < G, 3 * w * g + 3 * w ≤ 3 * w * G := fun g hg => by
    calc 3 * w * g + 3 * w = 3 * w * (g + 1) := by ring
      _ ≤ _ := Nat.mul_le_mul_left _ hg
  simp only [BitDecomp.circuit, sat_append, sat_cons, sat_nil, and_true, holds_copy] at hs ⊢
  obtain ⟨⟨⟨s1, s2⟩, s3⟩, s4⟩ := hs
  refine ⟨⟨⟨?_, ?_⟩, ?_⟩, ?_⟩
  · rw [BitBuilder.base_iff c w bits hw true srow _ G hR] at s1 ⊢
    refine ⟨by rw [hk]; exact s1.1, fun g hg => ?_⟩
    have hg3 := hblk g hg
    obtain ⟨u1, u2⟩ := s1.2 g hg
    constructor
    · rw [hv _ (by omega), ← u1]
      exact horner2_congr fun i hi => hv _ (by omega)
    · intro _ i hi
      rw [hv _ (by omega)]
      exact u2 rfl i hi
  · intro o ho
    obtain ⟨i, hi, rfl⟩ := List.mem_map.1 ho
    have h0 := s2 _ ho
    rw [holds_copy] at h0 ⊢
    have hi' : i < BitBuilder.padding w bits true := List.mem_range.1 hi
    have e : BitBuilder.bitCell w i = i := by unfold BitBuilder.bitCell; rw [if_neg (by omega), add_zero]
    have e1 := hv (BitBuilder.bitCell w i) (by rw [e]; have := hblk 0 hG0; omega)
    have e2 : (BitBuilder.zeroVar srow).value t' = (BitBuilder.zeroVar srow).value t := hk _ _
    rw [e2, h0]; exact e1.symm
  · intro o ho
    obtain ⟨i, hi, rfl⟩ := List.mem_map.1 ho
    have h0 := s3 _ ho
    rw [holds_copy] at h0 ⊢
    have hi' : i < G - 1 := by have := List.mem_range.1 hi; omega
    have hg := hblk (i + 1) (by omega)
    have m1 : 2 * i / 2 = i := by omega
    have m2 : (2 * i + 1) / 2 = i := by omega
    have m3 : 2 * i % 2 = 0 := by omega
    have m4 : (2 * i + 1) % 2 = 1 := by omega
    have e1 := hv (BitBuilder.sumCell w (2 * i)) (by unfold BitBuilder.sumCell; rw [m1, m3, mul_comm]; rw [mul_add] at hg; omega)
    have e2 := hv (BitBuilder.sumCell w (2 * i + 1)) (by unfold BitBuilder.sumCell; rw [m2, m4, mul_comm]; rw [mul_add] at hg; omega)
    exact e1.trans (h0.trans e2.symm)
  · have hg := hblk (G - 1) (by omega)
    have m1 : (BitBuilder.sumBits w bits true - 1) / 2 = G - 1 := by omega
    have m2 : (BitBuilder.sumBits w bits true - 1) % 2 = 0 := by omega
    have e1 := hv (BitBuilder.sumCell w (BitBuilder.sumBits w bits true - 1)) (by
      unfold BitBuilder.sumCell; rw [m1, m2, mul_comm]; omega)
    rw [hx, s4]; exact e1.symm

theorem bit_stable {inp : BitIn} {srow : ℤ} (hk : ∀ i r, t' .constant i r = t .constant i r) (h : SameRows t t' srow 141)
    (h1 : ∀ i < 4, (inp.tx i).value t' = (inp.tx i).value t) (h2 : ∀ i < 4, (inp.ty i).value t' = (inp.ty i).value t)
    (h3 : ∀ i < 4, (inp.rx i).value t' = (inp.rx i).value t) (h4 : ∀ i < 4, (inp.ry i).value t' = (inp.ry i).value t)
    (h5 : inp.k.value t' = inp.k.value t)
    (hs : Sat t (bitCircuit c inp srow)) : Sat t' (bitCircuit c inp srow) := by
  simp only [bitCircuit, sat_append] at hs ⊢
  refine ⟨bool_stable (h.mono (by omega) (by omega)) h1 h2 h5 hs.1, dbl_stable (h.mono (by omega) (by omega)) h3 h4 hs.2.1,
    add_stable hk (h.mono (by omega) (by omega)) (fun i _ => ?_) (fun i _ => ?_) (fun i _ => ?_) (fun i _ => ?_) hs.2.2⟩
  · exact h _ (srow + 2) (by omega) (by omega)
  · exact h _ (srow + 2 + 2) (by omega) (by omega)
  · exact h _ (srow + 1) (by omega) (by omega)
  · exact h _ srow (by omega) (by omega)

end stable

/-! ### Completeness -/

section complete
variable {n : ℕ} [Fact n.Prime] {t : Table (ZMod n)} {c : Cols}

/-- The cells hold the reduced coordinates of `P`. -/
def Held (t : Table (ZMod n)) (vx vy : ℕ → Var) (P : G) : Prop := Limbs t vx P.1.1.val ∧ Limbs t vy P.1.2.val

theorem Held.holds {vx vy : ℕ → Var} {P : G} (h : Held t vx vy P) : Holds t vx vy P :=
  ⟨_, _, h.1, h.2, ZMod.natCast_zmod_val _, ZMod.natCast_zmod_val _⟩

theorem Held.congr {v w v' w' : ℕ → Var} {t' : Table (ZMod n)} {P : G} (hx : ∀ i < 4, (v' i).value t' = (v i).value t)
    (hy : ∀ i < 4, (w' i).value t' = (w i).value t) (h : Held t v w P) : Held t' v' w' P := by
  exact ⟨limbs_congr hx h.1, limbs_congr hy h.2⟩

theorem one_val : (1 : ZMod modulus).val = 1 := by
  have : (1 : ZMod modulus) = ((1 : ℕ) : ZMod modulus) := by simp
  rw [this, val_cast (by decide +kernel)]

theorem held_zero {v w : ℕ → Var} (hx : ∀ i < 4, (v i).value t = 0) (h0 : (w 0).value t = 1)
    (hy : ∀ i, 0 < i → i < 4 → (w i).value t = 0) : Held t v w 0 := by
  have e1 : ((0 : G).1.1).val = 0 := by simp [TEd.Point.coe_zero]
  have e2 : ((0 : G).1.2).val = 1 := by rw [TEd.Point.coe_zero]; exact one_val
  refine ⟨?_, ?_⟩
  · rw [e1]
    exact ⟨0, 0, 0, 0, by norm_num, by norm_num, by norm_num, by norm_num, by simp [hx 0], by simp [hx 1], by simp [hx 2],
      by simp [hx 3], by simp [num]⟩
  · rw [e2]
    exact ⟨1, 0, 0, 0, by norm_num, by norm_num, by norm_num, by norm_num, by simp [h0], by simp [hy 1],
      by simp [hy 2], by simp [hy 3], by simp [num]⟩

theorem bool_held (hn : 2 ^ 254 < n) {inp : BoolScalarMul.In} {srow : ℤ} {P : G} (h : Sat t (BoolScalarMul.circuit c inp srow))
    (hP : Held t inp.x inp.y P) {b : Bool} (hb : inp.k.value t = (b.toNat : ZMod n)) :
    Held t (BoolScalarMul.resultX c srow) (BoolScalarMul.resultY c srow) (b.toNat • P) := by
  rcases BoolScalarMul.bool_sound c inp srow t h with ⟨hk, hx, h0, hy⟩ | ⟨hk, hxy⟩
  · have : b = false := toNat_cast_inj hn (hb.symm.trans (by simpa using hk))
    subst this
    rw [Bool.toNat_false, zero_nsmul]
    exact held_zero hx h0 hy
  · have : b = true := toNat_cast_inj hn (hb.symm.trans (by simpa using hk))
    subst this
    rw [Bool.toNat_true, one_nsmul]
    exact hP.congr (fun i hi => (hxy i hi).1) (fun i hi => (hxy i hi).2)

theorem sum_val (P Q : G) : (P + Q).1 = (Edwards.addX (dInt : ZMod modulus) (P.1.1.val : ℕ) (P.1.2.val : ℕ) (Q.1.1.val : ℕ) (Q.1.2.val : ℕ),
    Edwards.addY (dInt : ZMod modulus) (P.1.1.val : ℕ) (P.1.2.val : ℕ) (Q.1.1.val : ℕ) (Q.1.2.val : ℕ)) :=
  sum_coords (ZMod.natCast_zmod_val _) (ZMod.natCast_zmod_val _) (ZMod.natCast_zmod_val _) (ZMod.natCast_zmod_val _)

/-- Doubling of `R` and the addition `2 R + B` can be assigned (see `DblLow`, `AddLow`). -/
def BitLow (R B : G) : Prop :=
  DblLow R.1.1 R.1.2 ∧ AddLow (2 • R : G).1.1 (2 • R : G).1.2 B.1.1 B.1.2

theorem frame_same {s s' : ℤ} {k k' : ℕ} {t' : Table (ZMod n)} (h : Frame c s k t t') (hd : s' + k' ≤ s ∨ s + k ≤ s') :
    SameRows t t' s' k' := fun i r h1 h2 => h.row (by omega) _ _

/-- Operands outside the rows of a step. -/
structure BitIn.Outside (inp : BitIn) (srow : ℤ) (rows : ℕ) : Prop where
  tx : ∀ i < 4, (inp.tx i).Outside srow rows
  ty : ∀ i < 4, (inp.ty i).Outside srow rows
  rx : ∀ i < 4, (inp.rx i).Outside srow rows
  ry : ∀ i < 4, (inp.ry i).Outside srow rows
  k : inp.k.Outside srow rows

/-- Everything about a step: the doubling may put any accepted table in its rows. -/
theorem bit_parts (hn : 2 ^ 254 < n) (hc : c.OK 9) {inp : BitIn} {srow : ℤ} {T : G}
    (hT : Held t inp.tx inp.ty T) {b : Bool} (hb : inp.k.value t = (b.toNat : ZMod n)) (ho : inp.Outside srow 141) :
    let t1 := BoolScalarMul.assign c (boolIn inp) srow t
    Frame c srow 2 t t1 ∧ Held t1 (BoolScalarMul.resultX c srow) (BoolScalarMul.resultY c srow) (b.toNat • T) ∧
    ∀ t2 t3, Frame c (srow + 2) 63 t1 t2 → Frame c (srow + 65) 76 t2 t3 → Sat t2 (dblCircuit c (dblIn inp) (srow + 2)) →
      Sat t3 (EdCurve.addCircuit c (addIn c srow) (srow + 65)) →
      Sat t3 (bitCircuit c inp srow) ∧ Frame c srow 141 t t3 := by
  intro t1
  have out : ∀ v : Var, v.Outside srow 141 → v.Outside srow 2 := fun v h => h.mono (by omega) (by omega)
  obtain ⟨s1, f1⟩ := BoolScalarMul.bool_complete c hc (boolIn inp) srow (fun i hi => out _ (ho.tx i hi)) (fun i hi => out _ (ho.ty i hi))
    (out _ ho.k) t (by rw [show (boolIn inp).k = inp.k from rfl, hb]; cases b <;> simp)
  have f1 : Frame c srow 2 t t1 := f1
  have s1 : Sat t1 (BoolScalarMul.circuit c (boolIn inp) srow) := s1
  have hT1 : Held t1 (boolIn inp).x (boolIn inp).y T :=
    hT.congr (fun i hi => f1.outside (out _ (ho.tx i hi))) (fun i hi => f1.outside (out _ (ho.ty i hi)))
  have hb1 : (boolIn inp).k.value t1 = (b.toNat : ZMod n) := (f1.outside (out _ ho.k)).trans hb
  refine ⟨f1, bool_held hn s1 hT1 hb1, fun t2 t3 f2 f3 s2 s3 => ?_⟩
  have f2' : Frame c srow 141 t1 t2 := f2.mono (by omega) (by push_cast; omega)
  have f3' : Frame c srow 141 t2 t3 := f3.mono (by omega) (by push_cast; omega)
  have f1' : Frame c srow 141 t t1 := f1.mono (by omega) (by push_cast; omega)
  have f13 := f2'.trans f3'
  refine ⟨?_, f1'.trans f13⟩
  simp only [bitCircuit, sat_append]
  refine ⟨bool_stable ?_ (fun i hi => f13.outside (ho.tx i hi)) (fun i hi => f13.outside (ho.ty i hi)) (f13.outside ho.k) s1,
    dbl_stable (frame_same f3 (.inl (by push_cast; omega))) (fun i hi => f3'.outside (ho.rx i hi)) (fun i hi => f3'.outside (ho.ry i hi)) s2, s3⟩
  intro i r h1 h2
  rw [f3.row (.inl (by push_cast at h2; omega)), f2.row (.inl (by push_cast at h2; omega))]

/-- **C112**, completeness: the generated table satisfies the circuit, respects the absent constraints and holds `2 R + k T`. Missing for the full claim: columns other than the
first ones (`hid`), and points for which the subtractions cannot be assigned (`BitLow`). -/
theorem bit_complete_partial (hn : 2 ^ 254 < n) (hc : c.OK 9) (hid : FirstCols c) {inp : BitIn} {srow : ℤ} {T R : G}
    (hk : Sat t (addConsts c (srow + 65))) (hT : Held t inp.tx inp.ty T) (hR : Held t inp.rx inp.ry R) {b : Bool}
    (hb : inp.k.value t = (b.toNat : ZMod n)) (ho : inp.Outside srow 141) (hlow : BitLow R (b.toNat • T)) :
    let t' := bitAssign c inp srow t
    Sat t' (bitCircuit c inp srow) ∧ BitAbsent t' c srow ∧ Held t' (bitResultX srow) (bitResultY srow) (2 • R + b.toNat • T) ∧
      Frame c srow 141 t t' := by
  intro t'
  obtain ⟨f1, hB, hall⟩ := bit_parts hn hc (srow := srow) hT hb ho
  set t1 := BoolScalarMul.assign c (boolIn inp) srow t with ht1
  have hR1 : Held t1 (dblIn inp).tx (dblIn inp).ty R :=
    hR.congr (fun i hi => f1.outside ((ho.rx i hi).mono (by omega) (by push_cast; omega)))
      (fun i hi => f1.outside ((ho.ry i hi).mono (by omega) (by push_cast; omega)))
  have onR : Edwards.On (dInt : ZMod modulus) (R.1.1.val : ℕ) (R.1.2.val : ℕ) := on_of (ZMod.natCast_zmod_val _) (ZMod.natCast_zmod_val _)
  obtain ⟨d1, d2, d3, d4, d5, d6⟩ := dbl_complete_partial hn hc hid (inp := dblIn inp) (srow := srow + 2) hR1.1 hR1.2 (ZMod.val_lt _) (ZMod.val_lt _) onR
    (fun i hi => ⟨(ho.rx i hi).mono (by omega) (by simp only [dblRows]; push_cast; omega), (ho.ry i hi).mono (by omega) (by simp only [dblRows]; push_cast; omega)⟩)
    (by rw [ZMod.natCast_zmod_val, ZMod.natCast_zmod_val]; exact hlow.1)
  set t2 := dblAssign c (dblIn inp) (srow + 2) t1 with ht2
  have f2 : Frame c (srow + 2) 63 t1 t2 := d5
  have h2R : Held t2 (addIn c srow).tx (addIn c srow).ty (2 • R : G) := by
    have := sum_val R R
    rw [two_nsmul]
    exact ⟨by rw [this]; exact d3, by rw [this]; exact d4⟩
  have hB2 : Held t2 (addIn c srow).rx (addIn c srow).ry (b.toNat • T) :=
    Held.congr (t := t1) (v := BoolScalarMul.resultX c srow) (w := BoolScalarMul.resultY c srow)
      (fun i hi => f2.row (r := srow + 1) (.inl (by omega)) _ _) (fun i hi => f2.row (r := srow) (.inl (by omega)) _ _) hB
  have onP : ∀ P : G, Edwards.On (dInt : ZMod modulus) (P.1.1.val : ℕ) (P.1.2.val : ℕ) :=
    fun P => on_of (ZMod.natCast_zmod_val _) (ZMod.natCast_zmod_val _)
  have hk2 : Sat t2 (addConsts c (srow + 65)) := by
    have hcst : ∀ i r, t2 .constant i r = t .constant i r := fun i r => (f2.const i r).trans (f1.const i r)
    simp only [addConsts, List.range, List.range.loop, List.map_cons, List.map_nil, sat_cons, holds_constant, sat_nil, and_true, hcst] at hk ⊢
    exact hk
  obtain ⟨a1, a2, a3, a4, a5⟩ := add_complete_partial hn hc hid (inp := addIn c srow) (srow := srow + 65) hk2 h2R.1 h2R.2 hB2.1 hB2.2
    (ZMod.val_lt _) (ZMod.val_lt _) (ZMod.val_lt _) (ZMod.val_lt _) (onP _) (onP _)
    (fun i hi => ⟨fun _ => .inl (show srow + 2 < srow + 65 by omega), fun _ => .inl (show srow + 2 + 2 < srow + 65 by omega),
      fun _ => .inl (show srow + 1 < srow + 65 by omega), fun _ => .inl (show srow < srow + 65 by omega)⟩)
    (by rw [ZMod.natCast_zmod_val, ZMod.natCast_zmod_val, ZMod.natCast_zmod_val, ZMod.natCast_zmod_val]; exact hlow.2)
  have f3 : Frame c (srow + 65) 76 t2 t' := a5
  obtain ⟨s, f⟩ := hall t2 t' f2 f3 d1 a1
  have same : SameRows t2 t' (srow + 2) 63 := frame_same f3 (.inl (by push_cast; omega))
  refine ⟨s, ⟨dblWidths_stable same d2, dblMissing_stable same d6, a2⟩, ?_, f⟩
  have := sum_val (2 • R : G) (b.toNat • T)
  have hH : Held t' (resultX c (srow + 65)) (resultY c (srow + 65)) (2 • R + b.toNat • T) := ⟨by rw [this]; exact a3, by rw [this]; exact a4⟩
  exact hH.congr (resultX_eq hid t' srow) (resultY_eq hid t' srow)

theorem not_on_forged : ¬ Edwards.On (dInt : ZMod modulus) (0 : ℕ) (1 + 2 ^ 66 : ℕ) := by
  unfold Edwards.On
  intro hc'
  have : (((1 + 2 ^ 66) ^ 2 : ℕ) : ZMod modulus) = ((1 : ℕ) : ZMod modulus) := by
    push_cast at hc' ⊢; linear_combination hc'
  rw [ZMod.natCast_eq_natCast_iff', modulus_val] at this
  norm_num at this

/-- **C112 refuted** without the absent copies: for `R = 0` and `k = 0` the output `(0, 1 + 2^66)`, not on the curve, is accepted, with all the chunks within their widths. -/
theorem bit_unsound (hn : 2 ^ 254 < n) (hc : c.OK 9) (hid : FirstCols c) {inp : BitIn} {srow : ℤ} {T : G}
    (hk : Sat t (addConsts c (srow + 65))) (hT : Held t inp.tx inp.ty T) (hR : Held t inp.rx inp.ry 0)
    (hb : inp.k.value t = 0) (ho : inp.Outside srow 141) :
    ∃ t', Sat t' (bitCircuit c inp srow) ∧ DblWidths t' c (srow + 2) ∧ AddWidths t' c (srow + 65) ∧ Frame c srow 141 t t' ∧
      Limbs t' (bitResultX srow) 0 ∧ Limbs t' (bitResultY srow) (1 + 2 ^ 66) := by
  obtain ⟨f1, hB, hall⟩ := bit_parts hn hc (srow := srow) hT (b := false) (by simpa using hb) ho
  set t1 := BoolScalarMul.assign c (boolIn inp) srow t with ht1
  have e1 : ((0 : G).1.1).val = 0 := by simp [TEd.Point.coe_zero]
  have e2 : ((0 : G).1.2).val = 1 := by rw [TEd.Point.coe_zero]; exact one_val
  have hR1 : Held t1 (dblIn inp).tx (dblIn inp).ty (0 : G) :=
    hR.congr (fun i hi => f1.outside ((ho.rx i hi).mono (by omega) (by push_cast; omega)))
      (fun i hi => f1.outside ((ho.ry i hi).mono (by omega) (by push_cast; omega)))
  obtain ⟨t2, f2, d1, d2, d3, d4, -⟩ := dbl_unsound hn hc hid (inp := dblIn inp) (srow := srow + 2) (by have := hR1.1; rwa [e1] at this)
    (by have := hR1.2; rwa [e2] at this)
    (fun i hi => ⟨(ho.rx i hi).mono (by omega) (by simp only [dblRows]; push_cast; omega), (ho.ry i hi).mono (by omega) (by simp only [dblRows]; push_cast; omega)⟩)
  have f2 : Frame c (srow + 2) 63 t1 t2 := f2
  have hB2 : Held t2 (addIn c srow).rx (addIn c srow).ry (0 : G) := by
    have : Held t1 (BoolScalarMul.resultX c srow) (BoolScalarMul.resultY c srow) (0 : G) := by simpa using hB
    exact Held.congr (t := t1) (v := BoolScalarMul.resultX c srow) (w := BoolScalarMul.resultY c srow)
      (fun i hi => f2.row (r := srow + 1) (.inl (by omega)) _ _) (fun i hi => f2.row (r := srow) (.inl (by omega)) _ _) this
  have hk2 : Sat t2 (addConsts c (srow + 65)) := by
    have hcst : ∀ i r, t2 .constant i r = t .constant i r := fun i r => (f2.const i r).trans (f1.const i r)
    simp only [addConsts, List.range, List.range.loop, List.map_cons, List.map_nil, sat_cons, holds_constant, sat_nil, and_true, hcst] at hk ⊢
    exact hk
  have hlt : 1 + 2 ^ 66 < modulus := by decide +kernel
  obtain ⟨a1, a2, a3, a4, a5⟩ := addWith_sat hn hc hid (inp := addIn c srow) (srow := srow + 65) (X := 0) (Y := ((1 + 2 ^ 66 : ℕ) : ZMod modulus))
    hk2 d3 d4 (by have := hB2.1; rwa [e1] at this) (by have := hB2.2; rwa [e2] at this) modulus_pos hlt modulus_pos (by decide +kernel)
    (fun i hi => ⟨fun _ => .inl (show srow + 2 < srow + 65 by omega), fun _ => .inl (show srow + 2 + 2 < srow + 65 by omega),
      fun _ => .inl (show srow + 1 < srow + 65 by omega), fun _ => .inl (show srow < srow + 65 by omega)⟩)
    (by push_cast; ring) (by push_cast; ring) (.inl (by simp))
  obtain ⟨s, f⟩ := hall t2 _ f2 a5 d1 a1
  rw [val_cast hlt] at a4
  rw [ZMod.val_zero] at a3
  exact ⟨_, s, dblWidths_stable (frame_same a5 (.inl (by push_cast; omega))) d2, a2, f,
    limbs_congr (resultX_eq hid _ srow) a3, limbs_congr (resultY_eq hid _ srow) a4⟩

theorem bitAbsent_stable {t' : Table (ZMod n)} {srow : ℤ} (h : SameRows t t' srow 141) (ha : BitAbsent t c srow) : BitAbsent t' c srow :=
  ⟨dblWidths_stable (h.mono (by omega) (by push_cast; omega)) ha.1, dblMissing_stable (h.mono (by omega) (by push_cast; omega)) ha.2.1,
    addWidths_stable (h.mono (by omega) (by push_cast; omega)) ha.2.2⟩

theorem idx_lt {msb : Bool} {bits i : ℕ} (hi : i < bits) : BitBuilder.idx msb bits i < bits := by
  unfold BitBuilder.idx; split_ifs <;> omega

theorem bitVar_stable {t' : Table (ZMod n)} {bits : ℕ} {msb : Bool} {srow : ℤ} (h : SameRows t t' srow (decRows bits)) {i : ℕ} (hi : i < bits) :
    (bitVar c bits msb srow i).value t' = (bitVar c bits msb srow i).value t :=
  val_stable h (out_lt (by omega) (by omega) _ (idx_lt hi))

theorem bitVar_row {bits : ℕ} {msb : Bool} {srow : ℤ} {i : ℕ} (hi : i < bits) : (bitVar c bits msb srow i).rotation < srow + decRows bits := by
  have h := out_lt (w := 9) (by omega) (by omega) _ (idx_lt (msb := msb) hi)
  have : ((BitBuilder.bitCell 9 (BitBuilder.padding 9 bits true + BitBuilder.idx msb bits i) / 9 : ℕ) : ℤ) < decRows bits := by
    exact_mod_cast Nat.div_lt_of_lt_mul h
  show srow + ((BitBuilder.bitCell 9 (BitBuilder.padding 9 bits true + BitBuilder.idx msb bits i) / 9 : ℕ) : ℤ) < _
  linarith

/-- Rows used by the decomposition and `m` steps. -/
def usedRows (bits m : ℕ) : ℕ := decRows bits + 2 + m * 141

theorem stepRow_eq (bits : ℕ) (srow : ℤ) (m : ℕ) : stepRow bits srow m = srow + (usedRows bits m : ℤ) := by
  have : bitRows = 141 := rfl
  unfold stepRow usedRows
  rw [this]; push_cast; ring

theorem bitResult_row (srow : ℤ) (i : ℕ) : (bitResultX srow i).rotation = srow + 65 ∧ (bitResultY srow i).rotation = srow + 67 := by
  have h1 : (bitRows : ℤ) = 141 := rfl
  have h2 : (addRows : ℤ) = 76 := rfl
  constructor
  · show srow + (bitRows : ℤ) - (addRows : ℤ) = _
    omega
  · show srow + (bitRows : ℤ) - (addRows : ℤ) + 2 = _
    omega

theorem acc_row (bits : ℕ) (srow : ℤ) (m i : ℕ) :
    (srow ≤ (accX c bits srow m i).rotation ∧ (accX c bits srow m i).rotation < srow + usedRows bits m) ∧
    (srow ≤ (accY c bits srow m i).rotation ∧ (accY c bits srow m i).rotation < srow + usedRows bits m) := by
  cases m with
  | zero =>
    have h1 : (accX c bits srow 0 i).rotation = srow + decRows bits + 1 := rfl
    have h2 : (accY c bits srow 0 i).rotation = srow + decRows bits := rfl
    rw [h1, h2]
    unfold usedRows
    push_cast
    omega
  | succ m =>
    have h1 : (accX c bits srow (m + 1) i).rotation = stepRow bits srow m + 65 := (bitResult_row _ i).1
    have h2 : (accY c bits srow (m + 1) i).rotation = stepRow bits srow m + 67 := (bitResult_row _ i).2
    rw [h1, h2, stepRow_eq]
    unfold usedRows
    push_cast
    omega

theorem acc_type (bits : ℕ) (srow : ℤ) (m i : ℕ) :
    (accX c bits srow m i).type = .witness ∧ (accY c bits srow m i).type = .witness := by cases m <;> exact ⟨rfl, rfl⟩

theorem value_stable {t' : Table (ZMod n)} {v : Var} {srow : ℤ} {R : ℕ} (h : SameRows t t' srow R) (ht : v.type = .witness)
    (h1 : srow ≤ v.rotation) (h2 : v.rotation < srow + R) : v.value t' = v.value t := by
  unfold Var.value; rw [ht]; exact h _ _ h1 h2

theorem prefix_stable {t' : Table (ZMod n)} {bits : ℕ} {msb : Bool} {inp : MulIn} {srow : ℤ} (h253 : 253 ≤ bits)
    (hk : ∀ i r, t' .constant i r = t .constant i r)
    (h1 : ∀ i < 4, (inp.tx i).value t' = (inp.tx i).value t) (h2 : ∀ i < 4, (inp.ty i).value t' = (inp.ty i).value t)
    (h3 : inp.k.value t' = inp.k.value t) : ∀ m ≤ 252, SameRows t t' srow (usedRows bits m) →
      Sat t (mulPrefix c bits msb inp srow m) → Sat t' (mulPrefix c bits msb inp srow m)
  | 0, _, h, hs => by
    simp only [mulPrefix, sat_append] at hs ⊢
    have hu : usedRows bits 0 = decRows bits + 2 := by simp [usedRows]
    rw [hu] at h
    have hd : SameRows t t' srow (decRows bits) := h.mono (by omega) (by push_cast; omega)
    exact ⟨decomp_stable (by omega) (by omega) hk hd h3 hs.1,
      bool_stable (h.mono (by omega) (by push_cast; omega)) h1 h2 (bitVar_stable hd (by omega)) hs.2⟩
  | m + 1, hm, h, hs => by
    simp only [mulPrefix, sat_append] at hs ⊢
    have hu : usedRows bits (m + 1) = usedRows bits m + 141 := by unfold usedRows; omega
    have hu' : decRows bits ≤ usedRows bits m := by unfold usedRows; omega
    rw [hu] at h
    have hm1 : SameRows t t' srow (usedRows bits m) := h.mono (by omega) (by push_cast; omega)
    refine ⟨prefix_stable h253 hk h1 h2 h3 m (by omega) hm1 hs.1, ?_⟩
    have hs2 := hs.2
    rw [stepIn_eq] at hs2 ⊢
    refine bit_stable hk (h.mono (by rw [stepRow_eq]; omega) (by rw [stepRow_eq]; push_cast; omega)) h1 h2 (fun i _ => ?_) (fun i _ => ?_)
      (bitVar_stable (hm1.mono (by omega) (by omega)) (by omega)) hs2
    · have := acc_row (c := c) bits srow m i
      exact value_stable hm1 (acc_type bits srow m i).1 this.1.1 this.1.2
    · have := acc_row (c := c) bits srow m i
      exact value_stable hm1 (acc_type bits srow m i).2 this.2.1 this.2.2

/-- Operands of multiplication outside its rows. -/
structure MulIn.Outside (inp : MulIn) (srow : ℤ) (rows : ℕ) : Prop where
  tx : ∀ i < 4, (inp.tx i).Outside srow rows
  ty : ∀ i < 4, (inp.ty i).Outside srow rows
  k : inp.k.Outside srow rows

/-- The constants of the component are in the table. -/
def MulConsts (t : Table (ZMod n)) (c : Cols) (bits : ℕ) (srow : ℤ) : Prop :=
  t .constant 0 srow = 0 ∧ ∀ i < 252, Sat t (addConsts c (stepRow bits srow i + 65))

/-- The bits in the order in which they are used. -/
def kBit (k : ℕ) (bits : ℕ) (msb : Bool) (i : ℕ) : Bool := k.testBit (bitWeight msb bits i)

theorem first_complete (hn : 2 ^ 254 < n) (hc : c.OK 9) (hk0 : c.k 0 = 0) {bits : ℕ} (h253 : 253 ≤ bits) (h254 : bits ≤ 254) {msb : Bool}
    {inp : MulIn} {srow : ℤ} {T : G} (hcst : t .constant 0 srow = 0) (hT : Held t inp.tx inp.ty T) (ho : inp.Outside srow (mulRows bits))
    (hlt : (inp.k.value t).val < 2 ^ bits) :
    let t' := mulRun c bits msb inp srow t 0
    Sat t' (mulPrefix c bits msb inp srow 0) ∧
      Held t' (accX c bits srow 0) (accY c bits srow 0) (acc (kBit (inp.k.value t).val bits msb) 0 • T) ∧
      Frame c srow (usedRows bits 0) t t' ∧
      ∀ i < bits, (bitVar c bits msb srow i).value t' = ((kBit (inp.k.value t).val bits msb i).toNat : ZMod n) := by
  intro t'
  have hR : mulRows bits = decRows bits + 252 * 141 + 2 := rfl
  have hu : usedRows bits 0 = decRows bits + 2 := by simp [usedRows]
  have hset : t.set .constant 0 srow 0 = t := by
    funext ty i r
    by_cases h : ty = .constant ∧ i = 0 ∧ r = srow
    · obtain ⟨rfl, rfl, rfl⟩ := h
      rw [Table.set_same, hcst]
    · rw [Table.set_ne _ _ h]
  obtain ⟨s0, f0⟩ := bitDecomp_complete c 9 bits (by omega) (by omega) hc hk0 inp.k srow t
    (ho.k.mono (by omega) (by rw [hR]; show srow + ((decRows bits : ℕ) : ℤ) ≤ _; push_cast; omega)) (by rw [hset]; exact hlt)
  have hw : writeConsts (BitDecomp.circuit c 9 bits inp.k srow) t = t := by
    rw [BitDecomp.writeConsts_eq, hk0, hset]
  rw [hw] at s0 f0
  set t0 := BitDecomp.assign c 9 bits inp.k srow t with ht0
  have f0 : Frame c srow (decRows bits) t t0 := f0
  have hkv : inp.k.value t0 = inp.k.value t := f0.outside (ho.k.mono (by omega) (by rw [hR]; push_cast; omega))
  have hbits : ∀ i < bits, (bitVar c bits msb srow i).value t0 = ((kBit (inp.k.value t).val bits msb i).toNat : ZMod n) := by
    obtain ⟨-, hb⟩ := bitDecomp_sound c 9 bits (by omega) (by omega) (by have := size_gt hn; omega) hk0 msb inp.k srow t0 s0
    intro i hi
    rw [bitVar, hb i hi, hkv, kBit]
    cases (inp.k.value t).val.testBit (bitWeight msb bits i) <;> simp
  have out : ∀ v : Var, v.Outside srow (mulRows bits) → v.Outside (srow + decRows bits) 2 :=
    fun v h => h.mono (by omega) (by rw [hR]; push_cast; omega)
  have out0 : ∀ v : Var, v.Outside srow (mulRows bits) → v.Outside srow (decRows bits) :=
    fun v h => h.mono (by omega) (by rw [hR]; push_cast; omega)
  have hb0 := hbits 0 (by omega)
  obtain ⟨s1, f1⟩ := BoolScalarMul.bool_complete c hc (firstIn c bits msb inp srow) (srow + decRows bits) (fun i hi => out _ (ho.tx i hi))
    (fun i hi => out _ (ho.ty i hi)) (fun _ => .inl (bitVar_row (by omega))) t0
    (by
      rw [show (firstIn c bits msb inp srow).k = bitVar c bits msb srow 0 from rfl, hb0]
      cases kBit (inp.k.value t).val bits msb 0 <;> simp)
  have f1 : Frame c (srow + decRows bits) 2 t0 t' := f1
  have s1 : Sat t' (BoolScalarMul.circuit c (firstIn c bits msb inp srow) (srow + decRows bits)) := s1
  have same : SameRows t0 t' srow (decRows bits) := frame_same f1 (.inl (by omega))
  have hbits' : ∀ i < bits, (bitVar c bits msb srow i).value t' = ((kBit (inp.k.value t).val bits msb i).toNat : ZMod n) :=
    fun i hi => (bitVar_stable same hi).trans (hbits i hi)
  have hT' : Held t' (firstIn c bits msb inp srow).x (firstIn c bits msb inp srow).y T :=
    Held.congr (t := t) (fun i hi => (f1.outside (out _ (ho.tx i hi))).trans (f0.outside (out0 _ (ho.tx i hi))))
      (fun i hi => (f1.outside (out _ (ho.ty i hi))).trans (f0.outside (out0 _ (ho.ty i hi)))) hT
  refine ⟨?_, bool_held hn s1 hT' (hbits' 0 (by omega)), ?_, hbits'⟩
  · simp only [mulPrefix, sat_append]
    exact ⟨decomp_stable (by omega) (by omega) (fun i r => f1.const i r) same (f1.outside (out _ ho.k)) s0, s1⟩
  · rw [hu]
    exact (f0.mono (by omega) (by push_cast; omega)).trans (f1.mono (by omega) (by push_cast; omega))

theorem step_outside {bits : ℕ} {msb : Bool} {inp : MulIn} {srow : ℤ} (h253 : 253 ≤ bits) (ho : inp.Outside srow (mulRows bits)) {m : ℕ} (hm : m < 252) :
    (stepIn c bits msb inp srow m).Outside (stepRow bits srow m) 141 := by
  have hR : mulRows bits = decRows bits + 252 * 141 + 2 := rfl
  have hu : usedRows bits m = decRows bits + 2 + m * 141 := rfl
  rw [stepIn_eq, stepRow_eq]
  have out : ∀ v : Var, v.Outside srow (mulRows bits) → v.Outside (srow + usedRows bits m) 141 :=
    fun v h => h.mono (by omega) (by rw [hR, hu]; push_cast; omega)
  refine ⟨fun i hi => out _ (ho.tx i hi), fun i hi => out _ (ho.ty i hi), fun i _ _ => .inl (acc_row (c := c) bits srow m i).1.2,
    fun i _ _ => .inl (acc_row (c := c) bits srow m i).2.2, fun _ => .inl ?_⟩
  have := bitVar_row (c := c) (msb := msb) (srow := srow) (i := m + 1) (bits := bits) (by omega)
  rw [hu]
  show (bitVar c bits msb srow (m + 1)).rotation < _
  push_cast
  linarith

theorem prefix_complete (hn : 2 ^ 254 < n) (hc : c.OK 9) (hid : FirstCols c) (hk0 : c.k 0 = 0) {bits : ℕ} (h253 : 253 ≤ bits) (h254 : bits ≤ 254)
    {msb : Bool} {inp : MulIn} {srow : ℤ} {T : G} (hcst : MulConsts t c bits srow) (hT : Held t inp.tx inp.ty T)
    (ho : inp.Outside srow (mulRows bits)) (hlt : (inp.k.value t).val < 2 ^ bits) :
    ∀ m ≤ 252, (∀ i < m, BitLow (acc (kBit (inp.k.value t).val bits msb) i • T) ((kBit (inp.k.value t).val bits msb (i + 1)).toNat • T)) →
    let t' := mulRun c bits msb inp srow t m
    Sat t' (mulPrefix c bits msb inp srow m) ∧ MulAbsent t' c bits srow m ∧
      Held t' (accX c bits srow m) (accY c bits srow m) (acc (kBit (inp.k.value t).val bits msb) m • T) ∧
      Frame c srow (usedRows bits m) t t' ∧
      ∀ i < bits, (bitVar c bits msb srow i).value t' = ((kBit (inp.k.value t).val bits msb i).toNat : ZMod n)
  | 0, _, _ => by
    obtain ⟨a, b, f, g⟩ := first_complete hn hc hk0 h253 h254 (msb := msb) hcst.1 hT ho hlt
    exact ⟨a, fun i hi => absurd hi (by omega), b, f, g⟩
  | m + 1, hm, hlow => by
    intro t'
    obtain ⟨a, b, hA, f, g⟩ := prefix_complete hn hc hid hk0 h253 h254 hcst hT ho hlt m (by omega) fun i hi => hlow i (by omega)
    set tm := mulRun c bits msb inp srow t m with htm
    have hR : mulRows bits = decRows bits + 252 * 141 + 2 := rfl
    have hu : usedRows bits m = decRows bits + 2 + m * 141 := rfl
    have hu' : usedRows bits (m + 1) = decRows bits + 2 + (m + 1) * 141 := rfl
    have hos := step_outside (c := c) (msb := msb) h253 ho (show m < 252 by omega)
    have out : ∀ v : Var, v.Outside srow (mulRows bits) → v.Outside srow (usedRows bits m) :=
      fun v h => h.mono (by omega) (by rw [hR, hu]; push_cast; omega)
    have hTm : Held tm (stepIn c bits msb inp srow m).tx (stepIn c bits msb inp srow m).ty T := by
      rw [stepIn_eq]
      exact hT.congr (fun i hi => f.outside (out _ (ho.tx i hi))) (fun i hi => f.outside (out _ (ho.ty i hi)))
    have hRm : Held tm (stepIn c bits msb inp srow m).rx (stepIn c bits msb inp srow m).ry (acc (kBit (inp.k.value t).val bits msb) m • T) := by
      rw [stepIn_eq]; exact hA
    have hbm : (stepIn c bits msb inp srow m).k.value tm = ((kBit (inp.k.value t).val bits msb (m + 1)).toNat : ZMod n) := by
      rw [stepIn_eq]; exact g (m + 1) (by omega)
    have hkm : Sat tm (addConsts c (stepRow bits srow m + 65)) := by
      have h := hcst.2 m (by omega)
      have hcst' : ∀ i r, tm .constant i r = t .constant i r := fun i r => f.const i r
      simp only [addConsts, List.range, List.range.loop, List.map_cons, List.map_nil, sat_cons, holds_constant, sat_nil, and_true, hcst'] at h ⊢
      exact h
    obtain ⟨s, sa, sH, sf⟩ := bit_complete_partial hn hc hid hkm hTm hRm hbm hos (hlow m (by omega))
    have sf : Frame c (stepRow bits srow m) 141 tm t' := sf
    have same : SameRows tm t' srow (usedRows bits m) := frame_same sf (.inl (by rw [stepRow_eq]))
    have out' : ∀ v : Var, v.Outside srow (mulRows bits) → v.Outside (stepRow bits srow m) 141 :=
      fun v h => h.mono (by rw [stepRow_eq]; omega) (by rw [stepRow_eq, hR, hu]; push_cast; omega)
    refine ⟨?_, ?_, ?_, ?_, ?_⟩
    · simp only [mulPrefix, sat_append]
      exact ⟨prefix_stable h253 (fun i r => sf.const i r) (fun i hi => sf.outside (out' _ (ho.tx i hi))) (fun i hi => sf.outside (out' _ (ho.ty i hi)))
        (sf.outside (out' _ ho.k)) m (by omega) same a, s⟩
    · intro i hi
      rcases Nat.lt_succ_iff_lt_or_eq.1 hi with h | rfl
      · refine bitAbsent_stable (same.mono ?_ ?_) (b i h)
        · rw [stepRow_eq]; omega
        · rw [stepRow_eq]
          have : usedRows bits i = decRows bits + 2 + i * 141 := rfl
          rw [this, hu]; push_cast; omega
      · exact sa
    · rw [acc, add_nsmul, mul_comm, mul_nsmul]
      exact sH
    · refine (f.mono (by omega) (by rw [hu, hu']; push_cast; omega)).trans (sf.mono (by rw [stepRow_eq]; omega) ?_)
      rw [stepRow_eq, hu, hu']; push_cast; omega
    · intro i hi
      rw [bitVar_stable (same.mono (by omega) (by rw [hu]; push_cast; omega)) hi]
      exact g i hi

/-- **C113**, completeness: the generated table satisfies the circuit, respects the absent constraints and holds `k T`. Missing for the full claim: columns other than the first
ones (`hid`, `hk0`), and running results for which the subtractions cannot be assigned (`BitLow`). -/
theorem mul_complete_partial (hn : 2 ^ 254 < n) (hc : c.OK 9) (hid : FirstCols c) (hk0 : c.k 0 = 0) {inp : MulIn} {srow : ℤ} {T : G}
    (hcst : MulConsts t c 253 srow) (hT : Held t inp.tx inp.ty T) (ho : inp.Outside srow (mulRows 253)) (hlt : (inp.k.value t).val < 2 ^ 253)
    (hlow : ∀ i < 252, BitLow (((inp.k.value t).val / 2 ^ (252 - i)) • T) (((inp.k.value t).val.testBit (251 - i)).toNat • T)) :
    let t' := mulAssign c 253 true inp srow t
    Sat t' (mulCircuit c 253 true inp srow) ∧ MulAbsent t' c 253 srow 252 ∧
      Held t' (mulResultX 253 srow) (mulResultY 253 srow) ((inp.k.value t).val • T) ∧ Frame c srow (mulRows 253) t t' := by
  intro t'
  have hacc : ∀ m ≤ 252, acc (kBit (inp.k.value t).val 253 true) m = (inp.k.value t).val / 2 ^ (252 - m) := by
    intro m hm
    have := acc_shift (inp.k.value t).val 252 m hm
    rw [Nat.mod_eq_of_lt] at this
    · exact this
    · rw [Nat.div_lt_iff_lt_mul (by positivity), ← pow_add]
      exact hlt.trans_le (Nat.pow_le_pow_right (by norm_num) (by omega))
  obtain ⟨a, b, hA, f, -⟩ := prefix_complete hn hc hid hk0 (msb := true) (by omega) (by omega) hcst hT ho hlt 252 le_rfl (fun i hi => by
    rw [hacc i (by omega)]
    have h := hlow i hi
    have e : kBit (inp.k.value t).val 253 true (i + 1) = (inp.k.value t).val.testBit (251 - i) := by
      simp only [kBit, bitWeight, if_true]
      congr 1; omega
    rw [e]; exact h)
  obtain ⟨ex, ey⟩ := mulResult_eq (c := c) 253 srow
  refine ⟨a, b, ?_, ?_⟩
  · rw [ex, ey]
    rw [hacc 252 le_rfl, Nat.sub_self, pow_zero, Nat.div_one] at hA
    exact hA
  · refine f.mono (by omega) ?_
    have : usedRows 253 252 = mulRows 253 := by
      show decRows 253 + 2 + 252 * 141 = decRows 253 + 252 * 141 + 2
      omega
    rw [this]

theorem low_zero (B : G) : BitLow 0 B := by
  have e1 : (0 : G).1.1 = 0 := by rw [TEd.Point.coe_zero]
  have e2 : (0 : G).1.2 = 1 := by rw [TEd.Point.coe_zero]
  unfold BitLow DblLow AddLow
  rw [nsmul_zero, e1, e2]
  refine ⟨⟨.inl ?_, .inr ?_⟩, .inl ?_⟩
  · simp
  · rw [mul_one, one_val]; norm_num
  · simp

/-- **C113 refuted** without the absent copies: for `k = 0` the output `(0, 1 + 2^66)`, not on the curve, is accepted, with all the chunks within their widths. -/
theorem mul_unsound (hn : 2 ^ 254 < n) (hc : c.OK 9) (hid : FirstCols c) (hk0 : c.k 0 = 0) {inp : MulIn} {srow : ℤ} {T : G}
    (hcst : MulConsts t c 253 srow) (hT : Held t inp.tx inp.ty T) (ho : inp.Outside srow (mulRows 253)) (hk : inp.k.value t = 0) :
    ∃ t', Frame c srow (mulRows 253) t t' ∧ Sat t' (mulCircuit c 253 true inp srow) ∧
      (∀ i < 252, DblWidths t' c (stepRow 253 srow i + 2) ∧ AddWidths t' c (stepRow 253 srow i + 65)) ∧
      Limbs t' (mulResultX 253 srow) 0 ∧ Limbs t' (mulResultY 253 srow) (1 + 2 ^ 66) ∧
      ¬ Edwards.On (dInt : ZMod modulus) (0 : ℕ) (1 + 2 ^ 66 : ℕ) := by
  have hv : (inp.k.value t).val = 0 := by rw [hk, ZMod.val_zero]
  have hb : ∀ i, kBit (inp.k.value t).val 253 true i = false := fun i => by simp [kBit, hv]
  have hacc : ∀ m, acc (kBit (inp.k.value t).val 253 true) m = 0 := by
    intro m
    induction m with
    | zero => simp [acc, hb]
    | succ m ih => rw [acc, ih, hb]; rfl
  obtain ⟨a, b, hA, f, g⟩ := prefix_complete hn hc hid hk0 (bits := 253) (msb := true) (by omega) (by omega) hcst hT ho
    (by rw [hv]; positivity) 251 (by omega) (fun i hi => by rw [hacc, zero_nsmul]; exact low_zero _)
  set tm := mulRun c 253 true inp srow t 251 with htm
  rw [hacc, zero_nsmul] at hA
  have hR : mulRows 253 = decRows 253 + 252 * 141 + 2 := rfl
  have hu : usedRows 253 251 = decRows 253 + 2 + 251 * 141 := rfl
  have hos := step_outside (c := c) (msb := true) le_rfl ho (show 251 < 252 by omega)
  have out : ∀ v : Var, v.Outside srow (mulRows 253) → v.Outside srow (usedRows 253 251) :=
    fun v h => h.mono (by omega) (by rw [hR, hu]; push_cast; omega)
  have hTm : Held tm (stepIn c 253 true inp srow 251).tx (stepIn c 253 true inp srow 251).ty T := by
    rw [stepIn_eq]
    exact hT.congr (fun i hi => f.outside (out _ (ho.tx i hi))) (fun i hi => f.outside (out _ (ho.ty i hi)))
  have hRm : Held tm (stepIn c 253 true inp srow 251).rx (stepIn c 253 true inp srow 251).ry 0 := by
    rw [stepIn_eq]; exact hA
  have hbm : (stepIn c 253 true inp srow 251).k.value tm = 0 := by
    rw [stepIn_eq]
    have := g 252 (by omega)
    rw [hb] at this
    simpa using this
  have hkm : Sat tm (addConsts c (stepRow 253 srow 251 + 65)) := by
    have h := hcst.2 251 (by omega)
    have hcst' : ∀ i r, tm .constant i r = t .constant i r := fun i r => f.const i r
    simp only [addConsts, List.range, List.range.loop, List.map_cons, List.map_nil, sat_cons, holds_constant, sat_nil, and_true, hcst'] at h ⊢
    exact h
  obtain ⟨t', s, w1, w2, sf, rx, ry⟩ := bit_unsound hn hc hid hkm hTm hRm hbm hos
  have same : SameRows tm t' srow (usedRows 253 251) := frame_same sf (.inl (by rw [stepRow_eq]))
  have out' : ∀ v : Var, v.Outside srow (mulRows 253) → v.Outside (stepRow 253 srow 251) 141 :=
    fun v h => h.mono (by rw [stepRow_eq]; omega) (by rw [stepRow_eq, hR, hu]; push_cast; omega)
  obtain ⟨ex, ey⟩ := mulResult_eq (c := c) 253 srow
  rw [ex, ey]
  refine ⟨t', ?_, ?_, ?_, rx, ry, ?_⟩
  · refine (f.mono (by omega) (by rw [hu, hR]; push_cast; omega)).trans (sf.mono (by rw [stepRow_eq]; omega) ?_)
    rw [stepRow_eq, hu, hR]; push_cast; omega
  · rw [mulCircuit, mulPrefix, sat_append]
    exact ⟨prefix_stable le_rfl (fun i r => sf.const i r) (fun i hi => sf.outside (out' _ (ho.tx i hi))) (fun i hi => sf.outside (out' _ (ho.ty i hi)))
      (sf.outside (out' _ ho.k)) 251 (by omega) same a, s⟩
  · intro i hi
    by_cases h : i = 251
    · subst h; exact ⟨w1, w2⟩
    · have hb := bitAbsent_stable (same.mono (row' := stepRow 253 srow i) (k' := 141) (by rw [stepRow_eq]; omega) (by
        rw [stepRow_eq]
        have : usedRows 253 i = decRows 253 + 2 + i * 141 := rfl
        rw [this, hu]; push_cast; omega)) (b i (by omega))
      exact ⟨hb.1, hb.2.2⟩
  · exact not_on_forged

end complete

/-! ### Instances over the Pallas base field -/

/-- The base point of Ed25519. -/
def basePt : G := ⟨((baseX : ZMod modulus), (baseY : ZMod modulus)), (Edwards.on_iff_ted _ _ _).1 on_base⟩

/-- The point and the scalar in the public input. -/
def exIn : MulIn := ⟨fun i => ⟨0, i, false, .publicInput⟩, fun i => ⟨1, i, false, .publicInput⟩, ⟨2, 0, false, .publicInput⟩⟩

/-- Constants of all the steps (of the component placed at row 0), the base point and the scalar `k`. -/
def exTable (k : ℕ) : Table (ZMod pallasP) := fun ty i r =>
  if ty = .publicInput then if i = 0 then (limb baseX r.toNat : ZMod pallasP) else if i = 1 then (limb baseY r.toNat : ZMod pallasP) else k
  else if ty = .constant then if r = 0 then 0 else (limb dInt ((r - 151) % 141).toNat : ZMod pallasP) else 0

theorem decRows_253 : decRows 253 = 33 := by decide

theorem exTable_consts (k : ℕ) : MulConsts (exTable k) cols9k 253 0 := by
  refine ⟨by simp [exTable], fun i _ => ?_⟩
  have e : ∀ j : ℕ, j < 4 → exTable k .constant (cols9k.k 0) (stepRow 253 0 i + 65 + 47 + (4 + j : ℕ)) = (limb dInt j : ZMod pallasP) := by
    intro j hj
    have h1 : stepRow 253 0 i + 65 + 47 + ((4 + j : ℕ) : ℤ) = 151 + j + 141 * i := by
      rw [stepRow_eq]
      simp only [usedRows, decRows_253]
      push_cast; ring
    have h2 : ((151 + (j : ℤ) + 141 * i - 151) % 141).toNat = j := by
      have : (151 + (j : ℤ) + 141 * i - 151) % 141 = j := by omega
      rw [this]; rfl
    simp only [exTable, h1, h2]
    rw [if_neg (by decide), if_pos trivial, if_neg (by omega)]
  simp only [addConsts, List.range, List.range.loop, List.map_cons, List.map_nil, sat_cons, holds_constant, sat_nil, and_true]
  exact ⟨e 0 (by omega), e 1 (by omega), e 2 (by omega), e 3 (by omega)⟩

theorem limbs_of {t : Table (ZMod pallasP)} {v : ℕ → Var} {x : ℕ} (hx : x < 2 ^ 255) (h : ∀ i < 4, (v i).value t = (limb x i : ZMod pallasP)) :
    Limbs t v x := by
  obtain ⟨l3, le⟩ := limb_num hx
  exact ⟨limb x 0, limb x 1, limb x 2, limb x 3, limb_lt _ _, limb_lt _ _, limb_lt _ _, l3, h 0 (by omega), h 1 (by omega), h 2 (by omega),
    h 3 (by omega), le⟩

theorem exTable_held (k : ℕ) : Held (exTable k) exIn.tx exIn.ty basePt := by
  have e1 : basePt.1.1.val = baseX := val_cast (by decide +kernel)
  have e2 : basePt.1.2.val = baseY := val_cast (by decide +kernel)
  unfold Held
  rw [e1, e2]
  refine ⟨limbs_of (by decide +kernel) fun i hi => ?_, limbs_of (by decide +kernel) fun i hi => ?_⟩ <;>
  · interval_cases i <;> rfl

theorem exIn_outside (s : ℤ) (r : ℕ) : exIn.Outside s r :=
  ⟨fun _ _ h => (by cases h), fun _ _ h => (by cases h), fun h => (by cases h)⟩

theorem two_base : (2 • basePt : G).1 = ((twoX : ZMod modulus), (twoY : ZMod modulus)) := by
  rw [two_nsmul, sum_coords (P := basePt) (Q := basePt) rfl rfl rfl rfl, base_dbl.1, base_dbl.2]

theorem three_base : (3 • basePt : G).1 = ((threeX : ZMod modulus), (threeY : ZMod modulus)) := by
  rw [show (3 : ℕ) = 1 + 2 from rfl, add_nsmul, one_nsmul]
  rw [sum_coords (P := basePt) (Q := 2 • basePt) (x2 := twoX) (y2 := twoY) rfl rfl (by rw [two_base]) (by rw [two_base]), base_three.1, base_three.2]

theorem base_bit_low : BitLow basePt basePt := by
  refine ⟨base_dbl_low, ?_⟩
  rw [two_base]
  show AddLow (twoX : ZMod modulus) twoY baseX baseY
  have h : Edwards.addY (dInt : ZMod modulus) twoX twoY baseX baseY = threeY := by
    have := sum_coords (P := 2 • basePt) (Q := basePt) (x1 := twoX) (y1 := twoY) (x2 := baseX) (y2 := baseY) (by rw [two_base]) (by rw [two_base]) rfl rfl
    rw [← succ_nsmul, three_base] at this
    exact (congrArg Prod.snd this).symm
  unfold AddLow
  rw [h]
  right
  have e : (threeY : ZMod modulus) * (dInt * (twoX * baseY * (twoY * baseX)))
      = ((threeY * (dInt * (twoX * baseY * (twoY * baseX))) : ℕ) : ZMod modulus) := by push_cast; ring
  rw [e, ZMod.val_natCast, ZMod.val_natCast]
  decide +kernel

theorem exK (k : ℕ) (hk : k < pallasP) : (exIn.k.value (exTable k)).val = k := by
  show ((k : ℕ) : ZMod pallasP).val = k
  exact ZMod.val_cast_of_lt hk

/-- Three times the base point: the generated table satisfies the circuit and all the hypotheses of soundness. -/
example : let t' := mulAssign cols9k 253 true exIn 0 (exTable 3)
    Sat t' (mulCircuit cols9k 253 true exIn 0) ∧ MulAbsent t' cols9k 253 0 252 ∧ Limbs t' (mulResultX 253 0) threeX ∧
      Limbs t' (mulResultY 253 0) threeY := by
  have hk := exK 3 (by decide +kernel)
  obtain ⟨a, b, h, -⟩ := mul_complete_partial (T := basePt) (t := exTable 3) pallas_large cols9k_ok cols9k_id rfl (exTable_consts 3) (exTable_held 3) (exIn_outside _ _)
    (by rw [hk]; norm_num) (by
      rw [hk]
      intro i hi
      by_cases h : i = 251
      · subst h
        simp only [show 252 - 251 = 1 from rfl, show 251 - 251 = 0 from rfl, show 3 / 2 ^ 1 = 1 from rfl, one_nsmul, show Nat.testBit 3 0 = true from rfl, Bool.toNat_true]
        exact base_bit_low
      · have : 3 / 2 ^ (252 - i) = 0 := by
          apply Nat.div_eq_of_lt
          calc 3 < 2 ^ 2 := by norm_num
            _ ≤ 2 ^ (252 - i) := Nat.pow_le_pow_right (by norm_num) (by omega)
        rw [this, zero_nsmul]
        exact low_zero _)
  rw [hk] at h
  unfold Held at h
  rw [three_base, val_cast (by decide +kernel), val_cast (by decide +kernel)] at h
  exact ⟨a, b, h.1, h.2⟩

/-- A forged output for `k = 0`. -/
example : ∃ t' : Table (ZMod pallasP), Sat t' (mulCircuit cols9k 253 true exIn 0) ∧ Limbs t' (mulResultX 253 0) 0 ∧ Limbs t' (mulResultY 253 0) (1 + 2 ^ 66) := by
  obtain ⟨t', -, a, -, b, c, -⟩ := mul_unsound (T := basePt) (t := exTable 0) pallas_large cols9k_ok cols9k_id rfl (exTable_consts 0) (exTable_held 0)
    (exIn_outside _ _) (by show ((0 : ℕ) : ZMod pallasP) = 0; simp)
  exact ⟨t', a, b, c⟩

end EdMul
end Verif
