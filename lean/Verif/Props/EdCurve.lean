import Verif.Props.EdProgram
import Verif.Props.Ed25519Free
import Verif.Core.Edwards
import Verif.Core.Prime25519
import Verif.Core.Primality
import Mathlib.FieldTheory.Finite.Basic
import Mathlib.Tactic.LinearCombination
import Mathlib.Tactic.IntervalCases

/-!
# C70: complete addition of points of Ed25519 on limbs

With the chunks within their widths, `complete_addition` computes the sum of two points of the curve.
-/

set_option linter.unusedSimpArgs false
set_option linter.unusedVariables false
set_option linter.unusedSectionVars false
set_option exponentiation.threshold 600

namespace Verif
namespace EdCurve

open Ed25519

/-! ### The curve -/

instance factModulus : Fact modulus.Prime := ⟨by rw [modulus_val]; exact p25519_prime⟩

theorem pow_cast (a e r : ℕ) (he : e < 2 ^ 256) (h : powMod modulus 256 a e = r) :
    ((a : ℕ) : ZMod modulus) ^ e = (r : ℕ) := by
  rw [powMod_eq _ _ _ _ he] at h
  rw [← h, ZMod.natCast_mod]
  push_cast
  rfl

theorem neg_one_cast : ((modulus - 1 : ℕ) : ZMod modulus) = -1 := by
  rw [Nat.cast_sub modulus_pos, ZMod.natCast_self]
  simp

theorem complete : Edwards.Complete (dInt : ZMod modulus) where
  two := by
    intro h
    have h' : ((2 : ℕ) : ZMod modulus) = ((0 : ℕ) : ZMod modulus) := by exact_mod_cast h
    rw [ZMod.natCast_eq_natCast_iff'] at h'
    revert h'
    rw [modulus_val]
    decide
  neg := by
    refine ⟨(2 : ZMod modulus) ^ ((modulus - 1) / 4), ?_⟩
    rw [← pow_mul]
    have h := pow_cast 2 ((modulus - 1) / 4 * 2) (modulus - 1) (by rw [modulus_val]; norm_num) (by decide +kernel)
    rw [neg_one_cast] at h
    exact_mod_cast h
  non := by
    intro h
    have h1 : (dInt : ZMod modulus) ^ ((modulus - 1) / 2) = ((modulus - 1 : ℕ) : ZMod modulus) :=
      pow_cast dInt ((modulus - 1) / 2) (modulus - 1) (by rw [modulus_val]; norm_num) (by decide +kernel)
    rw [neg_one_cast] at h1
    obtain ⟨r, hr⟩ := h
    have hr0 : r ≠ 0 := by
      rintro rfl
      rw [hr, mul_zero, zero_pow (by rw [modulus_val]; norm_num)] at h1
      exact one_ne_zero (α := ZMod modulus) (by linear_combination h1)
    have h2 : (dInt : ZMod modulus) ^ ((modulus - 1) / 2) = 1 := by
      rw [hr, ← pow_two, ← pow_mul]
      have : 2 * ((modulus - 1) / 2) = modulus - 1 := by rw [modulus_val]
      rw [this]
      exact ZMod.pow_card_sub_one_eq_one hr0
    rw [h2] at h1
    have h3 : ((2 : ℕ) : ZMod modulus) = ((0 : ℕ) : ZMod modulus) := by push_cast; linear_combination h1
    rw [ZMod.natCast_eq_natCast_iff'] at h3
    revert h3
    rw [modulus_val]
    decide

/-! ### Soundness -/

theorem dInt_lt : dInt < 2 ^ 255 := by decide +kernel

section sound
variable {F : Type*} [Field F] {t : Table F} {c : Cols} {n : ℕ} [CharP F n]

theorem cast_inj (hn : 2 ^ 254 < n) {a b : ℕ} (ha : a < 2 ^ 66) (hb : b < 2 ^ 66) (h : (a : F) = b) : a = b := by
  rw [CharP.natCast_eq_natCast F n] at h
  exact h.eq_of_lt_of_lt (by omega) (by omega)

/-- Two numbers with the same limbs. -/
theorem limbs_eq (hn : 2 ^ 254 < n) {v w : ℕ → Var} {x y : ℕ} (hx : Limbs t v x) (hy : Limbs t w y)
    (h : ∀ i < 4, (v i).value t = (w i).value t) : x = y := by
  obtain ⟨a0, a1, a2, a3, h0, h1, h2, h3, e0, e1, e2, e3, rfl⟩ := hx
  obtain ⟨b0, b1, b2, b3, g0, g1, g2, g3, f0, f1, f2, f3, rfl⟩ := hy
  have k0 := h 0 (by omega); have k1 := h 1 (by omega); have k2 := h 2 (by omega); have k3 := h 3 (by omega)
  rw [e0, f0] at k0; rw [e1, f1] at k1; rw [e2, f2] at k2; rw [e3, f3] at k3
  rw [cast_inj hn h0 g0 k0, cast_inj hn h1 g1 k1, cast_inj hn h2 g2 k2,
    cast_inj hn (h3.trans (by norm_num)) (g3.trans (by norm_num)) k3]

/-- Chunks of complete addition within their widths. -/
def AddWidths (t : Table F) (c : Cols) (srow : ℤ) : Prop :=
  RangeCells t c srow ∧ RangeCells t c (srow + 2) ∧ Widths t c addProg (srow + 4)

theorem dVars_limbs {srow : ℤ} (h : Sat t (addConsts c srow)) : Limbs t (dVars c srow) dInt := by
  simp only [addConsts, List.range, List.range.loop, List.map_cons, List.map_nil, sat_cons, holds_constant, sat_nil,
    and_true] at h
  obtain ⟨l3, le⟩ := limb_num dInt_lt
  exact ⟨limb dInt 0, limb dInt 1, limb dInt 2, limb dInt 3, limb_lt _ _, limb_lt _ _, limb_lt _ _, l3, h.1, h.2.1,
    h.2.2.1, h.2.2.2, le⟩

theorem addRegs_out (c : Cols) (R : Regs) (srow : ℤ) :
    regs c addProg 7 R (srow + 4) 11 = (fun i : ℕ => c.wa i (srow + 32 + 2)) ∧
    regs c addProg 7 R (srow + 4) 12 = (fun i : ℕ => c.wa i (srow + 36 + 2)) ∧
    regs c addProg 7 R (srow + 4) 17 = (fun i : ℕ => c.wa i (srow + addRows - 4 - 2)) ∧
    regs c addProg 7 R (srow + 4) 18 = (fun i : ℕ => c.wa i (srow + addRows - 2)) := by
  refine ⟨?_, ?_, ?_, ?_⟩ <;> funext i <;>
    simp [regs, addProg, Function.update, Kind.result, Kind.rows, addResult, addRows] <;> congr 1 <;> ring

theorem add_values {K : Type*} [CommRing K] (v : ℕ → K) :
    values addProg 7 v 11 = v 0 * v 3 + v 1 * v 2 ∧ values addProg 7 v 12 = v 0 * v 2 + v 1 * v 3 ∧
    values addProg 7 v 17 = v 4 + v 4 * (v 6 * (v 0 * v 3 * (v 1 * v 2))) ∧
    values addProg 7 v 18 = v 5 - v 5 * (v 6 * (v 0 * v 3 * (v 1 * v 2))) := by
  refine ⟨?_, ?_, ?_, ?_⟩ <;> simp [values, addProg, Function.update, Kind.eval]

theorem addProg_fits : Fits addProg 7 := by simp [addProg, Fits]

/-- **C70**: the output is the sum of the points. -/
theorem add_sound (hodd : n % 2 = 1) (hn : 2 ^ 254 < n) {inp : AddIn} {srow : ℤ} {x1 y1 x2 y2 : ℕ}
    (h : Sat t (addCircuit c inp srow)) (hw : AddWidths t c srow)
    (hx1 : Limbs t inp.tx x1) (hy1 : Limbs t inp.ty y1) (hx2 : Limbs t inp.rx x2) (hy2 : Limbs t inp.ry y2)
    (h1 : Edwards.On (dInt : ZMod modulus) x1 y1) (h2 : Edwards.On (dInt : ZMod modulus) x2 y2) :
    ∃ x y : ℕ, Limbs t (resultX c srow) x ∧ Limbs t (resultY c srow) y ∧
      (x : ZMod modulus) = Edwards.addX (dInt : ZMod modulus) x1 y1 x2 y2 ∧
      (y : ZMod modulus) = Edwards.addY (dInt : ZMod modulus) x1 y1 x2 y2 := by
  simp only [addCircuit, sat_append] at h
  obtain ⟨hrx, hry, hp, hk, hout⟩ := h
  obtain ⟨x, hx⟩ := range_sound hrx hw.1
  obtain ⟨y, hy⟩ := range_sound hry hw.2.1
  have hd := dVars_limbs hk
  let v : ℕ → ℕ := fun i => if i = 0 then x1 else if i = 1 then y1 else if i = 2 then x2 else if i = 3 then y2 else
    if i = 4 then x else if i = 5 then y else dInt
  have hR : ∀ i < 7, Limbs t (addRegs c inp srow i) (v i) := by
    intro i hi
    interval_cases i
    · exact hx1
    · exact hy1
    · exact hx2
    · exact hy2
    · exact hx
    · exact hy
    · exact hd
  obtain ⟨v', hl, hv⟩ := prog_sound hodd hn addProg 7 _ _ v addProg_fits hR hp hw.2.2
  refine ⟨x, y, hx, hy, ?_⟩
  simp only [addCopyOut, List.range, List.range.loop, List.map_cons, List.map_nil, sat_cons, sat_append, holds_copy,
    sat_nil, and_true] at hout
  obtain ⟨⟨c0, c1, c2, c3⟩, d0, d1, d2, d3⟩ := hout
  obtain ⟨r11, r12, r17, r18⟩ := addRegs_out c (addRegs c inp srow) srow
  have o1 : v' 11 = v' 17 := limbs_eq hn (hl 11 (by decide)) (hl 17 (by decide)) fun i hi => by
    rw [r11, r17]
    interval_cases i <;> assumption
  have o2 : v' 12 = v' 18 := limbs_eq hn (hl 12 (by decide)) (hl 18 (by decide)) fun i hi => by
    rw [r12, r18]
    interval_cases i <;> assumption
  obtain ⟨w11, w12, w17, w18⟩ := add_values (fun j => (v j : ZMod modulus))
  have p1 := congrArg (Nat.cast (R := ZMod modulus)) o1
  have p2 := congrArg (Nat.cast (R := ZMod modulus)) o2
  rw [hv 11, hv 17, w11, w17] at p1
  rw [hv 12, hv 18, w12, w18] at p2
  exact Edwards.eq_add complete h1 h2 p1.symm p2.symm

end sound

/-! ### Completeness -/

theorem num_inj {a0 a1 a2 a3 b0 b1 b2 b3 : ℕ} (h0 : a0 < 2 ^ 66) (h1 : a1 < 2 ^ 66) (h2 : a2 < 2 ^ 66) (g0 : b0 < 2 ^ 66)
    (g1 : b1 < 2 ^ 66) (g2 : b2 < 2 ^ 66) (h : num a0 a1 a2 a3 = num b0 b1 b2 b3) : a0 = b0 ∧ a1 = b1 ∧ a2 = b2 ∧ a3 = b3 := by
  unfold num at h
  norm_num at *
  omega

/-- The limbs of a number are determined. -/
theorem limbs_same {F : Type*} [Field F] {t : Table F} {v w : ℕ → Var} {x : ℕ} (hx : Limbs t v x) (hy : Limbs t w x) :
    ∀ i < 4, (v i).value t = (w i).value t := by
  obtain ⟨a0, a1, a2, a3, h0, h1, h2, h3, e0, e1, e2, e3, ha⟩ := hx
  obtain ⟨b0, b1, b2, b3, g0, g1, g2, g3, f0, f1, f2, f3, hb⟩ := hy
  obtain ⟨rfl, rfl, rfl, rfl⟩ := num_inj h0 h1 h2 g0 g1 g2 (ha.symm.trans hb)
  intro i hi
  interval_cases i
  · rw [e0, f0]
  · rw [e1, f1]
  · rw [e2, f2]
  · rw [e3, f3]

section complete
variable {n : ℕ} [Fact n.Prime] {c : Cols}

/-- A register is one of the coordinates of the result or a variable from elsewhere. -/
def RegOk (t : Table (ZMod n)) (c : Cols) (srow : ℤ) (rows px py : ℕ) (r : ℕ → Var) (x : ℕ) : Prop :=
  (r = limbVars c srow ∧ x = px) ∨ (r = limbVars c (srow + 2) ∧ x = py) ∨
    (Limbs t r x ∧ x < modulus ∧ ∀ j < 4, (r j).Outside srow rows)

theorem pair_complete (hn : 2 ^ 254 < n) (hc : c.OK 9) (hid : ∀ i : ℕ, i < 4 → c.w i = i) (l : List Call) (k : ℕ)
    (R : Regs) (srow : ℤ) (v : ℕ → ℕ) (t : Table (ZMod n)) {px py : ℕ} (hpx : px < modulus) (hpy : py < modulus)
    (hf : Fits l k) (hR : ∀ i < k, RegOk t c srow (4 + rows l) px py (R i) (v i)) (hlow : Low l k v) :
    let t' := assigns c l k R (srow + 4) (putLimbs c (srow + 2) py (putLimbs c srow px t))
    Sat t' (rangeCircuit c (limbVars c srow) srow) ∧ Sat t' (rangeCircuit c (limbVars c (srow + 2)) (srow + 2)) ∧
      Sat t' (circuits c l k R (srow + 4)) ∧ (∀ i < k + l.length, Limbs t' (regs c l k R (srow + 4) i) (nats l k v i)) ∧
      RangeCells t' c srow ∧ RangeCells t' c (srow + 2) ∧ Widths t' c l (srow + 4) ∧ Limbs t' (limbVars c srow) px ∧
      Limbs t' (limbVars c (srow + 2)) py ∧ Frame c srow (4 + rows l) t t' := by
  obtain ⟨a1, a2, a3, a4⟩ := putLimbs_spec hn hc srow hpx t
  set t1 := putLimbs c srow px t with ht1
  obtain ⟨b1, b2, b3, b4⟩ := putLimbs_spec hn hc (srow + 2) hpy t1
  set t2 := putLimbs c (srow + 2) py t1 with ht2
  have s12 : SameRows t1 t2 srow 2 := fun i r h1 h2 => b4.row (by omega) _ _
  have hv2 : ∀ i < 4, (limbVars c srow i).value t2 = (limbVars c srow i).value t1 := fun i hi =>
    s12 _ srow (by omega) (by omega)
  obtain ⟨p1, p2, p3, p4⟩ := prog_complete hn hc hid l k R (srow + 4) v t2 hf (fun i hi => by
      rcases hR i hi with ⟨h1, h2⟩ | ⟨h1, h2⟩ | ⟨h1, h2, h3⟩
      · rw [h1, h2]; exact limbs_stable hv2 a2
      · rw [h1, h2]; exact b2
      · refine limbs_stable (fun j hj => b4.outside ?_) (limbs_stable (fun j hj => a4.outside ?_) h1)
        · exact Var.Outside.mono (h3 j hj) (by omega) (by push_cast; omega)
        · exact Var.Outside.mono (h3 j hj) (by omega) (by push_cast; omega)) (fun i hi => by
      rcases hR i hi with ⟨h1, h2⟩ | ⟨h1, h2⟩ | ⟨h1, h2, h3⟩
      · rw [h2]; exact hpx
      · rw [h2]; exact hpy
      · exact h2) (fun i hi j hj => by
      rcases hR i hi with ⟨h1, h2⟩ | ⟨h1, h2⟩ | ⟨h1, h2, h3⟩
      · rw [h1]; intro _; left; show srow < _; omega
      · rw [h1]; intro _; left; show srow + 2 < _; omega
      · exact Var.Outside.mono (h3 j hj) (by omega) (by push_cast; omega)) hlow
  intro t'
  have s2 : SameRows t2 t' srow 4 := fun i r h1 h2 => p4.row (by omega) _ _
  have sA : SameRows t1 t' srow 2 := fun i r h1 h2 => (s2 i r h1 (by omega)).trans (s12 i r h1 h2)
  have sB : SameRows t2 t' (srow + 2) 2 := s2.mono (by omega) (by omega)
  have vA : ∀ i < 4, (limbVars c srow i).value t' = (limbVars c srow i).value t1 := fun i hi =>
    sA _ srow (by omega) (by omega)
  have vB : ∀ i < 4, (limbVars c (srow + 2) i).value t' = (limbVars c (srow + 2) i).value t2 := fun i hi =>
    sB _ (srow + 2) (by omega) (by omega)
  exact ⟨range_stable sA vA a1, range_stable sB vB b1, p1, p2, rangeCells_stable sA a3, rangeCells_stable sB b3, p3,
    limbs_stable vA a2, limbs_stable vB b2, (a4.mono (by omega) (by push_cast; omega)).trans
      ((b4.mono (by omega) (by push_cast; omega)).trans (p4.mono (by omega) (by push_cast; omega)))⟩

/-- `generate_circuit` writes the constants (complete_addition.hpp:529-530). -/
theorem addConsts_written (c : Cols) (srow : ℤ) (t : Table (ZMod n)) :
    Sat (writeConsts (addConsts c srow) t) (addConsts c srow) := by
  simp only [addConsts, List.range, List.range.loop, List.map_cons, List.map_nil, writeConsts_constant, writeConsts_nil,
    sat_cons, holds_constant, sat_nil, and_true, Table.set]
  simp

/-- The condition under which `P_y - k2` can be assigned: no borrow past 19 units of the lowest limb (see
`Ed25519.sub_complete_partial`). -/
def AddLow (x1 y1 x2 y2 : ZMod modulus) : Prop :=
  let y := Edwards.addY (dInt : ZMod modulus) x1 y1 x2 y2
  let k2 := y * (dInt * (x1 * y2 * (y1 * x2)))
  k2.val ≤ y.val ∨ k2.val % 2 ^ 66 ≤ y.val % 2 ^ 66 + (2 ^ 66 - 19)

theorem val_cast {x : ℕ} (hx : x < modulus) : ((x : ZMod modulus)).val = x := ZMod.val_cast_of_lt hx

theorem coord_eq (hn : 2 ^ 254 < n) {t : Table (ZMod n)} {v : ℕ → Var} {x : ℕ} (h : Limbs t v x) :
    coord t v = (x : ZMod modulus) := by
  unfold coord
  rw [compose_eq, (limbs_val hn h).2.2.2.2.2]

theorem add_low {v : ℕ → ℕ} (hv : ∀ i < 7, v i < modulus)
    (h : v 5 * (v 6 * ((v 0 * v 3 % modulus) * (v 1 * v 2 % modulus) % modulus) % modulus) % modulus ≤ v 5 ∨
      v 5 * (v 6 * ((v 0 * v 3 % modulus) * (v 1 * v 2 % modulus) % modulus) % modulus) % modulus % 2 ^ 66 ≤
        v 5 % 2 ^ 66 + (2 ^ 66 - 19)) : Low addProg 7 v := by
  simp only [addProg, Low, Kind.Low, Function.update, Kind.nat, true_and, and_true]
  simpa using h

/-- The table generated for any `X`, `Y` that satisfy the two equations of the sum. -/
theorem addWith_sat (hn : 2 ^ 254 < n) (hc : c.OK 9) (hid : ∀ i : ℕ, i < 4 → c.w i = i) {inp : AddIn} {srow : ℤ}
    {t : Table (ZMod n)} {x1 y1 x2 y2 : ℕ} (hk : Sat t (addConsts c srow))
    (hx1 : Limbs t inp.tx x1) (hy1 : Limbs t inp.ty y1) (hx2 : Limbs t inp.rx x2) (hy2 : Limbs t inp.ry y2)
    (px1 : x1 < modulus) (py1 : y1 < modulus) (px2 : x2 < modulus) (py2 : y2 < modulus)
    (ho : ∀ i < 4, (inp.tx i).Outside srow addRows ∧ (inp.ty i).Outside srow addRows ∧
      (inp.rx i).Outside srow addRows ∧ (inp.ry i).Outside srow addRows) {X Y : ZMod modulus}
    (e1 : X + X * ((dInt : ZMod modulus) * ((x1 : ZMod modulus) * y2 * (y1 * x2))) = x1 * y2 + y1 * x2) (e2 : Y - Y * ((dInt : ZMod modulus) * ((x1 : ZMod modulus) * y2 * (y1 * x2))) = x1 * x2 + y1 * y2)
    (hlow : (Y * ((dInt : ZMod modulus) * (x1 * y2 * (y1 * x2)))).val ≤ Y.val ∨
      (Y * ((dInt : ZMod modulus) * (x1 * y2 * (y1 * x2)))).val % 2 ^ 66 ≤ Y.val % 2 ^ 66 + (2 ^ 66 - 19)) :
    let t' := addWith c inp srow X.val Y.val t
    Sat t' (addCircuit c inp srow) ∧ AddWidths t' c srow ∧ Limbs t' (resultX c srow) X.val ∧
      Limbs t' (resultY c srow) Y.val ∧ Frame c srow addRows t t' := by
  let v : ℕ → ℕ := fun i => if i = 0 then x1 else if i = 1 then y1 else if i = 2 then x2 else if i = 3 then y2 else
    if i = 4 then X.val else if i = 5 then Y.val else dInt
  have hdlt : dInt < modulus := by decide +kernel
  have hrows : 4 + rows addProg = addRows := by decide
  have hR : ∀ i < 7, RegOk t c srow (4 + rows addProg) X.val Y.val (addRegs c inp srow i) (v i) := by
    rw [hrows]
    intro i hi
    interval_cases i
    · exact .inr (.inr ⟨hx1, px1, fun j hj => (ho j hj).1⟩)
    · exact .inr (.inr ⟨hy1, py1, fun j hj => (ho j hj).2.1⟩)
    · exact .inr (.inr ⟨hx2, px2, fun j hj => (ho j hj).2.2.1⟩)
    · exact .inr (.inr ⟨hy2, py2, fun j hj => (ho j hj).2.2.2⟩)
    · exact .inl ⟨rfl, rfl⟩
    · exact .inr (.inl ⟨rfl, rfl⟩)
    · exact .inr (.inr ⟨dVars_limbs hk, hdlt, fun j hj h => by cases h⟩)
  have hvlt : ∀ i < 7, v i < modulus := by
    intro i hi
    interval_cases i
    · exact px1
    · exact py1
    · exact px2
    · exact py2
    · exact ZMod.val_lt X
    · exact ZMod.val_lt Y
    · exact hdlt
  have hL : Low addProg 7 v := by
    refine add_low hvlt ?_
    have e : (Y * ((dInt : ZMod modulus) * (x1 * y2 * (y1 * x2)))).val
        = v 5 * (v 6 * ((v 0 * v 3 % modulus) * (v 1 * v 2 % modulus) % modulus) % modulus) % modulus := by
      rw [← ZMod.val_natCast]
      congr 1
      push_cast [ZMod.natCast_mod]
      show _ = ((Y.val : ℕ) : ZMod modulus) * _
      rw [ZMod.natCast_zmod_val]
      rfl
    rw [← e]
    exact hlow
  obtain ⟨q1, q2, q3, q4, q5, q6, q7, q8, q9, q10⟩ := pair_complete hn hc hid addProg 7 (addRegs c inp srow) srow v t
    (ZMod.val_lt X) (ZMod.val_lt Y) addProg_fits hR hL
  obtain ⟨r11, r12, r17, r18⟩ := addRegs_out c (addRegs c inp srow) srow
  obtain ⟨w11, w12, w17, w18⟩ := add_values (fun j => (v j : ZMod modulus))
  have vx : (v 4 : ZMod modulus) = X := ZMod.natCast_zmod_val X
  have vy : (v 5 : ZMod modulus) = Y := ZMod.natCast_zmod_val Y
  have o1 : nats addProg 7 v 11 = nats addProg 7 v 17 := by
    have h11 := nats_values addProg 7 v addProg_fits hvlt 11
    have h17 := nats_values addProg 7 v addProg_fits hvlt 17
    rw [w11] at h11
    rw [w17, vx] at h17
    have : (nats addProg 7 v 11 : ZMod modulus) = nats addProg 7 v 17 := by rw [h11, h17]; exact e1.symm
    rw [ZMod.natCast_eq_natCast_iff', Nat.mod_eq_of_lt (nats_lt _ _ _ hvlt _ (by decide)),
      Nat.mod_eq_of_lt (nats_lt _ _ _ hvlt _ (by decide))] at this
    exact this
  have o2 : nats addProg 7 v 12 = nats addProg 7 v 18 := by
    have h11 := nats_values addProg 7 v addProg_fits hvlt 12
    have h17 := nats_values addProg 7 v addProg_fits hvlt 18
    rw [w12] at h11
    rw [w18, vy] at h17
    have : (nats addProg 7 v 12 : ZMod modulus) = nats addProg 7 v 18 := by rw [h11, h17]; exact e2.symm
    rw [ZMod.natCast_eq_natCast_iff', Nat.mod_eq_of_lt (nats_lt _ _ _ hvlt _ (by decide)),
      Nat.mod_eq_of_lt (nats_lt _ _ _ hvlt _ (by decide))] at this
    exact this
  have l1 := limbs_same (q4 11 (by decide)) (o1 ▸ q4 17 (by decide))
  have l2 := limbs_same (q4 12 (by decide)) (o2 ▸ q4 18 (by decide))
  rw [r11, r17] at l1
  rw [r12, r18] at l2
  rw [hrows] at q10
  refine ⟨?_, ⟨q5, q6, q7⟩, q8, q9, q10⟩
  simp only [addCircuit, sat_append]
  refine ⟨q1, q2, q3, ?_, ?_⟩
  · simp only [addConsts, List.range, List.range.loop, List.map_cons, List.map_nil, sat_cons, holds_constant, sat_nil,
      and_true] at hk ⊢
    have hcst : ∀ i r, addWith c inp srow X.val Y.val t .constant i r = t .constant i r := fun i r => q10.const _ _
    simp only [hcst]
    exact hk
  · simp only [addCopyOut, List.range, List.range.loop, List.map_cons, List.map_nil, sat_cons, sat_append, holds_copy,
      sat_nil, and_true]
    exact ⟨⟨l1 0 (by omega), l1 1 (by omega), l1 2 (by omega), l1 3 (by omega)⟩,
      l2 0 (by omega), l2 1 (by omega), l2 2 (by omega), l2 3 (by omega)⟩

/-- **C70**: the generated table satisfies the circuit and holds the sum. Missing for the full claim: columns of the
component other than the first ones (`hid`), and inputs for which the subtraction cannot be assigned (`AddLow`). -/
theorem add_complete_partial (hn : 2 ^ 254 < n) (hc : c.OK 9) (hid : ∀ i : ℕ, i < 4 → c.w i = i) {inp : AddIn} {srow : ℤ}
    {t : Table (ZMod n)} {x1 y1 x2 y2 : ℕ} (hk : Sat t (addConsts c srow))
    (hx1 : Limbs t inp.tx x1) (hy1 : Limbs t inp.ty y1) (hx2 : Limbs t inp.rx x2) (hy2 : Limbs t inp.ry y2)
    (px1 : x1 < modulus) (py1 : y1 < modulus) (px2 : x2 < modulus) (py2 : y2 < modulus)
    (h1 : Edwards.On (dInt : ZMod modulus) x1 y1) (h2 : Edwards.On (dInt : ZMod modulus) x2 y2)
    (ho : ∀ i < 4, (inp.tx i).Outside srow addRows ∧ (inp.ty i).Outside srow addRows ∧
      (inp.rx i).Outside srow addRows ∧ (inp.ry i).Outside srow addRows)
    (hlow : AddLow (x1 : ZMod modulus) y1 x2 y2) :
    let t' := addAssign c inp srow t
    Sat t' (addCircuit c inp srow) ∧ AddWidths t' c srow ∧
      Limbs t' (resultX c srow) (Edwards.addX (dInt : ZMod modulus) x1 y1 x2 y2).val ∧
      Limbs t' (resultY c srow) (Edwards.addY (dInt : ZMod modulus) x1 y1 x2 y2).val ∧ Frame c srow addRows t t' := by
  intro t'
  set X := Edwards.addX (dInt : ZMod modulus) x1 y1 x2 y2 with hX
  set Y := Edwards.addY (dInt : ZMod modulus) x1 y1 x2 y2 with hY
  have ht' : t' = addWith c inp srow X.val Y.val t := by
    show addAssign c inp srow t = _
    unfold addAssign
    simp only [coord_eq hn hx1, coord_eq hn hy1, coord_eq hn hx2, coord_eq hn hy2, hX, hY]
  obtain ⟨e1, e2⟩ := Edwards.add_eq complete h1 h2
  rw [ht']
  exact addWith_sat hn hc hid hk hx1 hy1 hx2 hy2 px1 py1 px2 py2 ho e1 e2 hlow

end complete
/-! ### Instance: the base point and its double, over the Pallas base field -/

def baseX : ℕ := 15112221349535400772501151409588531511454012693041857206046113283949847762202
def baseY : ℕ := 46316835694926478169428394003475163141307993866256225615783033603165251855960
def twoX : ℕ := 24727413235106541002554574571675588834622768167397638456726423682521233608206
def twoY : ℕ := 15549675580280190176352668710449542251549572066445060580507079593062643049417
def threeX : ℕ := 46896733464454938657123544595386787789046198280132665686241321779790909858396
def threeY : ℕ := 8324843778533443976490377120369201138301417226297555316741202210403726505172

theorem on_of_nat {x y : ℕ} (h : y ^ 2 % modulus = (1 + dInt * x ^ 2 * y ^ 2 + x ^ 2) % modulus) :
    Edwards.On (dInt : ZMod modulus) x y := by
  have h' := (ZMod.natCast_eq_natCast_iff' _ _ modulus).2 h
  push_cast at h'
  unfold Edwards.On
  linear_combination h'

theorem on_base : Edwards.On (dInt : ZMod modulus) baseX baseY := on_of_nat (by decide +kernel)
theorem on_two : Edwards.On (dInt : ZMod modulus) twoX twoY := on_of_nat (by decide +kernel)

theorem base_three : Edwards.addX (dInt : ZMod modulus) baseX baseY twoX twoY = threeX ∧
    Edwards.addY (dInt : ZMod modulus) baseX baseY twoX twoY = threeY := by
  obtain ⟨h1, h2⟩ := Edwards.eq_add (x := (threeX : ZMod modulus)) (y := (threeY : ZMod modulus)) complete on_base on_two
    (by
      have h : ((threeX + threeX * (dInt * (baseX * twoY * (baseY * twoX))) : ℕ) : ZMod modulus)
          = ((baseX * twoY + baseY * twoX : ℕ) : ZMod modulus) :=
        (ZMod.natCast_eq_natCast_iff' _ _ modulus).2 (by decide +kernel)
      push_cast at h
      exact h) (by
      have h : ((threeY : ℕ) : ZMod modulus)
          = ((baseX * twoX + baseY * twoY + threeY * (dInt * (baseX * twoY * (baseY * twoX))) : ℕ) : ZMod modulus) :=
        (ZMod.natCast_eq_natCast_iff' _ _ modulus).2 (by decide +kernel)
      push_cast at h
      linear_combination h)
  exact ⟨h1.symm, h2.symm⟩

theorem base_low : AddLow (baseX : ZMod modulus) baseY twoX twoY := by
  unfold AddLow
  rw [base_three.2]
  right
  have e : (threeY : ZMod modulus) * (dInt * (baseX * twoY * (baseY * twoX)))
      = ((threeY * (dInt * (baseX * twoY * (baseY * twoX))) : ℕ) : ZMod modulus) := by push_cast; ring
  rw [e, ZMod.val_natCast, ZMod.val_natCast]
  decide +kernel

/-- Columns 0 to 8 and a constant column. -/
def cols9k : Cols := ⟨[0, 1, 2, 3, 4, 5, 6, 7, 8], [0], []⟩

theorem cols9k_ok : cols9k.OK 9 := ⟨by decide, rfl⟩

theorem cols9k_id : ∀ i : ℕ, i < 4 → cols9k.w i = i := by
  intro i hi; interval_cases i <;> rfl

/-- Points in the public input. -/
def ptIn : AddIn := ⟨fun i => ⟨0, i, false, .publicInput⟩, fun i => ⟨1, i, false, .publicInput⟩,
  fun i => ⟨2, i, false, .publicInput⟩, fun i => ⟨3, i, false, .publicInput⟩⟩

def ptTable (x1 y1 x2 y2 : ℕ) : Table (ZMod pallasP) :=
  writeConsts (addConsts cols9k 0) fun ty i r => if ty = .publicInput then
    (limb (if i = 0 then x1 else if i = 1 then y1 else if i = 2 then x2 else y2) r.toNat : ZMod pallasP) else 0

theorem pt_limbs {x1 y1 x2 y2 : ℕ} (h1 : x1 < 2 ^ 255) (h2 : y1 < 2 ^ 255) (h3 : x2 < 2 ^ 255) (h4 : y2 < 2 ^ 255) :
    Limbs (ptTable x1 y1 x2 y2) ptIn.tx x1 ∧ Limbs (ptTable x1 y1 x2 y2) ptIn.ty y1 ∧
    Limbs (ptTable x1 y1 x2 y2) ptIn.rx x2 ∧ Limbs (ptTable x1 y1 x2 y2) ptIn.ry y2 := by
  obtain ⟨a3, ae⟩ := limb_num h1
  obtain ⟨b3, be⟩ := limb_num h2
  obtain ⟨c3, ce⟩ := limb_num h3
  obtain ⟨d3, de⟩ := limb_num h4
  exact ⟨⟨_, _, _, _, limb_lt _ _, limb_lt _ _, limb_lt _ _, a3, rfl, rfl, rfl, rfl, ae⟩,
    ⟨_, _, _, _, limb_lt _ _, limb_lt _ _, limb_lt _ _, b3, rfl, rfl, rfl, rfl, be⟩,
    ⟨_, _, _, _, limb_lt _ _, limb_lt _ _, limb_lt _ _, c3, rfl, rfl, rfl, rfl, ce⟩,
    ⟨_, _, _, _, limb_lt _ _, limb_lt _ _, limb_lt _ _, d3, rfl, rfl, rfl, rfl, de⟩⟩

/-- `B + 2B = 3B` in the generated table, which satisfies the circuit and the widths. -/
example : let t' := addAssign cols9k ptIn 0 (ptTable baseX baseY twoX twoY)
    Sat t' (addCircuit cols9k ptIn 0) ∧ AddWidths t' cols9k 0 ∧ Limbs t' (resultX cols9k 0) threeX ∧
      Limbs t' (resultY cols9k 0) threeY := by
  obtain ⟨h1, h2, h3, h4⟩ := pt_limbs (x1 := baseX) (y1 := baseY) (x2 := twoX) (y2 := twoY) (by decide +kernel)
    (by decide +kernel) (by decide +kernel) (by decide +kernel)
  obtain ⟨a, b, cx, cy, -⟩ := add_complete_partial pallas_large cols9k_ok cols9k_id (inp := ptIn) (srow := 0)
    (addConsts_written cols9k 0 _) h1 h2 h3 h4 (by decide +kernel) (by decide +kernel) (by decide +kernel)
    (by decide +kernel) on_base on_two
    (fun i _ => ⟨fun h => (by cases h), fun h => (by cases h), fun h => (by cases h), fun h => (by cases h)⟩) base_low
  rw [base_three.1, val_cast (by decide +kernel)] at cx
  rw [base_three.2, val_cast (by decide +kernel)] at cy
  exact ⟨a, b, cx, cy⟩

end EdCurve
end Verif
