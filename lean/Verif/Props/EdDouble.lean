import Verif.Props.EdCurve

/-!
# C71: doubling of points of Ed25519 on limbs

The copy constraints of `doubling` compare the abscissa in full, but of the ordinate only the lowest and the highest limb:
the second loop starts at the wrong column. The abscissa is sound, the ordinate is not.
-/

set_option linter.unusedSimpArgs false
set_option linter.unusedVariables false
set_option linter.unusedSectionVars false
set_option exponentiation.threshold 600

namespace Verif
namespace EdCurve

open Ed25519

theorem dblProg_fits : Fits dblProg 4 := by simp [dblProg, Fits]

theorem dblRegs_out (c : Cols) (R : Regs) (srow : ℤ) :
    regs c dblProg 4 R (srow + 4) 8 = (fun i : ℕ => c.wa i (srow + 29 + 2)) ∧
    regs c dblProg 4 R (srow + 4) 9 = (fun i : ℕ => c.wa i (srow + 33 + 2)) ∧
    regs c dblProg 4 R (srow + 4) 11 = (fun i : ℕ => c.wa ((3 + i : ℕ) : ℤ) (srow + 41 + 5)) ∧
    regs c dblProg 4 R (srow + 4) 14 = (fun i : ℕ => c.wa i (srow + 59 + 2)) := by
  refine ⟨?_, ?_, ?_, ?_⟩ <;> funext i <;>
    simp [regs, dblProg, Function.update, Kind.result, Kind.rows, addResult, mulResult] <;> congr 1 <;> ring

theorem dbl_values {K : Type*} [CommRing K] (v : ℕ → K) :
    values dblProg 4 v 8 = v 0 * v 1 + v 0 * v 1 ∧ values dblProg 4 v 9 = v 0 * v 0 + v 1 * v 1 ∧
    values dblProg 4 v 11 = v 2 * (v 1 * v 1 - v 0 * v 0) ∧
    values dblProg 4 v 14 = v 3 + v 3 + v 3 * (v 0 * v 0 - v 1 * v 1) := by
  refine ⟨?_, ?_, ?_, ?_⟩ <;> simp [values, dblProg, Function.update, Kind.eval]

/-! ### A call within a program -/

theorem circuits_split {F : Type*} [Field F] {t : Table F} {c : Cols} (q : Call) (l2 : List Call) :
    ∀ (l1 : List Call) (k : ℕ) (R : Regs) (row : ℤ), Sat t (circuits c (l1 ++ q :: l2) k R row) →
      ∃ inp, Sat t (q.kind.circuit c inp (row + rows l1)) := by
  intro l1
  induction l1 with
  | nil =>
    intro k R row h
    rw [List.nil_append, circuits, sat_append] at h
    exact ⟨_, by simpa [rows] using h.1⟩
  | cons a l ih =>
    intro k R row h
    rw [List.cons_append, circuits, sat_append] at h
    obtain ⟨inp, hi⟩ := ih _ _ _ h.2
    refine ⟨inp, ?_⟩
    have : row + (rows (a :: l) : ℕ) = row + a.kind.rows + rows l := by rw [rows]; push_cast; ring
    rw [this]
    exact hi

theorem widths_split {F : Type*} [Field F] {t : Table F} {c : Cols} (q : Call) (l2 : List Call) :
    ∀ (l1 : List Call) (row : ℤ), Widths t c (l1 ++ q :: l2) row → q.kind.Widths t c (row + rows l1) := by
  intro l1
  induction l1 with
  | nil => intro row h; simpa [rows] using h.1
  | cons a l ih =>
    intro row h
    have := ih _ h.2
    have e : row + (rows (a :: l) : ℕ) = row + a.kind.rows + rows l := by rw [rows]; push_cast; ring
    rw [e]
    exact this

/-- Lowest limb in terms of its chunks, in the result of an addition. -/
theorem low_chunks {F : Type*} [Field F] {t : Table F} {c : Cols} {inp : In} {row : ℤ}
    (h : Sat t (Kind.add.circuit c inp row)) : t .witness (c.w 0) (row + 2)
      = t .witness (c.w 4) (row + 2) + t .witness (c.w 5) (row + 2) * 2 ^ 22 + t .witness (c.w 6) (row + 2) * 2 ^ 44 := by
  have hg : (Op.gate (rangeGate c) [row + 2] : Op F).Holds t := h _ (by simp [Kind.circuit, Ed25519.addCircuit, rangeCircuit])
  simp only [rangeGate, holds_gate, List.mem_singleton, forall_eq, List.forall_mem_cons, Expr.eval_sub, Expr.eval_add,
    Expr.eval_mul, Cols.eval_wv, sh, Expr.eval_const, add_zero] at hg
  linear_combination hg.1

theorem dbl_t5 {F : Type*} [Field F] {t : Table F} {c : Cols} {R : Regs} {srow : ℤ}
    (h : Sat t (circuits c dblProg 4 R (srow + 4))) : t .witness (c.w 0) (srow + 33 + 2)
      = t .witness (c.w 4) (srow + 33 + 2) + t .witness (c.w 5) (srow + 33 + 2) * 2 ^ 22
        + t .witness (c.w 6) (srow + 33 + 2) * 2 ^ 44 := by
  obtain ⟨inp, hi⟩ := circuits_split ⟨.add, 5, 4⟩
    [⟨.sub, 5, 4⟩, ⟨.mul, 2, 7⟩, ⟨.add, 3, 3⟩, ⟨.mul, 3, 10⟩, ⟨.add, 12, 13⟩]
    [⟨.mul, 1, 1⟩, ⟨.mul, 0, 0⟩, ⟨.mul, 0, 1⟩, ⟨.sub, 4, 5⟩, ⟨.add, 6, 6⟩] 4 R (srow + 4) h
  have e : srow + 4 + (rows [⟨.mul, 1, 1⟩, ⟨.mul, 0, 0⟩, ⟨.mul, 0, 1⟩, ⟨.sub, 4, 5⟩, ⟨.add, 6, 6⟩] : ℕ) = srow + 33 := by
    simp [rows, Kind.rows]; ring
  rw [e] at hi
  exact low_chunks hi

theorem dbl_t10 {F : Type*} [Field F] {t : Table F} {c : Cols} {R : Regs} {srow : ℤ}
    (h : Sat t (circuits c dblProg 4 R (srow + 4))) : t .witness (c.w 0) (srow + 59 + 2)
      = t .witness (c.w 4) (srow + 59 + 2) + t .witness (c.w 5) (srow + 59 + 2) * 2 ^ 22
        + t .witness (c.w 6) (srow + 59 + 2) * 2 ^ 44 := by
  obtain ⟨inp, hi⟩ := circuits_split ⟨.add, 12, 13⟩ []
    [⟨.mul, 1, 1⟩, ⟨.mul, 0, 0⟩, ⟨.mul, 0, 1⟩, ⟨.sub, 4, 5⟩, ⟨.add, 6, 6⟩, ⟨.add, 5, 4⟩, ⟨.sub, 5, 4⟩, ⟨.mul, 2, 7⟩,
      ⟨.add, 3, 3⟩, ⟨.mul, 3, 10⟩] 4 R (srow + 4) h
  have e : srow + 4 + (rows [⟨.mul, 1, 1⟩, ⟨.mul, 0, 0⟩, ⟨.mul, 0, 1⟩, ⟨.sub, 4, 5⟩, ⟨.add, 6, 6⟩, ⟨.add, 5, 4⟩,
      ⟨.sub, 5, 4⟩, ⟨.mul, 2, 7⟩, ⟨.add, 3, 3⟩, ⟨.mul, 3, 10⟩] : ℕ) = srow + 59 := by
    simp [rows, Kind.rows]; ring
  rw [e] at hi
  exact low_chunks hi

theorem dbl_w5 {F : Type*} [Field F] {t : Table F} {c : Cols} {srow : ℤ} (h : Widths t c dblProg (srow + 4)) :
    RangeCells t c (srow + 33 + 2) := by
  have hi := widths_split ⟨.add, 5, 4⟩
    [⟨.sub, 5, 4⟩, ⟨.mul, 2, 7⟩, ⟨.add, 3, 3⟩, ⟨.mul, 3, 10⟩, ⟨.add, 12, 13⟩]
    [⟨.mul, 1, 1⟩, ⟨.mul, 0, 0⟩, ⟨.mul, 0, 1⟩, ⟨.sub, 4, 5⟩, ⟨.add, 6, 6⟩] (srow + 4) h
  have e : srow + 4 + (rows [⟨.mul, 1, 1⟩, ⟨.mul, 0, 0⟩, ⟨.mul, 0, 1⟩, ⟨.sub, 4, 5⟩, ⟨.add, 6, 6⟩] : ℕ) = srow + 33 := by
    simp [rows, Kind.rows]; ring
  rw [e] at hi
  exact hi.1

theorem dbl_w10 {F : Type*} [Field F] {t : Table F} {c : Cols} {srow : ℤ} (h : Widths t c dblProg (srow + 4)) :
    RangeCells t c (srow + 59 + 2) := by
  have hi := widths_split ⟨.add, 12, 13⟩ []
    [⟨.mul, 1, 1⟩, ⟨.mul, 0, 0⟩, ⟨.mul, 0, 1⟩, ⟨.sub, 4, 5⟩, ⟨.add, 6, 6⟩, ⟨.add, 5, 4⟩, ⟨.sub, 5, 4⟩, ⟨.mul, 2, 7⟩,
      ⟨.add, 3, 3⟩, ⟨.mul, 3, 10⟩] (srow + 4) h
  have e : srow + 4 + (rows [⟨.mul, 1, 1⟩, ⟨.mul, 0, 0⟩, ⟨.mul, 0, 1⟩, ⟨.sub, 4, 5⟩, ⟨.add, 6, 6⟩, ⟨.add, 5, 4⟩,
      ⟨.sub, 5, 4⟩, ⟨.mul, 2, 7⟩, ⟨.add, 3, 3⟩, ⟨.mul, 3, 10⟩] : ℕ) = srow + 59 := by
    simp [rows, Kind.rows]; ring
  rw [e] at hi
  exact hi.1

/-! ### Soundness of the abscissa -/

theorem num_split {a0 a1 a2 a3 : ℕ} (h0 : a0 < 2 ^ 66) (h1 : a1 < 2 ^ 66) (h2 : a2 < 2 ^ 66) (h3 : a3 < 2 ^ 57) :
    num a0 a1 a2 a3 < 2 ^ 255 ∧ num a0 a1 a2 a3 % 2 ^ 66 = a0 ∧ num a0 a1 a2 a3 / 2 ^ 198 = a3 := by
  unfold num
  norm_num at *
  omega

/-- Equal lowest and highest limbs. -/
theorem limbs_ends {F : Type*} [Field F] {t : Table F} {n : ℕ} [CharP F n] (hn : 2 ^ 254 < n) {v w : ℕ → Var} {x y : ℕ}
    (hx : Limbs t v x) (hy : Limbs t w y) (e0 : (v 0).value t = (w 0).value t) (e3 : (v 3).value t = (w 3).value t) :
    x < 2 ^ 255 ∧ y < 2 ^ 255 ∧ x % 2 ^ 66 = y % 2 ^ 66 ∧ x / 2 ^ 198 = y / 2 ^ 198 := by
  obtain ⟨a0, a1, a2, a3, h0, h1, h2, h3, k0, k1, k2, k3, rfl⟩ := hx
  obtain ⟨b0, b1, b2, b3, g0, g1, g2, g3, f0, f1, f2, f3, rfl⟩ := hy
  rw [k0, f0] at e0; rw [k3, f3] at e3
  have i0 := cast_inj hn h0 g0 e0
  have i3 := cast_inj hn (h3.trans (by norm_num)) (g3.trans (by norm_num)) e3
  obtain ⟨p1, p2, p3⟩ := num_split h0 h1 h2 h3
  obtain ⟨q1, q2, q3⟩ := num_split g0 g1 g2 g3
  exact ⟨p1, q1, by rw [p2, q2, i0], by rw [p3, q3, i3]⟩

section sound
variable {F : Type*} [Field F] {t : Table F} {c : Cols} {n : ℕ} [CharP F n]

/-- Chunks of doubling within their widths. -/
def DblWidths (t : Table F) (c : Cols) (srow : ℤ) : Prop :=
  RangeCells t c srow ∧ RangeCells t c (srow + 2) ∧ Widths t c dblProg (srow + 4)

/-- What the circuit of doubling gives, with the cells compared by the last copy constraints. -/
theorem dbl_sound_core (hodd : n % 2 = 1) (hn : 2 ^ 254 < n) {inp : DblIn} {srow : ℤ} {x1 y1 : ℕ}
    (h : Sat t (dblCircuit c inp srow)) (hw : DblWidths t c srow)
    (hx1 : Limbs t inp.tx x1) (hy1 : Limbs t inp.ty y1) (h1 : Edwards.On (dInt : ZMod modulus) x1 y1) :
    ∃ x y : ℕ, Limbs t (resultX c srow) x ∧ Limbs t (resultY c srow) y ∧
      (x : ZMod modulus) = Edwards.addX (dInt : ZMod modulus) x1 y1 x1 y1 ∧
      ∃ s s' : ℕ, s < 2 ^ 255 ∧ s' < 2 ^ 255 ∧ (s : ZMod modulus) = x1 ^ 2 + y1 ^ 2 ∧
        (s' : ZMod modulus) = 2 * y + y * (x1 ^ 2 - y1 ^ 2) ∧ s % 2 ^ 66 = s' % 2 ^ 66 ∧ s / 2 ^ 198 = s' / 2 ^ 198 ∧
        Limbs t (fun i : ℕ => c.wa i (srow + 33 + 2)) s ∧ Limbs t (fun i : ℕ => c.wa i (srow + 59 + 2)) s' := by
  simp only [dblCircuit, sat_append] at h
  obtain ⟨hrx, hry, hp, hout⟩ := h
  obtain ⟨x, hx⟩ := range_sound hrx hw.1
  obtain ⟨y, hy⟩ := range_sound hry hw.2.1
  let v : ℕ → ℕ := fun i => if i = 0 then x1 else if i = 1 then y1 else if i = 2 then x else y
  have hR : ∀ i < 4, Limbs t (dblRegs c inp srow i) (v i) := by
    intro i hi
    interval_cases i
    · exact hx1
    · exact hy1
    · exact hx
    · exact hy
  obtain ⟨v', hl, hv⟩ := prog_sound hodd hn dblProg 4 _ _ v dblProg_fits hR hp hw.2.2
  simp only [dblCopyOut, List.range, List.range.loop, List.map_cons, List.map_nil, sat_cons, sat_append, holds_copy,
    sat_nil, and_true] at hout
  obtain ⟨⟨c0, c1, c2, c3⟩, d0, d1, d2, d3⟩ := hout
  obtain ⟨r8, r9, r11, r14⟩ := dblRegs_out c (dblRegs c inp srow) srow
  have o1 : v' 11 = v' 8 := limbs_eq hn (hl 11 (by decide)) (hl 8 (by decide)) fun i hi => by
    rw [r11, r8]
    interval_cases i <;> assumption
  obtain ⟨w8, w9, w11, w14⟩ := dbl_values (fun j => (v j : ZMod modulus))
  have p1 := congrArg (Nat.cast (R := ZMod modulus)) o1
  rw [hv 8, hv 11, w8, w11] at p1
  have z0 : t .witness (c.w 0) (srow + 33 + 2) = t .witness (c.w 0) (srow + 59 + 2) := by
    rw [dbl_t5 hp, dbl_t10 hp]
    have d1' : t .witness (c.w 4) (srow + 33 + 2) = t .witness (c.w 4) (srow + 59 + 2) := d1
    have d2' : t .witness (c.w 5) (srow + 33 + 2) = t .witness (c.w 5) (srow + 59 + 2) := d2
    have d3' : t .witness (c.w 6) (srow + 33 + 2) = t .witness (c.w 6) (srow + 59 + 2) := d3
    rw [d1', d2', d3']
  have l9 := hl 9 (by decide); rw [r9] at l9
  have l14 := hl 14 (by decide); rw [r14] at l14
  obtain ⟨s1, s2, s3, s4⟩ := limbs_ends hn l9 l14 z0 d0
  refine ⟨x, y, hx, hy, Edwards.eq_double_x complete h1 ?_, v' 9, v' 14, s1, s2, ?_, ?_, s3, s4, l9, l14⟩
  · have : (x : ZMod modulus) * (y1 * y1 - x1 * x1) = x1 * y1 + x1 * y1 := p1
    linear_combination this
  · rw [hv 9, w9]
    show (x1 : ZMod modulus) * x1 + y1 * y1 = _
    ring
  · rw [hv 14, w14]
    show (y : ZMod modulus) + y + y * (x1 * x1 - y1 * y1) = _
    ring

/-- **C71**, partial: the abscissa of the output is that of the double; the ordinate is only known to have limbs, and
`2 y + y (x1² - y1²)` to agree with `x1² + y1²` in the lowest and the highest limb of some representatives. Missing: the
ordinate of the double, see `dbl_unsound`. -/
theorem dbl_sound_partial (hodd : n % 2 = 1) (hn : 2 ^ 254 < n) {inp : DblIn} {srow : ℤ} {x1 y1 : ℕ}
    (h : Sat t (dblCircuit c inp srow)) (hw : DblWidths t c srow)
    (hx1 : Limbs t inp.tx x1) (hy1 : Limbs t inp.ty y1) (h1 : Edwards.On (dInt : ZMod modulus) x1 y1) :
    ∃ x y : ℕ, Limbs t (resultX c srow) x ∧ Limbs t (resultY c srow) y ∧
      (x : ZMod modulus) = Edwards.addX (dInt : ZMod modulus) x1 y1 x1 y1 ∧
      ∃ s s' : ℕ, s < 2 ^ 255 ∧ s' < 2 ^ 255 ∧ (s : ZMod modulus) = x1 ^ 2 + y1 ^ 2 ∧
        (s' : ZMod modulus) = 2 * y + y * (x1 ^ 2 - y1 ^ 2) ∧ s % 2 ^ 66 = s' % 2 ^ 66 ∧ s / 2 ^ 198 = s' / 2 ^ 198 := by
  obtain ⟨x, y, hx, hy, e, s, s', a1, a2, a3, a4, a5, a6, -⟩ := dbl_sound_core hodd hn h hw hx1 hy1 h1
  exact ⟨x, y, hx, hy, e, s, s', a1, a2, a3, a4, a5, a6⟩

/-- The copy constraints missing in doubling.hpp:514-518 (limbs 1 and 2 of `t5` and `t10`). -/
def DblMissing (t : Table F) (c : Cols) (srow : ℤ) : Prop :=
  t .witness (c.w 1) (srow + 33 + 2) = t .witness (c.w 1) (srow + 59 + 2) ∧
  t .witness (c.w 2) (srow + 33 + 2) = t .witness (c.w 2) (srow + 59 + 2)

/-- **C71**: with the two missing copy constraints the output is the double. -/
theorem dbl_sound_copies (hodd : n % 2 = 1) (hn : 2 ^ 254 < n) {inp : DblIn} {srow : ℤ} {x1 y1 : ℕ}
    (h : Sat t (dblCircuit c inp srow)) (hw : DblWidths t c srow) (hm : DblMissing t c srow)
    (hx1 : Limbs t inp.tx x1) (hy1 : Limbs t inp.ty y1) (h1 : Edwards.On (dInt : ZMod modulus) x1 y1) :
    ∃ x y : ℕ, Limbs t (resultX c srow) x ∧ Limbs t (resultY c srow) y ∧
      (x : ZMod modulus) = Edwards.addX (dInt : ZMod modulus) x1 y1 x1 y1 ∧
      (y : ZMod modulus) = Edwards.addY (dInt : ZMod modulus) x1 y1 x1 y1 := by
  obtain ⟨x, y, hx, hy, e, s, s', -, -, a3, a4, a5, a6, l, l'⟩ := dbl_sound_core hodd hn h hw hx1 hy1 h1
  have hs : s = s' := by
    obtain ⟨p0, p1, p2, p3, b0, b1, b2, b3, q0, q1, q2, q3, rfl⟩ := l
    obtain ⟨p0', p1', p2', p3', b0', b1', b2', b3', q0', q1', q2', q3', rfl⟩ := l'
    have e1 : p1 = p1' := cast_inj hn b1 b1' (q1.symm.trans (hm.1.trans q1'))
    have e2 : p2 = p2' := cast_inj hn b2 b2' (q2.symm.trans (hm.2.trans q2'))
    subst e1 e2
    unfold num at a5 a6 ⊢
    omega
  subst hs
  have hd := Edwards.double_eq complete h1
  refine ⟨x, y, hx, hy, e, ?_⟩
  refine (Edwards.eq_double complete h1 (x := (x : ZMod modulus)) (y := (y : ZMod modulus)) ?_ ?_).2
  · rw [e]; exact hd.1
  · rw [← a4, a3]

end sound

/-! ### The table for any choice of the ordinate with the right ends -/

section complete
variable {n : ℕ} [Fact n.Prime] {c : Cols}

theorem chunks_eq {F : Type*} [Field F] [CharP F n] (hn : 2 ^ 254 < n) {a0 a1 a2 b0 b1 b2 : F} (ha0 : Bits 22 a0)
    (ha1 : Bits 22 a1) (ha2 : Bits 22 a2) (hb0 : Bits 22 b0) (hb1 : Bits 22 b1) (hb2 : Bits 22 b2)
    (h : a0 + a1 * 2 ^ 22 + a2 * 2 ^ 44 = b0 + b1 * 2 ^ 22 + b2 * 2 ^ 44) : a0 = b0 ∧ a1 = b1 ∧ a2 = b2 := by
  obtain ⟨x0, p0, rfl⟩ := ha0
  obtain ⟨x1, p1, rfl⟩ := ha1
  obtain ⟨x2, p2, rfl⟩ := ha2
  obtain ⟨y0, q0, rfl⟩ := hb0
  obtain ⟨y1, q1, rfl⟩ := hb1
  obtain ⟨y2, q2, rfl⟩ := hb2
  have h' : ((x0 + x1 * 2 ^ 22 + x2 * 2 ^ 44 : ℕ) : F) = ((y0 + y1 * 2 ^ 22 + y2 * 2 ^ 44 : ℕ) : F) := by
    push_cast; linear_combination h
  have e := cast_inj hn (by norm_num at *; omega) (by norm_num at *; omega) h'
  have : x0 = y0 ∧ x1 = y1 ∧ x2 = y2 := by norm_num at *; omega
  obtain ⟨rfl, rfl, rfl⟩ := this
  exact ⟨rfl, rfl, rfl⟩

/-- Both subtractions of doubling can be assigned. -/
def DblLow (x1 y1 : ZMod modulus) : Prop :=
  ((x1 * x1).val ≤ (y1 * y1).val ∨ (x1 * x1).val % 2 ^ 66 ≤ (y1 * y1).val % 2 ^ 66 + (2 ^ 66 - 19)) ∧
  ((y1 * y1).val ≤ (x1 * x1).val ∨ (y1 * y1).val % 2 ^ 66 ≤ (x1 * x1).val % 2 ^ 66 + (2 ^ 66 - 19))

theorem dbl_low {v : ℕ → ℕ} (h : DblLow (v 0 : ZMod modulus) (v 1)) : Low dblProg 4 v := by
  unfold DblLow at h
  simp only [← Nat.cast_mul, ZMod.val_natCast] at h
  simp only [dblProg, Low, Kind.Low, Function.update, Kind.nat, true_and, and_true]
  simpa using h

/-- Any `P` with the right abscissa and an ordinate for which the compared limbs agree is accepted, with all the chunks
within their widths. -/
theorem dblWith_sat (hn : 2 ^ 254 < n) (hc : c.OK 9) (hid : ∀ i : ℕ, i < 4 → c.w i = i) {inp : DblIn} {srow : ℤ}
    {t : Table (ZMod n)} {x1 y1 px py : ℕ} (hx1 : Limbs t inp.tx x1) (hy1 : Limbs t inp.ty y1) (px1 : x1 < modulus)
    (py1 : y1 < modulus) (ho : ∀ i < 4, (inp.tx i).Outside srow dblRows ∧ (inp.ty i).Outside srow dblRows)
    (hlow : DblLow (x1 : ZMod modulus) y1) (hpx : px < modulus) (hpy : py < modulus)
    (hx : (px : ZMod modulus) * (y1 ^ 2 - x1 ^ 2) = 2 * (x1 * y1)) {s s' : ℕ} (hs : s < modulus) (hs' : s' < modulus)
    (es : (s : ZMod modulus) = x1 ^ 2 + y1 ^ 2) (es' : (s' : ZMod modulus) = 2 * py + py * (x1 ^ 2 - y1 ^ 2))
    (h0 : s % 2 ^ 66 = s' % 2 ^ 66) (h3 : s / 2 ^ 198 = s' / 2 ^ 198) :
    let t' := dblWith c inp srow px py t
    Sat t' (dblCircuit c inp srow) ∧ DblWidths t' c srow ∧ Limbs t' (resultX c srow) px ∧ Limbs t' (resultY c srow) py ∧
      Frame c srow dblRows t t' ∧ (s = s' → DblMissing t' c srow) := by
  let v : ℕ → ℕ := fun i => if i = 0 then x1 else if i = 1 then y1 else if i = 2 then px else py
  have hrows : 4 + rows dblProg = dblRows := by decide
  have hR : ∀ i < 4, RegOk t c srow (4 + rows dblProg) px py (dblRegs c inp srow i) (v i) := by
    rw [hrows]
    intro i hi
    interval_cases i
    · exact .inr (.inr ⟨hx1, px1, fun j hj => (ho j hj).1⟩)
    · exact .inr (.inr ⟨hy1, py1, fun j hj => (ho j hj).2⟩)
    · exact .inl ⟨rfl, rfl⟩
    · exact .inr (.inl ⟨rfl, rfl⟩)
  have hvlt : ∀ i < 4, v i < modulus := by
    intro i hi
    interval_cases i
    · exact px1
    · exact py1
    · exact hpx
    · exact hpy
  obtain ⟨q1, q2, q3, q4, q5, q6, q7, q8, q9, q10⟩ := pair_complete hn hc hid dblProg 4 (dblRegs c inp srow) srow v t
    hpx hpy dblProg_fits hR (dbl_low hlow)
  intro t'
  obtain ⟨r8, r9, r11, r14⟩ := dblRegs_out c (dblRegs c inp srow) srow
  obtain ⟨w8, w9, w11, w14⟩ := dbl_values (fun j => (v j : ZMod modulus))
  have red : ∀ i < 4 + dblProg.length, ∀ m, m < modulus → (nats dblProg 4 v i : ZMod modulus) = m → nats dblProg 4 v i = m := by
    intro i hi m hm h
    rw [ZMod.natCast_eq_natCast_iff', Nat.mod_eq_of_lt (nats_lt _ _ _ hvlt _ hi), Nat.mod_eq_of_lt hm] at h
    exact h
  have n9 : nats dblProg 4 v 9 = s := red 9 (by decide) s hs (by
    rw [nats_values dblProg 4 v dblProg_fits hvlt 9, w9, es]
    show (x1 : ZMod modulus) * x1 + y1 * y1 = _
    ring)
  have n14 : nats dblProg 4 v 14 = s' := red 14 (by decide) s' hs' (by
    rw [nats_values dblProg 4 v dblProg_fits hvlt 14, w14, es']
    show (py : ZMod modulus) + py + py * (x1 * x1 - y1 * y1) = _
    ring)
  have n11 : nats dblProg 4 v 11 = nats dblProg 4 v 8 := red 11 (by decide) _ (nats_lt _ _ _ hvlt _ (by decide)) (by
    rw [nats_values dblProg 4 v dblProg_fits hvlt 11, nats_values dblProg 4 v dblProg_fits hvlt 8, w11, w8]
    show (px : ZMod modulus) * (y1 * y1 - x1 * x1) = x1 * y1 + x1 * y1
    linear_combination hx)
  have l1 := limbs_same (q4 11 (by decide)) (n11 ▸ q4 8 (by decide))
  rw [r11, r8] at l1
  have l9 := q4 9 (by decide); rw [r9, n9] at l9
  have l14 := q4 14 (by decide); rw [r14, n14] at l14
  have ends : t' .witness (c.w 0) (srow + 33 + 2) = t' .witness (c.w 0) (srow + 59 + 2) ∧
      t' .witness (c.w 3) (srow + 33 + 2) = t' .witness (c.w 3) (srow + 59 + 2) := by
    obtain ⟨a0, a1, a2, a3, b0, b1, b2, b3, e0, e1, e2, e3, rfl⟩ := l9
    obtain ⟨a0', a1', a2', a3', b0', b1', b2', b3', e0', e1', e2', e3', rfl⟩ := l14
    obtain ⟨_, p2, p3⟩ := num_split b0 b1 b2 b3
    obtain ⟨_, p2', p3'⟩ := num_split b0' b1' b2' b3'
    rw [p2, p2'] at h0
    rw [p3, p3'] at h3
    constructor
    · refine Eq.trans (b := (a0 : ZMod n)) e0 ?_
      rw [h0]; exact e0'.symm
    · refine Eq.trans (b := (a3 : ZMod n)) e3 ?_
      rw [h3]; exact e3'.symm
  have cw5 := dbl_w5 q7
  have cw10 := dbl_w10 q7
  have hch : t' .witness (c.w 4) (srow + 33 + 2) = t' .witness (c.w 4) (srow + 59 + 2) ∧
      t' .witness (c.w 5) (srow + 33 + 2) = t' .witness (c.w 5) (srow + 59 + 2) ∧
      t' .witness (c.w 6) (srow + 33 + 2) = t' .witness (c.w 6) (srow + 59 + 2) := by
    refine chunks_eq hn cw5.1.1 cw5.1.2.1 cw5.1.2.2 cw10.1.1 cw10.1.2.1 cw10.1.2.2 ?_
    have a := dbl_t5 q3
    have b := dbl_t10 q3
    exact a.symm.trans (ends.1.trans b)
  rw [hrows] at q10
  refine ⟨?_, ⟨q5, q6, q7⟩, q8, q9, q10, fun e => ?_⟩
  swap
  · have l2 := limbs_same l9 (e ▸ l14)
    exact ⟨l2 1 (by omega), l2 2 (by omega)⟩
  simp only [dblCircuit, sat_append]
  refine ⟨q1, q2, q3, ?_⟩
  simp only [dblCopyOut, List.range, List.range.loop, List.map_cons, List.map_nil, sat_cons, sat_append, holds_copy,
    sat_nil, and_true]
  exact ⟨⟨l1 0 (by omega), l1 1 (by omega), l1 2 (by omega), l1 3 (by omega)⟩, ends.2, hch.1, hch.2.1, hch.2.2⟩

/-- **C71**: the generated table satisfies the circuit and holds the double. Missing for the full claim: columns of the
component other than the first ones (`hid`), and points for which the subtractions cannot be assigned (`DblLow`). -/
theorem dbl_complete_partial (hn : 2 ^ 254 < n) (hc : c.OK 9) (hid : ∀ i : ℕ, i < 4 → c.w i = i) {inp : DblIn} {srow : ℤ}
    {t : Table (ZMod n)} {x1 y1 : ℕ} (hx1 : Limbs t inp.tx x1) (hy1 : Limbs t inp.ty y1) (px1 : x1 < modulus)
    (py1 : y1 < modulus) (h1 : Edwards.On (dInt : ZMod modulus) x1 y1)
    (ho : ∀ i < 4, (inp.tx i).Outside srow dblRows ∧ (inp.ty i).Outside srow dblRows)
    (hlow : DblLow (x1 : ZMod modulus) y1) :
    let t' := dblAssign c inp srow t
    Sat t' (dblCircuit c inp srow) ∧ DblWidths t' c srow ∧
      Limbs t' (resultX c srow) (Edwards.addX (dInt : ZMod modulus) x1 y1 x1 y1).val ∧
      Limbs t' (resultY c srow) (Edwards.addY (dInt : ZMod modulus) x1 y1 x1 y1).val ∧ Frame c srow dblRows t t' ∧
      DblMissing t' c srow := by
  intro t'
  set X := Edwards.addX (dInt : ZMod modulus) x1 y1 x1 y1 with hX
  set Y := Edwards.addY (dInt : ZMod modulus) x1 y1 x1 y1 with hY
  have ht' : t' = dblWith c inp srow X.val Y.val t := by
    show dblAssign c inp srow t = _
    unfold dblAssign
    simp only [coord_eq hn hx1, coord_eq hn hy1, hX, hY]
  obtain ⟨e1, e2⟩ := Edwards.double_eq complete h1
  rw [ht']
  have h := dblWith_sat hn hc hid hx1 hy1 px1 py1 ho hlow (ZMod.val_lt X) (ZMod.val_lt Y)
    (s := ((x1 : ZMod modulus) ^ 2 + y1 ^ 2).val) (s' := ((x1 : ZMod modulus) ^ 2 + y1 ^ 2).val) ?_ (ZMod.val_lt _)
    (ZMod.val_lt _) (ZMod.natCast_zmod_val _) ?_ rfl rfl
  · exact ⟨h.1, h.2.1, h.2.2.1, h.2.2.2.1, h.2.2.2.2.1, h.2.2.2.2.2 rfl⟩
  · rw [ZMod.natCast_zmod_val]; exact e1
  · rw [ZMod.natCast_zmod_val, ZMod.natCast_zmod_val]; exact e2.symm

/-- **C71 refuted**: for the neutral point, `(0, 1 + 2^66)` is accepted as its double, with all the chunks within their
widths. -/
theorem dbl_unsound (hn : 2 ^ 254 < n) (hc : c.OK 9) (hid : ∀ i : ℕ, i < 4 → c.w i = i) {inp : DblIn} {srow : ℤ}
    {t : Table (ZMod n)} (hx1 : Limbs t inp.tx 0) (hy1 : Limbs t inp.ty 1)
    (ho : ∀ i < 4, (inp.tx i).Outside srow dblRows ∧ (inp.ty i).Outside srow dblRows) :
    ∃ t', Frame c srow dblRows t t' ∧ Sat t' (dblCircuit c inp srow) ∧ DblWidths t' c srow ∧
      Limbs t' (resultX c srow) 0 ∧ Limbs t' (resultY c srow) (1 + 2 ^ 66) ∧
      ((1 + 2 ^ 66 : ℕ) : ZMod modulus) ≠ Edwards.addY (dInt : ZMod modulus) (0 : ℕ) (1 : ℕ) (0 : ℕ) (1 : ℕ) ∧
      ¬ Edwards.On (dInt : ZMod modulus) (0 : ℕ) (1 + 2 ^ 66 : ℕ) := by
  have h := dblWith_sat (px := 0) (py := 1 + 2 ^ 66) (s := 1) (s' := 1 + 2 ^ 66) hn hc hid hx1 hy1 modulus_pos
    (by rw [modulus_val]; norm_num) ho ?_ modulus_pos (by rw [modulus_val]; norm_num) (by push_cast; ring)
    (by rw [modulus_val]; norm_num) (by rw [modulus_val]; norm_num) (by push_cast; ring) (by push_cast; ring)
    (by norm_num) (by norm_num)
  · refine ⟨_, h.2.2.2.2.1, h.1, h.2.1, h.2.2.1, h.2.2.2.1, ?_, ?_⟩
    · rw [Nat.cast_zero, Nat.cast_one, (Edwards.add_zero_left _ _ _).2]
      have : ((1 : ZMod modulus)) = ((1 : ℕ) : ZMod modulus) := by simp
      rw [this, Ne, ZMod.natCast_eq_natCast_iff', modulus_val]
      norm_num
    · unfold Edwards.On
      intro hc'
      have : (((1 + 2 ^ 66) ^ 2 : ℕ) : ZMod modulus) = ((1 : ℕ) : ZMod modulus) := by
        push_cast at hc' ⊢; linear_combination hc'
      rw [ZMod.natCast_eq_natCast_iff', modulus_val] at this
      norm_num at this
  · unfold DblLow
    rw [← Nat.cast_mul, ← Nat.cast_mul, ZMod.val_natCast, ZMod.val_natCast, modulus_val]
    exact ⟨.inl (by norm_num), .inr (by norm_num)⟩

end complete

/-! ### Instances over the Pallas base field -/

/-- The point in the public input. -/
def ptIn1 : DblIn := ⟨ptIn.tx, ptIn.ty⟩

theorem base_dbl : Edwards.addX (dInt : ZMod modulus) baseX baseY baseX baseY = twoX ∧
    Edwards.addY (dInt : ZMod modulus) baseX baseY baseX baseY = twoY := by
  obtain ⟨h1, h2⟩ := Edwards.eq_double (x := (twoX : ZMod modulus)) (y := (twoY : ZMod modulus)) complete on_base
    (by
      have h : ((twoX * baseY ^ 2 : ℕ) : ZMod modulus) = ((2 * (baseX * baseY) + twoX * baseX ^ 2 : ℕ) : ZMod modulus) :=
        (ZMod.natCast_eq_natCast_iff' _ _ modulus).2 (by decide +kernel)
      push_cast at h
      linear_combination h) (by
      have h : ((2 * twoY + twoY * baseX ^ 2 : ℕ) : ZMod modulus)
          = ((baseX ^ 2 + baseY ^ 2 + twoY * baseY ^ 2 : ℕ) : ZMod modulus) :=
        (ZMod.natCast_eq_natCast_iff' _ _ modulus).2 (by decide +kernel)
      push_cast at h
      linear_combination h)
  exact ⟨h1.symm, h2.symm⟩

theorem base_dbl_low : DblLow (baseX : ZMod modulus) baseY := by
  unfold DblLow
  rw [← Nat.cast_mul, ← Nat.cast_mul, ZMod.val_natCast, ZMod.val_natCast]
  exact ⟨.inr (by decide +kernel), .inr (by decide +kernel)⟩

/-- `2 B`. -/
example : let t' := dblAssign cols9k ptIn1 0 (ptTable baseX baseY 0 0)
    Sat t' (dblCircuit cols9k ptIn1 0) ∧ DblWidths t' cols9k 0 ∧ Limbs t' (resultX cols9k 0) twoX ∧
      Limbs t' (resultY cols9k 0) twoY := by
  obtain ⟨h1, h2, -, -⟩ := pt_limbs (x1 := baseX) (y1 := baseY) (x2 := 0) (y2 := 0) (by decide +kernel)
    (by decide +kernel) (by norm_num) (by norm_num)
  obtain ⟨a, b, cx, cy, -⟩ := dbl_complete_partial pallas_large cols9k_ok cols9k_id (inp := ptIn1) (srow := 0) h1 h2
    (by decide +kernel) (by decide +kernel) on_base
    (fun i _ => ⟨fun h => (by cases h), fun h => (by cases h)⟩) base_dbl_low
  rw [base_dbl.1, val_cast (by decide +kernel)] at cx
  rw [base_dbl.2, val_cast (by decide +kernel)] at cy
  exact ⟨a, b, cx, cy⟩

/-- The neutral point, doubled wrongly. -/
example : ∃ t' : Table (ZMod pallasP), Sat t' (dblCircuit cols9k ptIn1 0) ∧ DblWidths t' cols9k 0 ∧
    Limbs t' (resultY cols9k 0) (1 + 2 ^ 66) := by
  obtain ⟨h1, h2, -, -⟩ := pt_limbs (x1 := 0) (y1 := 1) (x2 := 0) (y2 := 0) (by norm_num) (by norm_num) (by norm_num)
    (by norm_num)
  obtain ⟨t', -, a, b, -, e, -⟩ := dbl_unsound pallas_large cols9k_ok cols9k_id (inp := ptIn1) (srow := 0) h1 h2
    (fun i _ => ⟨fun h => (by cases h), fun h => (by cases h)⟩)
  exact ⟨t', a, b, e⟩

end EdCurve
end Verif
