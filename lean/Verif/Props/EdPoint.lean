import Verif.Model.EdPoint
import Verif.Props.EdCurve

/-!
# C173: test that a pair of numbers is a point of Ed25519

In every satisfying table with the constants of the component and with the chunks within their widths the pair is a
point of the curve; the generated table satisfies the circuit for every point of the curve and violates it for every
other pair of reduced coordinates. The constants are no part of the circuit: with zeros in their place every pair
`(x, 0)` is accepted.
-/

set_option linter.unusedSimpArgs false
set_option linter.unusedVariables false
set_option linter.unusedSectionVars false
set_option exponentiation.threshold 600

namespace Verif
namespace EdPoint

open Ed25519 EdCurve

/-- Chunks of the component within their widths. -/
def PointWidths {F : Type*} [Field F] (t : Table F) (c : Cols) (srow : ℤ) : Prop :=
  RangeCells t c srow ∧ RangeCells t c (srow + 2) ∧ Widths t c pointProg (srow + 4)

theorem pointProg_fits : Fits pointProg 5 := by simp [pointProg, Fits]

theorem pointProg_rows : 4 + rows pointProg = pointRows := by decide

theorem pointProg_low (v : ℕ → ℕ) : Low pointProg 5 v := by simp [pointProg, Low, Kind.Low]

theorem pointRegs_out (c : Cols) (R : Regs) (srow : ℤ) :
    regs c pointProg 5 R (srow + 4) 8 = Ed25519.addResult c (srow + 25) ∧
    regs c pointProg 5 R (srow + 4) 11 = Ed25519.addResult c (srow + 43) := by
  refine ⟨?_, ?_⟩ <;> funext i <;>
    simp [regs, pointProg, Function.update, Kind.result, Kind.rows, Ed25519.addResult] <;> congr 1 <;> ring

theorem point_values {K : Type*} [CommRing K] (v : ℕ → K) :
    values pointProg 5 v 8 = v 1 * v 1 + v 0 * v 0 * v 3 ∧
    values pointProg 5 v 11 = v 2 + v 4 * (v 1 * v 1 * (v 0 * v 0)) := by
  refine ⟨?_, ?_⟩ <;> simp [values, pointProg, Function.update, Kind.eval]

theorem aInt_cast : (aInt : ZMod modulus) = -1 := by
  rw [show aInt = modulus - 1 by decide +kernel]
  exact neg_one_cast

/-- The equation the rows compare: `y² + x² a = e + d y² x²`. -/
def Eqn (e a d x y : ZMod modulus) : Prop := y * y + x * x * a = e + d * (y * y * (x * x))

theorem eqn_on {x y : ZMod modulus} : Eqn 1 (aInt : ℕ) (dInt : ℕ) x y ↔ Edwards.On (dInt : ZMod modulus) x y := by
  rw [Eqn, Edwards.On, aInt_cast]
  constructor <;> intro h <;> linear_combination h

section sound
variable {F : Type*} [Field F] {t : Table F} {c : Cols} {n : ℕ} [CharP F n]

/-- The numbers in the places of the constants. -/
structure Consts (t : Table F) (srow : ℤ) (e a d : ℕ) : Prop where
  one : Limbs t (constVars srow 0) e
  a : Limbs t (constVars srow 4) a
  d : Limbs t (constVars srow 8) d

theorem consts_of {srow : ℤ} (h : Sat t (pointConsts srow)) : Consts t srow 1 aInt dInt := by
  simp only [pointConsts, sat_append, List.range, List.range.loop, List.map_cons, List.map_nil, sat_cons, holds_constant,
    sat_nil, and_true] at h
  obtain ⟨h1, h2, h3⟩ := h
  obtain ⟨l3, le⟩ := limb_num (x := 1) (by norm_num)
  obtain ⟨m3, me⟩ := limb_num (x := aInt) (by decide +kernel)
  obtain ⟨d3, de⟩ := limb_num dInt_lt
  exact ⟨⟨_, _, _, _, limb_lt _ _, limb_lt _ _, limb_lt _ _, l3, h1.1, h1.2.1, h1.2.2.1, h1.2.2.2, le⟩,
    ⟨_, _, _, _, limb_lt _ _, limb_lt _ _, limb_lt _ _, m3, h2.1, h2.2.1, h2.2.2.1, h2.2.2.2, me⟩,
    ⟨_, _, _, _, limb_lt _ _, limb_lt _ _, limb_lt _ _, d3, h3.1, h3.2.1, h3.2.2.1, h3.2.2.2, de⟩⟩

/-- The numbers of the first five registers. -/
def inits (x y e a d : ℕ) : ℕ → ℕ := fun i =>
  if i = 0 then x else if i = 1 then y else if i = 2 then e else if i = 3 then a else d

theorem eqn_sound (hodd : n % 2 = 1) (hn : 2 ^ 254 < n) {inp : In} {srow : ℤ} {e a d : ℕ} (hk : Consts t srow e a d)
    (h : Sat t (pointCircuit c inp srow)) (hw : PointWidths t c srow) :
    ∃ x y : ℕ, Limbs t inp.x x ∧ Limbs t inp.y y ∧ Eqn (e : ℕ) (a : ℕ) (d : ℕ) x y := by
  simp only [pointCircuit, sat_append] at h
  obtain ⟨hrx, hry, hp, hout⟩ := h
  obtain ⟨x, hx⟩ := range_sound hrx hw.1
  obtain ⟨y, hy⟩ := range_sound hry hw.2.1
  have hR : ∀ i < 5, Limbs t (pointRegs inp srow i) (inits x y e a d i) := by
    intro i hi
    interval_cases i
    · exact hx
    · exact hy
    · exact hk.one
    · exact hk.a
    · exact hk.d
  obtain ⟨v', hl, hv⟩ := prog_sound hodd hn pointProg 5 _ _ (inits x y e a d) pointProg_fits hR hp hw.2.2
  refine ⟨x, y, hx, hy, ?_⟩
  simp only [pointCopies, List.range, List.range.loop, List.map_cons, List.map_nil, sat_cons, holds_copy, sat_nil,
    and_true] at hout
  obtain ⟨c0, c1, c2, c3⟩ := hout
  obtain ⟨r8, r11⟩ := pointRegs_out c (pointRegs inp srow) srow
  have o : v' 8 = v' 11 := limbs_eq hn (hl 8 (by decide)) (hl 11 (by decide)) fun i hi => by
    rw [r8, r11]
    interval_cases i <;> assumption
  obtain ⟨w8, w11⟩ := point_values (fun j => (inits x y e a d j : ZMod modulus))
  have p := congrArg (Nat.cast (R := ZMod modulus)) o
  rw [hv 8, hv 11, w8, w11] at p
  exact p

/-- **C173**: an accepted pair of coordinates is a point of the curve. -/
theorem point_sound (hodd : n % 2 = 1) (hn : 2 ^ 254 < n) {inp : In} {srow : ℤ} (hk : Sat t (pointConsts srow))
    (h : Sat t (pointCircuit c inp srow)) (hw : PointWidths t c srow) :
    ∃ x y : ℕ, Limbs t inp.x x ∧ Limbs t inp.y y ∧ Edwards.On (dInt : ZMod modulus) x y := by
  obtain ⟨x, y, hx, hy, he⟩ := eqn_sound hodd hn (consts_of hk) h hw
  refine ⟨x, y, hx, hy, eqn_on.1 ?_⟩
  simpa using he

end sound

section complete
variable {n : ℕ} [Fact n.Prime] {c : Cols}

/-- Range check of a number which stands elsewhere. -/
theorem range_complete (hn : 2 ^ 254 < n) (hc : c.OK 9) {inp : ℕ → Var} {row : ℤ} {x : ℕ} (hx : x < modulus)
    {t : Table (ZMod n)} (hl : Limbs t inp x) (ho : ∀ i < 4, (inp i).Outside row 2) :
    let t' := rangeAssign c inp row t
    Sat t' (rangeCircuit c inp row) ∧ RangeCells t' c row ∧ Frame c row 2 t t' := by
  intro t'
  have hfr : Frame c row 2 t t' := rangeAssign_frame hc _ _ _
  obtain ⟨hv, b0, b1, b2, b3, hx'⟩ := limbs_val hn hl
  have hat := rangeAssign_at hc inp row t
  refine ⟨rangeCircuit_sat (hat.gate b0 b1 b2 b3 ?_) fun i hi => ?_, hat.cells, hfr⟩
  · exact flag_ok hn b0 b1 b2 b3 (by rw [hx']; exact hx)
  · rw [hfr.outside (ho i hi), hv i]
    exact hat.inp i hi

theorem inits_lt {x y e a d : ℕ} (hx : x < modulus) (hy : y < modulus) (he : e < modulus) (ha : a < modulus)
    (hd : d < modulus) : ∀ i < 5, inits x y e a d i < modulus := by
  intro i hi
  interval_cases i <;> assumption

/-- The rows below the point, whatever the constants: everything but the comparison of the two sides. -/
theorem cells_spec (hn : 2 ^ 254 < n) (hc : c.OK 9) (hid : ∀ i : ℕ, i < 4 → c.w i = i) {inp : In} {srow : ℤ}
    {t : Table (ZMod n)} {e a d x y : ℕ} (hk : Consts t srow e a d) (he : e < modulus) (ha : a < modulus)
    (hd : d < modulus) (hx : Limbs t inp.x x) (hy : Limbs t inp.y y) (px : x < modulus) (py : y < modulus)
    (ho : ∀ i < 4, (inp.x i).Outside srow pointRows ∧ (inp.y i).Outside srow pointRows) :
    let t' := pointCells c inp srow t
    (Sat t' (pointCircuit c inp srow) ↔ Eqn (e : ℕ) (a : ℕ) (d : ℕ) x y) ∧ PointWidths t' c srow ∧
      Limbs t' inp.x x ∧ Limbs t' inp.y y ∧ Frame c srow pointRows t t' := by
  obtain ⟨a1, a3, a4⟩ := range_complete hn hc (row := srow) px hx (fun i hi =>
    Var.Outside.mono (ho i hi).1 (by omega) (by simp [pointRows]))
  set t1 := rangeAssign c inp.x srow t with ht1
  have hy1 : Limbs t1 inp.y y := limbs_stable (fun j hj => a4.outside
    (Var.Outside.mono (ho j hj).2 (by omega) (by simp [pointRows]))) hy
  have hx1 : Limbs t1 inp.x x := limbs_stable (fun j hj => a4.outside
    (Var.Outside.mono (ho j hj).1 (by omega) (by simp [pointRows]))) hx
  obtain ⟨b1, b3, b4⟩ := range_complete hn hc (row := srow + 2) py hy1 (fun i hi =>
    Var.Outside.mono (ho i hi).2 (by omega) (by simp [pointRows]; omega))
  set t2 := rangeAssign c inp.y (srow + 2) t1 with ht2
  have oX : ∀ j < 4, (inp.x j).Outside (srow + 2) 2 := fun j hj =>
    Var.Outside.mono (ho j hj).1 (by omega) (by simp [pointRows]; omega)
  have oY : ∀ j < 4, (inp.y j).Outside (srow + 2) 2 := fun j hj =>
    Var.Outside.mono (ho j hj).2 (by omega) (by simp [pointRows]; omega)
  have hy2 : Limbs t2 inp.y y := limbs_stable (fun j hj => b4.outside (oY j hj)) hy1
  have hx2 : Limbs t2 inp.x x := limbs_stable (fun j hj => b4.outside (oX j hj)) hx1
  have hc2 : ∀ k z, Limbs t (constVars srow k) z → Limbs t2 (constVars srow k) z := fun k z h =>
    limbs_stable (fun j hj => (b4.const _ _).trans (a4.const _ _)) h
  have hrows : (rows pointProg : ℤ) = 43 := by decide
  have PX : ∀ j < 4, (inp.x j).Outside (srow + 4) (rows pointProg) := fun j hj =>
    Var.Outside.mono (ho j hj).1 (by omega) (by rw [hrows]; simp [pointRows]; omega)
  have PY : ∀ j < 4, (inp.y j).Outside (srow + 4) (rows pointProg) := fun j hj =>
    Var.Outside.mono (ho j hj).2 (by omega) (by rw [hrows]; simp [pointRows]; omega)
  have hvlt := inits_lt px py he ha hd
  obtain ⟨p1, p2, p3, p4⟩ := prog_complete hn hc hid pointProg 5 (pointRegs inp srow) (srow + 4) (inits x y e a d) t2
    pointProg_fits (fun i hi => by
      interval_cases i
      · exact hx2
      · exact hy2
      · exact hc2 _ _ hk.one
      · exact hc2 _ _ hk.a
      · exact hc2 _ _ hk.d) hvlt (fun i hi j hj => by
      interval_cases i
      · exact PX j hj
      · exact PY j hj
      · exact fun h => by cases h
      · exact fun h => by cases h
      · exact fun h => by cases h) (pointProg_low _)
  intro t'
  have ht' : t' = assigns c pointProg 5 (pointRegs inp srow) (srow + 4) t2 := rfl
  rw [← ht'] at p1 p2 p3 p4
  clear_value t' t2 t1
  have s2 : SameRows t2 t' srow 4 := fun i r h1 h2 => p4.row (by omega) _ _
  have s12 : SameRows t1 t2 srow 2 := fun i r h1 h2 => b4.row (by omega) _ _
  have sA : SameRows t1 t' srow 2 := fun i r h1 h2 => (s2 i r h1 (by omega)).trans (s12 i r h1 h2)
  have sB : SameRows t2 t' (srow + 2) 2 := s2.mono (by omega) (by omega)
  have vX : ∀ i < 4, (inp.x i).value t' = (inp.x i).value t1 := fun i hi =>
    (p4.outside (PX i hi)).trans (b4.outside (oX i hi))
  have vY : ∀ i < 4, (inp.y i).value t' = (inp.y i).value t2 := fun i hi => p4.outside (PY i hi)
  have hfr : Frame c srow pointRows t t' := (a4.mono (by omega) (by simp [pointRows])).trans
      ((b4.mono (by omega) (by simp [pointRows]; omega)).trans (p4.mono (by omega) (by rw [hrows]; simp [pointRows]; omega)))
  refine ⟨?_, ⟨rangeCells_stable sA a3, rangeCells_stable sB b3, p3⟩, limbs_stable vX hx1, limbs_stable vY hy2, hfr⟩
  have base : Sat t' (pointCircuit c inp srow) ↔ Sat t' (pointCopies c srow) := by
    simp only [pointCircuit, sat_append]
    exact ⟨fun h => h.2.2.2, fun h => ⟨range_stable sA vX a1, range_stable sB vY b1, p1, h⟩⟩
  rw [base]
  obtain ⟨r8, r11⟩ := pointRegs_out c (pointRegs inp srow) srow
  obtain ⟨w8, w11⟩ := point_values (fun j => (inits x y e a d j : ZMod modulus))
  have n8 := nats_values pointProg 5 _ pointProg_fits hvlt 8
  have n11 := nats_values pointProg 5 _ pointProg_fits hvlt 11
  rw [w8] at n8
  rw [w11] at n11
  have q8 := p2 8 (by decide)
  have q11 := p2 11 (by decide)
  rw [r8] at q8
  rw [r11] at q11
  have m8 := nats_lt pointProg 5 _ hvlt 8 (by decide)
  have m11 := nats_lt pointProg 5 _ hvlt 11 (by decide)
  have key : nats pointProg 5 (inits x y e a d) 8 = nats pointProg 5 (inits x y e a d) 11 ↔
      Eqn (e : ℕ) (a : ℕ) (d : ℕ) x y := by
    rw [← Nat.mod_eq_of_lt m8, ← Nat.mod_eq_of_lt m11, ← ZMod.natCast_eq_natCast_iff', n8, n11]
    rfl
  rw [← key]
  simp only [pointCopies, List.range, List.range.loop, List.map_cons, List.map_nil, sat_cons, holds_copy, sat_nil, and_true]
  constructor
  · rintro ⟨c0, c1, c2, c3⟩
    exact limbs_eq hn q8 q11 fun i hi => by interval_cases i <;> assumption
  · intro h
    have l := limbs_same q8 (h ▸ q11)
    exact ⟨l 0 (by omega), l 1 (by omega), l 2 (by omega), l 3 (by omega)⟩

theorem consts_frame {srow : ℤ} {rows : ℕ} {r : ℤ} {t t' : Table (ZMod n)} (h : Frame c r rows t t')
    (hk : Sat t (pointConsts srow)) : Sat t' (pointConsts srow) := by
  simp only [pointConsts, sat_append, List.range, List.range.loop, List.map_cons, List.map_nil, sat_cons, holds_constant,
    sat_nil, and_true] at hk ⊢
  simp only [h.const]
  exact hk

/-- The twelve cells are different. -/
theorem consts_written (srow : ℤ) (t : Table (ZMod n)) :
    Sat (writeConsts (pointConsts srow) t) (pointConsts srow) := by
  simp only [pointConsts, List.range, List.range.loop, List.map_cons, List.map_nil, List.cons_append, List.nil_append,
    writeConsts_constant, writeConsts_nil, sat_cons, holds_constant, sat_nil, and_true, Table.set]
  simp

/-- Variables which are not constants are not changed by writing constants. -/
theorem limbs_consts {srow : ℤ} {t : Table (ZMod n)} {v : ℕ → Var} {x : ℕ} (hv : ∀ i < 4, (v i).type ≠ .constant)
    (h : Limbs t v x) : Limbs (writeConsts (pointConsts srow) t) v x := by
  refine limbs_stable (fun i hi => ?_) h
  have := hv i hi
  simp only [pointConsts, List.range, List.range.loop, List.map_cons, List.map_nil, List.cons_append, List.nil_append,
    writeConsts_constant, writeConsts_nil, Var.value, Table.set]
  simp [this]

/-- **C173**: the generated table holds the constants; it satisfies the circuit exactly for the points of the curve.
Missing for the full claim: columns of the component other than the first ones (`hid`). -/
theorem point_complete_partial (hn : 2 ^ 254 < n) (hc : c.OK 9) (hid : ∀ i : ℕ, i < 4 → c.w i = i) {inp : In} {srow : ℤ}
    {t : Table (ZMod n)} {x y : ℕ} (hx : Limbs t inp.x x) (hy : Limbs t inp.y y) (px : x < modulus) (py : y < modulus)
    (hv : ∀ i < 4, (inp.x i).type ≠ .constant ∧ (inp.y i).type ≠ .constant)
    (ho : ∀ i < 4, (inp.x i).Outside srow pointRows ∧ (inp.y i).Outside srow pointRows) :
    let t' := pointAssign c inp srow t
    (Sat t' (pointCircuit c inp srow) ↔ Edwards.On (dInt : ZMod modulus) x y) ∧ Sat t' (pointConsts srow) ∧
      PointWidths t' c srow ∧ Limbs t' inp.x x ∧ Limbs t' inp.y y := by
  intro t'
  have hk := consts_written srow t
  obtain ⟨h1, h2, h3, h4, h5⟩ := cells_spec hn hc hid (consts_of hk) (by decide +kernel) (by decide +kernel)
    (by decide +kernel) (limbs_consts (fun i hi => (hv i hi).1) hx) (limbs_consts (fun i hi => (hv i hi).2) hy) px py ho
  refine ⟨h1.trans ?_, consts_frame h5 hk, h2, h3, h4⟩
  rw [Nat.cast_one]
  exact eqn_on

/-- **C173, negative**: `generate_circuit` neither writes the constants nor refers to them otherwise than by their place.
A table with zeros there satisfies the circuit for every pair `(x, 0)`. -/
theorem point_without_constants (hn : 2 ^ 254 < n) (hc : c.OK 9) (hid : ∀ i : ℕ, i < 4 → c.w i = i) {inp : In} {srow : ℤ}
    {t : Table (ZMod n)} {x : ℕ} (h0 : ∀ i r, t .constant i r = 0)
    (hx : Limbs t inp.x x) (hy : Limbs t inp.y 0) (px : x < modulus)
    (ho : ∀ i < 4, (inp.x i).Outside srow pointRows ∧ (inp.y i).Outside srow pointRows) :
    let t' := pointCells c inp srow t
    Sat t' (pointCircuit c inp srow) ∧ PointWidths t' c srow ∧ Limbs t' inp.x x ∧ Limbs t' inp.y 0 := by
  intro t'
  have z : ∀ k, Limbs t (constVars srow k) 0 := fun k =>
    ⟨0, 0, 0, 0, by norm_num, by norm_num, by norm_num, by norm_num, (h0 _ _).trans Nat.cast_zero.symm,
      (h0 _ _).trans Nat.cast_zero.symm, (h0 _ _).trans Nat.cast_zero.symm, (h0 _ _).trans Nat.cast_zero.symm, rfl⟩
  obtain ⟨h1, h2, h3, h4, h5⟩ := cells_spec hn hc hid ⟨z 0, z 4, z 8⟩ modulus_pos modulus_pos modulus_pos hx hy px
    modulus_pos ho
  exact ⟨h1.2 (by simp [Eqn]), h2, h3, h4⟩

end complete

/-! ### Instances over the Pallas base field -/

/-- A point in the public input. -/
def pubPoint : In := ⟨fun i => ⟨0, i, false, .publicInput⟩, fun i => ⟨1, i, false, .publicInput⟩⟩

theorem pub_outside {rows : ℕ} : ∀ i < 4, (pubPoint.x i).Outside 0 rows ∧ (pubPoint.y i).Outside 0 rows :=
  fun i _ => ⟨fun h => (by cases h), fun h => (by cases h)⟩

/-- The base point is accepted: the hypotheses of `point_sound` are met. -/
example : let t' := pointAssign cols9k pubPoint 0 (pubTable baseX baseY)
    Sat t' (pointCircuit cols9k pubPoint 0) ∧ Sat t' (pointConsts 0) ∧ PointWidths t' cols9k 0 := by
  obtain ⟨h1, h2⟩ := pub_limbs (x := baseX) (y := baseY) (by decide +kernel) (by decide +kernel)
  obtain ⟨a, b, c, -⟩ := point_complete_partial pallas_large cols9k_ok cols9k_id (inp := pubPoint) (srow := 0) h1 h2
    (by decide +kernel) (by decide +kernel) (fun i _ => ⟨by simp [pubPoint], by simp [pubPoint]⟩) pub_outside
  exact ⟨a.2 on_base, b, c⟩

theorem one_zero_off : ¬ Edwards.On (dInt : ZMod modulus) (1 : ℕ) (0 : ℕ) := by
  intro h
  have h' : ((2 : ℕ) : ZMod modulus) = 0 := by
    simp only [Edwards.On, Nat.cast_one, Nat.cast_zero] at h
    push_cast
    linear_combination -h
  rw [ZMod.natCast_eq_zero_iff] at h'
  have := Nat.le_of_dvd (by norm_num) h'
  rw [modulus_val] at this
  norm_num at this

/-- **C173, negative**: `(1, 0)` is not on the curve and is accepted without the constants. -/
theorem point_forged : ∃ t' : Table (ZMod pallasP), Sat t' (pointCircuit cols9k pubPoint 0) ∧ PointWidths t' cols9k 0 ∧
    Limbs t' pubPoint.x 1 ∧ Limbs t' pubPoint.y 0 ∧ ¬ Edwards.On (dInt : ZMod modulus) (1 : ℕ) (0 : ℕ) := by
  obtain ⟨h1, h2⟩ := pub_limbs (x := 1) (y := 0) (by norm_num) (by norm_num)
  obtain ⟨a, b, c, d⟩ := point_without_constants pallas_large cols9k_ok cols9k_id (inp := pubPoint) (srow := 0)
    (t := pubTable 1 0) (fun i r => by simp [pubTable]) h1 h2 (by rw [modulus_val]; norm_num) pub_outside
  exact ⟨_, a, b, c, d, one_zero_off⟩

end EdPoint
end Verif
