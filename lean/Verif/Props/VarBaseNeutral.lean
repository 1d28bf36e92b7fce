import Verif.Props.VarBaseForge

/-!
# C77: the neutral base point, and the scalars of Vesta without an assignment
-/

set_option linter.unusedVariables false
set_option linter.unusedSectionVars false

namespace Verif
namespace VarBaseMul
open UnifiedAddition (curve enc enc_zero equation_of sumCells_eq pallas_ok vesta_ok)
open PastaOrder

/-- **C77, refuted: no table for some scalars.** On Vesta the scalar `t_p` is below the order, and no table with this base
point and scalar satisfies the circuit with the missing copy constraints. -/
theorem vesta_incomplete : tpN < pallasP ∧ ∀ (c : Cols) (inp : In) (srow : ℤ) (t : Table (ZMod vestaP)),
    enc vestaG = (inp.tx.value t, inp.ty.value t) → t .constant (c.w 0) (srow + 1) = 0 →
    (inp.b.value t).val = tpN → ¬ Sat t (circuit (vestaKind _) c inp srow ++ missing c inp srow) := by
  refine ⟨by rw [pallasP_eq]; omega, fun c inp srow t hT hc hb h => ?_⟩
  exact (vesta_sound_partial t vestaG vestaG_order hT hc h).2.2.1 hb

/-- A table with other contents in the cells of the last point and of the result. -/
def over {F : Type*} (t : Table F) (x y : F) : Table F := fun ty i r =>
  if ty = .witness ∧ (r = 102 ∨ r = 103) ∧ i = c0.w 0 then x
  else if ty = .witness ∧ (r = 102 ∨ r = 103) ∧ i = c0.w 1 then y else t ty i r

section over
variable {F : Type*} [Field F] {t : Table F} {x y : F}

theorem over_row {ty : ColType} {i : ℕ} {r : ℤ} (h : r ≠ 102) (h' : r ≠ 103) : over t x y ty i r = t ty i r := by
  unfold over
  rw [if_neg (by rintro ⟨_, h1 | h1, _⟩ <;> contradiction), if_neg (by rintro ⟨_, h1 | h1, _⟩ <;> contradiction)]

theorem over_col {ty : ColType} {i : ℕ} {r : ℤ} (h : i ≠ c0.w 0) (h' : i ≠ c0.w 1) : over t x y ty i r = t ty i r := by
  unfold over
  rw [if_neg (by rintro ⟨_, _, h1⟩; contradiction), if_neg (by rintro ⟨_, _, h1⟩; contradiction)]

theorem over_ty {ty : ColType} {i : ℕ} {r : ℤ} (h : ty ≠ .witness) : over t x y ty i r = t ty i r := by
  unfold over
  rw [if_neg (by rintro ⟨h1, _⟩; contradiction), if_neg (by rintro ⟨h1, _⟩; contradiction)]

theorem over_x {r : ℤ} (h : r = 102 ∨ r = 103) : over t x y .witness (c0.w 0) r = x := by
  unfold over; rw [if_pos ⟨rfl, h, rfl⟩]

theorem over_y {r : ℤ} (h : r = 102 ∨ r = 103) : over t x y .witness (c0.w 1) r = y := by
  unfold over
  rw [if_neg (by rintro ⟨_, _, h1⟩; exact absurd h1 (by decide)), if_pos ⟨rfl, h, rfl⟩]

theorem pair_congr {c : Cols} {t t' : Table F} {r : ℤ} {g : Prop} (h : ∀ i, t' .witness i r = t .witness i r)
    (h' : ∀ i, t' .witness i (r + 1) = t .witness i (r + 1)) (hp : Pair c t r g) : Pair c t' r g := by
  have eX : ∀ m, X c t' r m = X c t r m := by intro m; unfold X; simp only [h, h']
  have eY : ∀ m, Y c t' r m = Y c t r m := by intro m; unfold Y; simp only [h, h']
  have eb : ∀ m, bitAt c t' r m = bitAt c t r m := by intro m; unfold bitAt; simp only [h']
  have es : ∀ m, slAt c t' r m = slAt c t r m := by intro m; unfold slAt; simp only [h']
  refine ⟨?_, ?_, ?_, ?_⟩ <;> simp only [eX, eY, eb, es, h]
  · exact hp.bit
  · exact hp.slope
  · exact hp.chord
  · exact hp.acc

theorem ua_congr {c : Cols} {inp : In} {srow : ℤ} {t t' : Table F} (hrow : ∀ i, t' .witness i srow = t .witness i srow)
    (v1 : inp.tx.value t' = inp.tx.value t) (v2 : inp.ty.value t' = inp.ty.value t)
    (h : Sat t (UnifiedAddition.circuit c (addIn inp) srow)) : Sat t' (UnifiedAddition.circuit c (addIn inp) srow) := by
  simp [UnifiedAddition.circuit, UnifiedAddition.constraints, addIn] at h ⊢
  simp only [hrow, v1, v2]
  exact h

theorem missing_iff {c : Cols} {inp : In} {srow : ℤ} {t : Table F} : Sat t (missing c inp srow) ↔
    inp.tx.value t = t .witness (c.w 0) (srow + 1) ∧ inp.ty.value t = t .witness (c.w 1) (srow + 1) ∧
    t .witness (c.w 14) (srow + 100) = t .witness (c.w 6) (srow + 101) := by
  simp only [missing, sat_cons, sat_nil, holds_copy, and_true, Cols.value_wa]

end over

/-- **C77, refuted: any output for the neutral base point.** The constraints of a step say nothing of the next point when
the point and the base point are both the neutral one: for the neutral base point, and the scalar zero, every pair is
accepted as the output, also with the missing copy constraints. -/
theorem pallas_neutral_any (x y : ZMod pallasP) : ∃ t : Table (ZMod pallasP),
    enc (0 : (curve (5 : ZMod pallasP)).Point) = (inp0.tx.value t, inp0.ty.value t) ∧ inp0.b.value t = 0 ∧
    inp0.bHigh.value t = 0 ∧ Sat t (circuit (pallasKind _) c0 inp0 0 ++ missing c0 inp0 0) ∧
    ((resultX c0 0).value t, (resultY c0 0).value t) = (x, y) := by
  obtain ⟨o1, o2, o3, o4⟩ := out0
  obtain ⟨hsq, htwo, htor⟩ := pallas_ok
  obtain ⟨q1, q2, q3⟩ := tq_facts
  obtain ⟨p1, p2, p3, p4⟩ := tp_facts
  obtain ⟨d1, d2, d3⟩ := pallas_distinct
  obtain ⟨k1, k2, k3⟩ := pallas_consts (ZMod pallasP)
  have hpe := pallasP_eq
  have hve := vestaP_eq
  have hz := z0_eq
  have hp : 2 ^ 254 < pallasP := by omega
  generalize hTz : (0 : (curve (5 : ZMod pallasP)).Point) = T
  set t := t0 (enc T) (0 : ZMod pallasP) 0 with ht
  have hbv : (inp0.b.value t).val = 0 := by
    refine val_of_cast (?_ : inp0.b.value t = _) (by omega)
    rw [Nat.cast_zero]; rfl
  have hon := honest_pallas (inp := inp0) (t := t) T 0 (by omega) (by push_cast; rfl) (by rw [hbv]; norm_num)
    (by rw [hbv]; omega)
  rw [hbv, mul_zero, add_zero] at hon
  generalize hd : honestData (pallasKind _) inp0 t T = d at hon
  have hp0 : d.p0 = enc (T + T) := by rw [← hd]; rfl
  have hdT : (d.tx, d.ty) = enc T := by rw [← hd]; rfl
  have etx : inp0.tx.value t = d.tx := congrArg Data.tx hd
  have ety : inp0.ty.value t = d.ty := congrArg Data.ty hd
  have ha := hon.acc q2
  have nz : ∀ n : ℕ, 0 < n → n < pallasP → (0 : ZMod pallasP) - (n : ZMod pallasP) ≠ 0 := by
    intro n h1 h2 e
    have := cast_inj_of_lt (a := 0) (b := n) (by omega) h2 (by rw [Nat.cast_zero]; exact sub_eq_zero.1 e)
    omega
  have hmm : mm (pallasKind _) d ≠ 0 := by
    unfold mm
    rw [ha, k1, k2, k3, Nat.cast_zero]
    exact mul_ne_zero (mul_ne_zero (nz _ (by omega) (by omega)) (nz _ (by omega) (by omega))) (nz _ (by omega) (by omega))
  obtain ⟨s1, s2, s3⟩ := honest_steps hsq htwo vestaP_eq q1 q2 q3 hon hdT hp0 (Or.inr hTz.symm)
    (fun _ => ⟨by omega, by omega, by omega⟩)
  obtain ⟨-, hF⟩ := filled hsq htwo htor c0_ok T (inp := inp0) (srow := 0) (t := t) rfl o1 o2 (cell (pallasKind _) d)
  have hbit0 : d.bits 0 = 0 := by rw [hon.bit0 q2]; norm_num
  obtain ⟨r1, r2, r3, r4, r5⟩ := hF.sat hp hp0 (by rw [← hd]; rfl) o3 (fun _ => o4) rfl rfl q2 rfl hon (fun _ => by
    rw [hbit0, Nat.cast_zero]; rfl) d1 d2 d3 s1 s2
  generalize writeAll _ _ = t' at hF r1 r2 r3 r4 r5
  have hcells : Cells (pallasKind _) c0 0 t' d := hF.cells fun _ _ _ => rfl
  have l2 : t' .witness (c0.w 2) (0 + 103) = if mm (pallasKind _) d = 0 then 0 else (mm (pallasKind _) d)⁻¹ := hcells.last 2 (by omega)
  have l6 : t' .witness (c0.w 6) (0 + 103) = d.tx := hcells.last 6 (by omega)
  have l7 : t' .witness (c0.w 7) (0 + 103) = d.ty := hcells.last 7 (by omega)
  have l8 : t' .witness (c0.w 8) (0 + 103) = mm (pallasKind _) d := hcells.last 8 (by omega)
  have hX4 := hcells.X 50 4 (by omega) (by omega)
  have hY4 := hcells.Y 50 4 (by omega) (by omega)
  have hs4 := hcells.sl 50 4 (by omega) (by omega)
  have e101 : (0 : ℤ) + 1 + 2 * ((50 : ℕ) : ℤ) = 0 + 101 := by norm_num
  rw [e101] at hX4 hY4 hs4
  have hw0 : t' .witness (c0.w 0) (0 + 101) = d.tx := by
    have := hcells.fst 50 0 (by omega) (by omega) (by omega); rw [e101] at this; exact this
  have ez := Prod.mk.inj (hdT.trans (by rw [← hTz]; rfl : enc T = ((0 : ZMod pallasP), (0 : ZMod pallasP))))
  have hpz := pt_zero ez.1 ez.2 (by rw [hp0, ← hTz, add_zero]; rfl)
  have hf := (sat_iff _ _ _ _ _).1 r1
  have hcp := (copies_iff _ _ _ _ _).1 hf.cp
  have hl := lastc_iff.1 hf.lastc
  have f3 := hF.frame
  have hpi : ∀ v : Var, v.type = .publicInput → v.value (over t' x y) = v.value t' := by
    intro v hv; unfold Var.value; exact over_ty (by rw [hv]; decide)
  -- cells of the columns from the second on
  have c2 : ∀ r, over t' x y .witness (c0.w 2) r = t' .witness (c0.w 2) r := fun r => over_col (by decide) (by decide)
  have c3 : ∀ r, over t' x y .witness (c0.w 3) r = t' .witness (c0.w 3) r := fun r => over_col (by decide) (by decide)
  have c4 : ∀ r, over t' x y .witness (c0.w 4) r = t' .witness (c0.w 4) r := fun r => over_col (by decide) (by decide)
  have c5 : ∀ r, over t' x y .witness (c0.w 5) r = t' .witness (c0.w 5) r := fun r => over_col (by decide) (by decide)
  have c6 : ∀ r, over t' x y .witness (c0.w 6) r = t' .witness (c0.w 6) r := fun r => over_col (by decide) (by decide)
  have c7 : ∀ r, over t' x y .witness (c0.w 7) r = t' .witness (c0.w 7) r := fun r => over_col (by decide) (by decide)
  have c8 : ∀ r, over t' x y .witness (c0.w 8) r = t' .witness (c0.w 8) r := fun r => over_col (by decide) (by decide)
  have c9 : ∀ r, over t' x y .witness (c0.w 9) r = t' .witness (c0.w 9) r := fun r => over_col (by decide) (by decide)
  have c10 : ∀ r, over t' x y .witness (c0.w 10) r = t' .witness (c0.w 10) r := fun r => over_col (by decide) (by decide)
  have c11 : ∀ r, over t' x y .witness (c0.w 11) r = t' .witness (c0.w 11) r := fun r => over_col (by decide) (by decide)
  have c12 : ∀ r, over t' x y .witness (c0.w 12) r = t' .witness (c0.w 12) r := fun r => over_col (by decide) (by decide)
  have c13 : ∀ r, over t' x y .witness (c0.w 13) r = t' .witness (c0.w 13) r := fun r => over_col (by decide) (by decide)
  have c14 : ∀ r, over t' x y .witness (c0.w 14) r = t' .witness (c0.w 14) r := fun r => over_col (by decide) (by decide)
  have ck : ∀ i r, over t' x y .constant i r = t' .constant i r := fun i r => over_ty (by decide)
  have b0 : over t' x y .witness (c0.w 0) (0 + 101) = t' .witness (c0.w 0) (0 + 101) := over_row (by norm_num) (by norm_num)
  have b1 : over t' x y .witness (c0.w 1) (0 + 101) = t' .witness (c0.w 1) (0 + 101) := over_row (by norm_num) (by norm_num)
  have ox2 : over t' x y .witness (c0.w 0) (0 + 102) = x := over_x (by norm_num)
  have ox3 : over t' x y .witness (c0.w 0) (0 + 103) = x := over_x (by norm_num)
  have oy2 : over t' x y .witness (c0.w 1) (0 + 102) = y := over_y (by norm_num)
  have oy3 : over t' x y .witness (c0.w 1) (0 + 103) = y := over_y (by norm_num)
  have ov : ∀ i (r : ℤ), r ≤ 101 → over t' x y .witness i r = t' .witness i r := fun i r h => over_row (by omega) (by omega)
  refine ⟨over t' x y, ?_, ?_, ?_, (sat_append _ _).2 ⟨(sat_iff _ _ _ _ _).2 ⟨?_, ?_, ?_, ?_, ?_, ?_, ?_⟩, ?_⟩, ?_⟩
  · rw [hpi inp0.tx rfl, hpi inp0.ty rfl, f3.outside o1, f3.outside o2]; rfl
  · rw [hpi inp0.b rfl, f3.outside o3]; rfl
  · rw [hpi inp0.bHigh rfl, f3.outside o4]; rfl
  · rw [ck]; exact hf.const0
  · have hua := hf.ua
    have hrow : ∀ i, over t' x y .witness i 0 = t' .witness i 0 := fun i => over_row (by decide) (by decide)
    have v1 := hpi inp0.tx rfl
    have v2 := hpi inp0.ty rfl
    exact ua_congr hrow v1 v2 hua
  · intro k hk
    exact pair_congr (fun i => over_row (by omega) (by omega)) (fun i => over_row (by omega) (by omega)) (hf.pairs k hk)
  · have hpr := hf.last
    have eX : ∀ m < 5, X c0 (over t' x y) (0 + 101) m = X c0 t' (0 + 101) m := by
      intro m hm
      unfold X
      rw [if_neg (by omega), if_neg (by omega)]
      exact over_row (by norm_num) (by norm_num)
    have eY : ∀ m < 5, Y c0 (over t' x y) (0 + 101) m = Y c0 t' (0 + 101) m := by
      intro m hm
      unfold Y
      rw [if_neg (by omega), if_neg (by omega)]
      exact over_row (by norm_num) (by norm_num)
    have eb : ∀ m < 5, bitAt c0 (over t' x y) (0 + 101) m = bitAt c0 t' (0 + 101) m := by
      intro m hm
      unfold bitAt
      interval_cases m
      · exact c2 _
      · exact c3 _
      · exact c4 _
      · exact c5 _
      · exact c6 _
    have es : ∀ m < 5, slAt c0 (over t' x y) (0 + 101) m = slAt c0 t' (0 + 101) m := by
      intro m hm
      unfold slAt
      interval_cases m
      · exact c7 _
      · exact c8 _
      · exact c9 _
      · exact c10 _
      · exact c11 _
    refine ⟨?_, ?_, ?_, ?_⟩
    · intro m hm; rw [eb m hm]; exact hpr.bit m hm
    · intro m hm; rw [eX m hm, eY m hm, eb m hm, es m hm, b0, b1]; exact hpr.slope m hm
    · intro m hm hg
      rw [c8, c2] at hg
      rcases Nat.lt_or_ge m 4 with h4 | h4
      · rw [eX m hm, eY m hm, es m hm, b0, eX (m + 1) (by omega), eY (m + 1) (by omega)]
        exact hpr.chord m hm hg
      · obtain rfl : m = 4 := by omega
        rw [eX 4 hm, eY 4 hm, es 4 hm, b0, hX4, hY4, hs4, hw0, hpz, ez.1]
        unfold slope
        rw [hpz, ez.1]
        simp [Chord, qy, ez.2]
    · rw [c5, c4, eb 0 (by omega), eb 1 (by omega), eb 2 (by omega), eb 3 (by omega), eb 4 (by omega)]; exact hpr.acc
  · refine lastc_iff.2 ⟨?_, ?_, ?_, ?_, ?_, ?_, ?_, ?_, ?_, ?_, ?_, ?_, ?_⟩
    · simp only [c8, c2]; exact hl.1
    · simp only [c5, c3]; exact hl.2
    · simp only [c5, c4]; exact hl.3
    · rw [ox2, ox3, c8, c2, c6, l6, ez.1, l8, l2, if_neg hmm, mul_inv_cancel₀ hmm]
      ring
    · rw [oy2, oy3, c8, c2, c7, l7, ez.2, l8, l2, if_neg hmm, mul_inv_cancel₀ hmm]
      ring
    · simp only [c8, c5]; exact hl.6
    · simp only [c12]; exact hl.7
    · simp only [c13]; exact hl.8
    · simp only [c14, c6, c12, c13]; exact hl.9
    · simp only [c9, c14, c12]; exact hl.10
    · simp only [c9, c10]; exact hl.11
    · simp only [c9, c11, c12]; exact hl.12
    · simp only [c5, c9, c11]; exact hl.13
  · intro k hk
    have := hf.aux k hk
    simp only [gate3, List.forall_mem_cons, List.not_mem_nil, false_imp_iff, implies_true, and_true, oct_eval, Expr.eval_sub,
        Expr.eval_mul, Expr.eval_const, Cols.eval_wv, c12, c13, c14, c6] at this ⊢
    exact this
  · refine (copies_iff _ _ _ _ _).2 ⟨?_, ?_, ?_, ?_, ?_, ?_, ?_, ?_, ?_, ?_, ?_, ?_, ?_, ?_, ?_, ?_, ?_⟩
    · rw [c2, c4]; exact hcp.p0x
    · rw [c3, c5]; exact hcp.p0y
    · intro k hk
      exact (ov _ _ (by omega)).trans ((hcp.bx k hk).trans (ov _ _ (by push_cast; omega)).symm)
    · intro k hk
      exact (ov _ _ (by omega)).trans ((hcp.by_ k hk).trans (ov _ _ (by push_cast; omega)).symm)
    · intro k hk; exact (c2 _).trans ((hcp.qx k hk).trans (ov _ _ (by omega)).symm)
    · intro k hk; exact (c3 _).trans ((hcp.qy k hk).trans (ov _ _ (by omega)).symm)
    · intro k hk; rw [c4, c5]; exact hcp.n k hk
    · rw [c5, c5]; exact hcp.nl
    · rw [c6, b0]; exact hcp.xl
    · rw [c7, b1]; exact hcp.yl
    · rw [c4, ck]; exact hcp.n0
    · have := hcp.hi
      have hk : (pallasKind (ZMod pallasP)).pallas = true := rfl
      rw [if_pos hk] at this ⊢
      rw [hpi inp0.bHigh rfl, c2]; exact this
    · rw [ck, c6]; exact hcp.u0
    · intro k hk; rw [c14, c6]; exact hcp.u k hk
    · rw [c2, c9]; exact hcp.e1
    · rw [c5, c10]; exact hcp.e2
    · rw [hpi inp0.b rfl, c11]; exact hcp.b
  · exact missing_iff.2 ⟨(hpi inp0.tx rfl).trans ((f3.outside o1).trans (etx.trans (r3.symm.trans (ov _ _ (by norm_num)).symm))),
      (hpi inp0.ty rfl).trans ((f3.outside o2).trans (ety.trans (r4.symm.trans (ov _ _ (by norm_num)).symm))),
      (c14 _).trans (r2.trans (c6 _).symm)⟩
  · rw [resultX, resultY, Cols.value_wa, Cols.value_wa, ox3, oy3]

/-- The hypotheses of `pallas_sound_partial` and `pallas_complete` hold for the generator and the scalar `2^254 + 5`. -/
example : ∃ t : Table (ZMod pallasP), enc pallasG = (inp0.tx.value t, inp0.ty.value t) ∧
    t .constant (c0.w 0) (0 + 1) = 0 ∧ Sat t (circuit (pallasKind _) c0 inp0 0 ++ missing c0 inp0 0) ∧
    ((resultX c0 0).value t, (resultY c0 0).value t) = enc ((2 * (5 + 2 ^ 254 * 1) + 1 + 2 ^ 255) • pallasG) := by
  obtain ⟨o1, o2, o3, o4⟩ := out0
  have q := tq_facts
  have hpe := pallasP_eq
  have hve := vestaP_eq
  have hbv : (inp0.b.value (t0 (enc pallasG) (5 : ZMod pallasP) 1)).val = 5 := by
    refine val_of_cast (n := 5) ?_ (by omega)
    rw [Nat.cast_ofNat]; rfl
  have hq : 5 < tqN := by decide +kernel
  obtain ⟨s, f, r⟩ := pallas_complete (inp := inp0) (srow := 0) (t := t0 (enc pallasG) (5 : ZMod pallasP) 1) c0_ok pallasG
    (Or.inl pallasG_order) rfl o1 o2 o3 o4 rfl rfl 1 (by omega) (by rw [Nat.cast_one]; rfl) (by rw [hbv]; norm_num)
    (by rw [hbv]; omega)
  rw [hbv] at r
  exact ⟨_, by rw [f.outside o1, f.outside o2]; rfl, by rw [f.const]; rfl, s, r⟩

/-- The hypotheses of `vesta_sound_partial` and `vesta_complete_partial` hold for the generator and the scalar 2. -/
example : ∃ t : Table (ZMod vestaP), enc vestaG = (inp0.tx.value t, inp0.ty.value t) ∧
    t .constant (c0.w 0) (0 + 1) = 0 ∧ Sat t (circuit (vestaKind _) c0 inp0 0 ++ missing c0 inp0 0) ∧
    ((resultX c0 0).value t, (resultY c0 0).value t) = enc (vestaMul 2 • vestaG) := by
  obtain ⟨o1, o2, o3, o4⟩ := out0
  have q := tp_facts
  have hpe := pallasP_eq
  have hve := vestaP_eq
  have hbv : (inp0.b.value (t0 (enc vestaG) (2 : ZMod vestaP) 0)).val = 2 := by
    refine val_of_cast (n := 2) ?_ (by omega)
    rw [Nat.cast_ofNat]; rfl
  obtain ⟨s, f, r⟩ := vesta_complete_partial (inp := inp0) (srow := 0) (t := t0 (enc vestaG) (2 : ZMod vestaP) 0) c0_ok vestaG
    (Or.inl vestaG_order) rfl o1 o2 o3 rfl rfl (by rw [hbv]; omega) (by rw [hbv]; omega) (by rw [hbv]; omega)
    (by rw [hbv]; omega)
  rw [hbv] at r
  exact ⟨_, by rw [f.outside o1, f.outside o2]; rfl, by rw [f.const]; rfl, s, r⟩

end VarBaseMul
end Verif
