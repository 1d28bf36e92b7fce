import Verif.Props.VarBaseComplete

/-!
# C77: completeness of the variable base scalar multiplication for Pallas and Vesta
-/

set_option linter.unusedVariables false
set_option linter.unusedSectionVars false

namespace Verif
namespace VarBaseMul
open UnifiedAddition (curve enc enc_zero equation_of sumCells_eq pallas_ok vesta_ok)

section steps
variable {p : ℕ} [Fact p.Prime] {K : Kind (ZMod p)} {d : Data (ZMod p)} {cb : ZMod p} {T : (curve cb).Point} {r τ N : ℕ}

theorem pt_zero (hx : d.tx = 0) (hy : d.ty = 0) (h0 : d.p0 = (0, 0)) (i : ℕ) : pt d i = (0, 0) := by
  induction i with
  | zero => exact h0
  | succ i ih => rw [pt, ih]; simp [next, UnifiedAddition.sumCells, qy, hx, hy]

theorem honest_steps (hb : ∀ y : ZMod p, y ^ 2 ≠ cb) (htwo : (2 : ZMod p) ≠ 0) (hr : r = 2 ^ 254 + τ) (h4 : 4 < τ)
    (ht : τ < 2 ^ 126) (ho : τ % 2 = 1) (hon : Honest K d τ N) (hdT : (d.tx, d.ty) = enc T) (hp0 : d.p0 = enc (T + T))
    (hT : addOrderOf T = r ∨ T = 0)
    (hg : mm K d ≠ 0 → N ≠ τ ∧ N ≠ τ - 1 ∧ 2 * N + 1 + 2 ^ 255 ≠ 3 * r) :
    (∀ i < 255, Slope (pt d i).1 (pt d i).2 d.tx (qy d i) (slope d i)) ∧
    (∀ i < 255, (i < 253 ∨ mm K d ≠ 0) →
      Chord (pt d i).1 (pt d i).2 d.tx (slope d i) (pt d (i + 1)).1 (pt d (i + 1)).2) ∧
    pt d 255 = enc ((2 * N + 1 + 2 ^ 255) • T) := by
  rcases hT with hT | rfl
  · have hβ : ∀ i < 255, d.bits i < 2 := fun i _ => hon.lt2 i
    have hpre : pre d.bits 255 = N := by rw [hon.pre ht _ le_rfl, Nat.sub_self, pow_zero, Nat.div_one]
    have hl := hon.lt
    have hn : Fine τ (pre d.bits 255) := by rw [hpre]; exact ⟨by omega, Or.inl (by omega)⟩
    have hp0' : d.p0 = enc ((2 : ℕ) • T) := by rw [hp0, two_nsmul]
    have hq : ∀ i < 255, (d.tx, qy d i) = enc (signed T (d.bits i)) := by
      intro i hi
      rw [enc_signed (hon.lt2 i), ← hdT]; rfl
    refine ⟨fun i hi => slopes hb htwo hT hr h4 ht ho hβ hn hp0' hq i hi,
      fun i hi hm => chords hb htwo hT hr h4 ht ho hβ hn hp0' hq (by rw [hpre]; exact hg) i hi hm, ?_⟩
    rw [pts hb htwo hβ hp0' hq 255 le_rfl, al_255, hpre]
  · have e := Prod.mk.inj hdT
    have hx : d.tx = 0 := e.1
    have hy : d.ty = 0 := e.2
    have h0 : d.p0 = (0, 0) := by rw [hp0, add_zero]; rfl
    have hp := pt_zero hx hy h0
    refine ⟨?_, ?_, ?_⟩
    · intro i hi; simp [Slope, hp, hx, qy, hy]
    · intro i hi _; simp [Chord, hp, hx, slope]
    · rw [hp, nsmul_zero]; rfl

end steps

section pallas
variable {c : Cols} {inp : In} {srow : ℤ} {t : Table (ZMod pallasP)}

theorem pallas_distinct : (pallasKind (ZMod pallasP)).shiftedMinusOne ≠ (pallasKind _).shiftedOne ∧
    (pallasKind (ZMod pallasP)).shiftedZero ≠ (pallasKind _).shiftedMinusOne ∧
    (pallasKind (ZMod pallasP)).shiftedZero ≠ (pallasKind _).shiftedOne := by
  obtain ⟨k1, k2, k3⟩ := pallas_consts (ZMod pallasP)
  obtain ⟨q1, q2, q3⟩ := tq_facts
  have hz := z0_eq
  have hpe := pallasP_eq
  refine ⟨?_, ?_, ?_⟩
  · rw [k1, k3]; intro e; have := cast_inj_of_lt (by omega) (by omega) e; omega
  · rw [k1, k2]; intro e; have := cast_inj_of_lt (by omega) (by omega) e; omega
  · rw [k2, k3]; intro e; have := cast_inj_of_lt (by omega) (by omega) e; omega

theorem vesta_distinct : (vestaKind (ZMod vestaP)).shiftedMinusOne ≠ (vestaKind _).shiftedOne ∧
    (vestaKind (ZMod vestaP)).shiftedZero ≠ (vestaKind _).shiftedMinusOne ∧
    (vestaKind (ZMod vestaP)).shiftedZero ≠ (vestaKind _).shiftedOne := by
  obtain ⟨k1, k2, k3⟩ := vesta_consts (ZMod vestaP)
  obtain ⟨p1, p2, p3, p4⟩ := tp_facts
  have hve := vestaP_eq
  refine ⟨?_, ?_, ?_⟩
  · rw [k1, k3]; intro e; have := cast_inj_of_lt (by omega) (by omega) e; omega
  · rw [k1, k2]; intro e; have := cast_inj_of_lt (by omega) (by omega) e; omega
  · rw [k2, k3]; intro e; have := cast_inj_of_lt (by omega) (by omega) e; omega

theorem honest_pallas (T : (curve (5 : ZMod pallasP)).Point) (hi : ℕ) (h2 : hi < 2)
    (hh : inp.bHigh.value t = (hi : ZMod pallasP)) (hb : (inp.b.value t).val < 2 ^ 254)
    (hlt : (inp.b.value t).val + 2 ^ 254 * hi < vestaP) :
    Honest (pallasKind _) (honestData (pallasKind _) inp t T) tqN ((inp.b.value t).val + 2 ^ 254 * hi) := by
  rw [vestaP_eq] at hlt
  refine ⟨hlt, ?_, ?_, ?_, ?_⟩
  · intro i
    show (if (pallasKind (ZMod pallasP)).pallas ∧ inp.bHigh.value t = 1 ∧ i = 0 then 1
      else ((inp.b.value t).val.testBit (254 - i)).toNat) = _
    rw [hh]
    interval_cases hi
    · rw [if_neg]
      · simp
      · rintro ⟨-, h, -⟩; simp at h
    · by_cases h0 : i = 0
      · subst h0
        rw [if_pos ⟨rfl, by simp, rfl⟩, Nat.toNat_testBit]
        omega
      · rw [if_neg (by rintro ⟨-, -, h⟩; exact h0 h), Nat.toNat_testBit, Nat.toNat_testBit, mul_one]
        have e : 2 ^ 254 = 2 * 2 ^ (i - 1) * 2 ^ (254 - i) ∨ 254 < i := by
          rcases Nat.lt_or_ge 254 i with h | h
          · exact Or.inr h
          · left
            rw [← pow_succ', ← pow_add]; congr 1; omega
        rcases e with e | e
        · rw [e, Nat.add_mul_div_right _ _ (by positivity)]
          omega
        · rw [show 254 - i = 0 by omega, pow_zero, Nat.div_one, Nat.div_one]
          omega
  · show inp.b.value t = _
    rw [if_pos (show (pallasKind (ZMod pallasP)).pallas = true from rfl)]
    rw [show ((inp.b.value t).val + 2 ^ 254 * hi) % 2 ^ 254 = (inp.b.value t).val by
      rw [Nat.add_mul_mod_self_left, Nat.mod_eq_of_lt hb]]
    exact (ZMod.natCast_zmod_val _).symm
  · have e : (pallasKind (ZMod pallasP)).pallas = true := rfl
    simp only [e, if_true, sub_zero]
    rfl
  · intro i; rfl

theorem honest_vesta {t : Table (ZMod vestaP)} (T : (curve (5 : ZMod vestaP)).Point) (hlt : (inp.b.value t).val < pallasP) :
    Honest (vestaKind _) (honestData (vestaKind _) inp t T) tpN (inp.b.value t).val := by
  rw [pallasP_eq] at hlt
  have hbits : ∀ i, (honestData (vestaKind _) inp t T).bits i = ((inp.b.value t).val.testBit (254 - i)).toNat := by
    intro i
    show (if (vestaKind (ZMod vestaP)).pallas ∧ inp.bHigh.value t = 1 ∧ i = 0 then 1
      else ((inp.b.value t).val.testBit (254 - i)).toNat) = _
    rw [if_neg]
    rintro ⟨h, -⟩
    exact absurd h (by simp [vestaKind])
  refine ⟨hlt, hbits, ?_, ?_, ?_⟩
  · show inp.b.value t = _
    rw [if_neg (by simp [vestaKind]), ZMod.natCast_zmod_val]
  · rw [hbits]
    rfl
  · intro i; rfl

/-- **C77, Pallas, completeness.** For a base point of the order of the group, or the neutral one, and every scalar below
the order, the generated table satisfies the circuit (with the missing copy constraints as well) and the output is the
multiple of the base point by twice the scalar plus `2^255 + 1`. -/
theorem pallas_complete (hc : c.OK 15) (T : (curve (5 : ZMod pallasP)).Point) (hT : addOrderOf T = vestaP ∨ T = 0)
    (hTe : enc T = (inp.tx.value t, inp.ty.value t)) (o1 : inp.tx.Outside srow 104) (o2 : inp.ty.Outside srow 104)
    (o3 : inp.b.Outside srow 104) (o4 : inp.bHigh.Outside srow 104) (hk0 : t .constant (c.k 0) (srow + 1) = 0)
    (hc0 : t .constant (c.w 0) (srow + 1) = 0) (hi : ℕ) (h2 : hi < 2) (hh : inp.bHigh.value t = (hi : ZMod pallasP))
    (hb : (inp.b.value t).val < 2 ^ 254) (hlt : (inp.b.value t).val + 2 ^ 254 * hi < vestaP) :
    let t' := assign (pallasKind _) c inp srow t
    Sat t' (circuit (pallasKind _) c inp srow ++ missing c inp srow) ∧ Frame c srow 104 t t' ∧
      ((resultX c srow).value t', (resultY c srow).value t') =
        enc ((2 * ((inp.b.value t).val + 2 ^ 254 * hi) + 1 + 2 ^ 255) • T) := by
  have hon := honest_pallas T hi h2 hh hb hlt
  rw [vestaP_eq] at hlt
  generalize hN : (inp.b.value t).val + 2 ^ 254 * hi = N at *
  obtain ⟨hsq, htwo, htor⟩ := pallas_ok
  obtain ⟨q1, q2, q3⟩ := tq_facts
  obtain ⟨p1, p2, p3, p4⟩ := tp_facts
  obtain ⟨d1, d2, d3⟩ := pallas_distinct
  obtain ⟨k1, k2, k3⟩ := pallas_consts (ZMod pallasP)
  have hpe := pallasP_eq
  have hve := vestaP_eq
  have hz := z0_eq
  have hp : 2 ^ 254 < pallasP := by omega
  have ha := hon.acc q2
  have i1 : (N : ZMod pallasP) = (pallasKind _).shiftedMinusOne ↔ N = tqN - 1 := by rw [k1]; exact cast_iff' (by omega) (by omega)
  have i2 : (N : ZMod pallasP) = (pallasKind _).shiftedZero ↔ N = z0 := by rw [k2]; exact cast_iff' (by omega) (by omega)
  have i3 : (N : ZMod pallasP) = (pallasKind _).shiftedOne ↔ N = tqN := by rw [k3]; exact cast_iff' (by omega) (by omega)
  obtain ⟨s1, s2, s3⟩ := honest_steps hsq htwo vestaP_eq q1 q2 q3 hon (T := T) hTe.symm rfl hT (by
    intro hm
    unfold mm at hm
    rw [ha] at hm
    refine ⟨fun e => hm ?_, fun e => hm ?_, fun e => hm ?_⟩
    · rw [i3.2 e]; ring
    · rw [i1.2 e]; ring
    · rw [i2.2 (by omega)]; ring)
  have hbit : (honestData (pallasKind _) inp t T).bits 0 = hi := by
    rw [hon.bit0 q2]; omega
  obtain ⟨r1, r2, r3⟩ := assign_sat hsq htwo htor hp hc T hTe o1 o2 o3 (fun _ => o4) hk0 hc0 q2 rfl hon
    (fun _ => by rw [hbit, hh]) d1 d2 d3 (fun d hd => hd ▸ s1) (fun d hd => hd ▸ s2)
  refine ⟨r1, r2, r3.trans ?_⟩
  unfold res
  simp only [ha, i1, i2, i3, s3]
  have hx : (honestData (pallasKind _) inp t T).tx = (enc T).1 := by rw [hTe]; rfl
  have hy : (honestData (pallasKind _) inp t T).ty = (enc T).2 := by rw [hTe]; rfl
  rw [hx, hy]
  rcases hT with hT | rfl
  · split_ifs with e1 e2 e3
    · rw [smul_pred hT 2 _ (by omega), enc_neg]
    · rw [show 2 * N + 1 + 2 ^ 255 = 3 * vestaP + 0 by omega, smul_of_order hT, zero_nsmul]; rfl
    · rw [show 2 * N + 1 + 2 ^ 255 = 2 * vestaP + 1 by omega, smul_of_order hT, one_nsmul]
    · rfl
  · rw [nsmul_zero]
    split_ifs <;> simp [enc_zero]

/-- **C77, Vesta, completeness, partial.** For a base point of the order of the group, or the neutral one, and every scalar
below the order other than three values, the generated table satisfies the circuit and the output is the multiple. -/
theorem vesta_complete_partial {t : Table (ZMod vestaP)} (hc : c.OK 15) (T : (curve (5 : ZMod vestaP)).Point)
    (hT : addOrderOf T = pallasP ∨ T = 0)
    (hTe : enc T = (inp.tx.value t, inp.ty.value t)) (o1 : inp.tx.Outside srow 104) (o2 : inp.ty.Outside srow 104)
    (o3 : inp.b.Outside srow 104) (hk0 : t .constant (c.k 0) (srow + 1) = 0)
    (hc0 : t .constant (c.w 0) (srow + 1) = 0) (hlt : (inp.b.value t).val < pallasP)
    (n1 : (inp.b.value t).val ≠ tpN - 1) (n2 : (inp.b.value t).val ≠ tpN)
    (n3 : 2 * (inp.b.value t).val + 1 ≠ 2 ^ 254 + 3 * tpN) :
    let t' := assign (vestaKind _) c inp srow t
    Sat t' (circuit (vestaKind _) c inp srow ++ missing c inp srow) ∧ Frame c srow 104 t t' ∧
      ((resultX c srow).value t', (resultY c srow).value t') = enc (vestaMul (inp.b.value t).val • T) := by
  have hon := honest_vesta T hlt
  rw [pallasP_eq] at hlt
  generalize hN : (inp.b.value t).val = N at *
  obtain ⟨hsq, htwo, htor⟩ := vesta_ok
  obtain ⟨q1, q2, q3⟩ := tq_facts
  obtain ⟨p1, p2, p3, p4⟩ := tp_facts
  obtain ⟨d1, d2, d3⟩ := vesta_distinct
  obtain ⟨k1, k2, k3⟩ := vesta_consts (ZMod vestaP)
  have hpe := pallasP_eq
  have hve := vestaP_eq
  have hp : 2 ^ 254 < vestaP := by omega
  have ha := hon.acc p2
  have i1 : (N : ZMod vestaP) = (vestaKind _).shiftedMinusOne ↔ N = 2 * tpN - 1 := by rw [k1]; exact cast_iff (by omega) (by omega)
  have i2 : (N : ZMod vestaP) = (vestaKind _).shiftedZero ↔ N = 2 * tpN := by rw [k2]; exact cast_iff (by omega) (by omega)
  have i3 : (N : ZMod vestaP) = (vestaKind _).shiftedOne ↔ N = 2 * tpN + 1 := by rw [k3]; exact cast_iff (by omega) (by omega)
  obtain ⟨s1, s2, s3⟩ := honest_steps hsq htwo pallasP_eq p1 p2 p3 hon (T := T) hTe.symm rfl hT
    (fun _ => ⟨n2, n1, by omega⟩)
  have kf : (vestaKind (ZMod vestaP)).pallas = true → False := by simp [vestaKind]
  obtain ⟨r1, r2, r3⟩ := assign_sat hsq htwo htor hp hc T hTe o1 o2 o3 (fun h => (kf h).elim) hk0 hc0 p2 rfl hon
    (fun h => (kf h).elim) d1 d2 d3 (fun d hd => hd ▸ s1) (fun d hd => hd ▸ s2)
  refine ⟨r1, r2, r3.trans ?_⟩
  unfold res vestaMul
  simp only [ha, i1, i2, i3, s3]
  have hx : (honestData (vestaKind _) inp t T).tx = (enc T).1 := by rw [hTe]; rfl
  have hy : (honestData (vestaKind _) inp t T).ty = (enc T).2 := by rw [hTe]; rfl
  rw [hx, hy]
  split_ifs with e1 e2 e3
  · rw [neg_one_zsmul, enc_neg]
  · rw [zero_zsmul]; rfl
  · rw [one_zsmul]
  · rw [← natCast_zsmul]
    congr 2

end pallas
end VarBaseMul
end Verif
