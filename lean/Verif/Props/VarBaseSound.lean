import Verif.Props.VarBaseMul
import Verif.Props.PastaOrder

/-!
# C77: variable base scalar multiplication, soundness of the completed circuit

`core` holds for any base field and curve `y² = x³ + b`; the theorems for Pallas and Vesta follow.
-/

set_option linter.unusedVariables false

namespace Verif
namespace VarBaseMul
open UnifiedAddition (curve enc enc_zero equation_of unifiedAddition_sound pallas_ok vesta_ok)

section core
variable {p : ℕ} [Fact p.Prime] {K : Kind (ZMod p)} {c : Cols} {inp : In} {srow : ℤ} {t : Table (ZMod p)}

theorem core {cb : ZMod p} (hb : ∀ y : ZMod p, y ^ 2 ≠ cb) (htwo : (2 : ZMod p) ≠ 0) (htor : ∀ x : ZMod p, x ^ 3 + cb ≠ 0)
    {T : (curve cb).Point} {r τ : ℕ} (hT : addOrderOf T = r) (hr : r = 2 ^ 254 + τ) (h4 : 4 < τ) (ht : τ < 2 ^ 126)
    (ho : τ % 2 = 1) (hp : 2 ^ 254 < p) (hτ : (if K.pallas then K.tq else K.tp) = (τ : ZMod p))
    (hTe : enc T = (inp.tx.value t, inp.ty.value t)) (hc0 : t .constant (c.w 0) (srow + 1) = 0)
    (h : Sat t (circuit K c inp srow ++ missing c inp srow)) :
    ∃ n, Scalar K c inp srow t τ n ∧ LastFacts K c srow t ∧
      (t .witness (c.w 6) (srow + 103), t .witness (c.w 7) (srow + 103)) = enc T ∧
      (t .witness (c.w 8) (srow + 103) * t .witness (c.w 2) (srow + 103) ≠ 0 →
        n ≠ τ ∧ n ≠ τ - 1 ∧ 2 * n + 1 + 2 ^ 255 ≠ 3 * r ∧
        (t .witness (c.w 0) (srow + 102), t .witness (c.w 1) (srow + 102)) = enc ((2 * n + 1 + 2 ^ 255) • T)) := by
  obtain ⟨h, hm⟩ := (sat_append _ _).1 h
  have hf := (sat_iff _ _ _ _ _).1 h
  have hcp := (copies_iff _ _ _ _ _).1 hf.cp
  have hl := lastc_iff.1 hf.lastc
  simp only [missing, sat_cons, sat_nil, holds_copy, and_true, Cols.value_wa] at hm
  obtain ⟨m1, m2, m3⟩ := hm
  have hsc := scalar hp ht hτ hf hcp hl hc0 m3
  have hT0 : T ≠ 0 := by
    intro e
    rw [e, addOrderOf_zero] at hT
    omega
  set β := bt c srow t with hβd
  have hβ : ∀ i < 255, β i < 2 := fun i _ => bt_lt i
  have hbase : ∀ k : ℕ, k < 51 → t .witness (c.w 0) (srow + 1 + 2 * (k : ℤ)) = (enc T).1 ∧
      t .witness (c.w 1) (srow + 1 + 2 * (k : ℤ)) = (enc T).2 := by
    intro k
    induction k with
    | zero =>
      intro _
      rw [hTe, show srow + 1 + 2 * ((0 : ℕ) : ℤ) = srow + 1 by simp]
      exact ⟨m1.symm, m2.symm⟩
    | succ k ih =>
      intro hk
      obtain ⟨a, b⟩ := ih (by omega)
      rw [← hcp.bx k (by omega), ← hcp.by_ k (by omega)]
      exact ⟨a, b⟩
  have hua := unifiedAddition_sound cb hb c (addIn inp) srow t T T hTe hTe hf.ua
  have h0 : (X c t (srow + 1 + 2 * ((0 : ℕ) : ℤ)) 0, Y c t (srow + 1 + 2 * ((0 : ℕ) : ℤ)) 0) = enc ((2 : ℕ) • T) := by
    rw [two_nsmul, ← hua, show srow + 1 + 2 * ((0 : ℕ) : ℤ) = srow + 1 by simp]
    exact Prod.ext hcp.p0x hcp.p0y
  have hlink : ∀ k : ℕ, k < 50 → X c t (srow + 1 + 2 * ((k + 1 : ℕ) : ℤ)) 0 = X c t (srow + 1 + 2 * (k : ℤ)) 5 ∧
      Y c t (srow + 1 + 2 * ((k + 1 : ℕ) : ℤ)) 0 = Y c t (srow + 1 + 2 * (k : ℤ)) 5 :=
    fun k hk => ⟨hcp.qx k hk, hcp.qy k hk⟩
  have hfine : Fine τ (pre β 255) := by
    have := hsc.lt
    exact ⟨by omega, Or.inl (by omega)⟩
  have chain := full_chain hb hT hT0 (fun k hk => facts_pairs hf k hk) hβ (fun k hk m hm => facts_bit hf k hk m hm) hbase
    hlink h0 50 (by omega)
  have e101 : srow + 1 + 2 * ((50 : ℕ) : ℤ) = srow + 101 := by push_cast; ring
  have hP := facts_pairs hf 50 (by omega)
  have hB := hbase 50 (by omega)
  have hbit := fun m hm => facts_bit hf 50 (by omega) m hm
  refine ⟨pre β 255, hsc, hl, ?_, ?_⟩
  · rw [e101] at hB
    rw [hcp.xl, hcp.yl, hB.1, hB.2]
  · intro hg
    have g252 : ∀ j < 253, Good r β j := by
      intro j hj
      rcases Nat.lt_or_ge j 252 with h | h
      · exact good_low hr hβ j h
      · obtain rfl : j = 252 := by omega
        exact good_252 hr h4 ht ho hβ hfine
    have c253 := chain 3 (by omega) (fun j hj => g252 j (by omega)) (Or.inl (by omega))
    obtain ⟨a1, a2, a3⟩ := good_253' hr h4 ht ho hβ hfine
    have n254 : ¬ r ∣ al β 254 := fun hz =>
      pair_stuck hb htwo htor hT hT0 hP hβ (by omega) (by omega) (hbit 3 (by omega)) hB c253 a1 a2 a3 hz (Or.inr (Or.inr hg))
    have g253 : Good r β 253 := ⟨a1, a2, a3, n254⟩
    have c254 := chain 4 (by omega) (fun j hj => by
      rcases Nat.lt_or_ge j 253 with h | h
      · exact g252 j h
      · obtain rfl : j = 253 := by omega
        exact g253) (Or.inr hg)
    obtain ⟨b1, b2⟩ := good_254' hr h4 ht ho hβ hfine
    have n255 : ¬ r ∣ al β 255 := fun hz =>
      pair_stuck hb htwo htor hT hT0 hP hβ (by omega) (by omega) (hbit 4 (by omega)) hB c254 n254 b1 b2 hz (Or.inr (Or.inr hg))
    have c255 := chain 5 (by omega) (fun j hj => by
      rcases Nat.lt_or_ge j 253 with h | h
      · exact g252 j h
      · rcases Nat.lt_or_ge j 254 with h | h
        · obtain rfl : j = 253 := by omega
          exact g253
        · obtain rfl : j = 254 := by omega
          exact ⟨n254, b1, b2, n255⟩) (Or.inr hg)
    rw [e101] at c255
    have hτ2 : τ = 2 * (τ / 2) + 1 := by omega
    refine ⟨?_, ?_, ?_, ?_⟩
    · intro e
      apply n254
      refine ⟨1, ?_⟩
      have := pre_254 β
      have := hβ 254 (by omega)
      unfold al
      omega
    · intro e
      apply n254
      refine ⟨1, ?_⟩
      have := pre_254 β
      have := hβ 254 (by omega)
      unfold al
      omega
    · intro e
      exact n255 ⟨3, by rw [al_255]; omega⟩
    · rw [← al_255, show srow + 102 = srow + 101 + 1 by ring]
      exact c255

end core

/-- `t_q`, `t_p` as integers. -/
def tqN : ℕ := 0x224698fc0994a8dd8c46eb2100000001
def tpN : ℕ := 0x224698fc094cf91b992d30ed00000001

theorem vestaP_eq : vestaP = 2 ^ 254 + tqN := by decide +kernel
theorem pallasP_eq : pallasP = 2 ^ 254 + tpN := by decide +kernel
theorem tq_facts : 4 < tqN ∧ tqN < 2 ^ 126 ∧ tqN % 2 = 1 := by decide +kernel
theorem tp_facts : 4 < tpN ∧ tpN < 2 ^ 126 ∧ tpN % 2 = 1 ∧ tpN < tqN := by decide +kernel

/-- The shifted zero of Pallas. -/
def z0 : ℕ := 0x200000000000000000000000000000003369e57a0e5efd4c526a60b180000001
theorem z0_eq : 2 * z0 + 1 = 2 ^ 254 + 3 * tqN := by decide +kernel

theorem pallas_consts (F : Type*) [Field F] : (pallasKind F).shiftedMinusOne = ((tqN - 1 : ℕ) : F) ∧
    (pallasKind F).shiftedZero = (z0 : F) ∧ (pallasKind F).shiftedOne = (tqN : F) := ⟨rfl, rfl, rfl⟩

theorem vesta_consts (F : Type*) [Field F] : (vestaKind F).shiftedMinusOne = ((2 * tpN - 1 : ℕ) : F) ∧
    (vestaKind F).shiftedZero = ((2 * tpN : ℕ) : F) ∧ (vestaKind F).shiftedOne = ((2 * tpN + 1 : ℕ) : F) := ⟨rfl, rfl, rfl⟩

theorem cast_iff {p a b : ℕ} [Fact p.Prime] (ha : a < p) (hb : b < p) : (a : ZMod p) = (b : ZMod p) ↔ a = b :=
  ⟨cast_inj_of_lt ha hb, fun h => by rw [h]⟩

/-- Equality of residues below `2 p`, for a second residue so large that the other representative is excluded. -/
theorem cast_iff' {p a b : ℕ} [Fact p.Prime] (hb : b < p) (ha : a < p + b) : (a : ZMod p) = (b : ZMod p) ↔ a = b := by
  refine ⟨fun h => ?_, fun h => by rw [h]⟩
  have := (ZMod.natCast_eq_natCast_iff' _ _ _).1 h
  rw [Nat.mod_eq_of_lt hb] at this
  rcases Nat.lt_or_ge a p with h1 | h1
  · rwa [Nat.mod_eq_of_lt h1] at this
  · rw [Nat.mod_eq_sub_mod h1, Nat.mod_eq_of_lt (by omega)] at this
    omega

theorem val_of_cast {p n : ℕ} [Fact p.Prime] {x : ZMod p} (h : x = (n : ZMod p)) (hn : n < p) : x.val = n := by
  rw [h, ZMod.val_natCast, Nat.mod_eq_of_lt hn]

section group
variable {F : Type*} [Field F] [DecidableEq F] {cb : F} {T : (curve cb).Point} {r : ℕ}

theorem smul_of_order (hT : addOrderOf T = r) (k e : ℕ) : (k * r + e) • T = e • T := by
  rw [add_nsmul, mul_comm, mul_nsmul, ← hT, addOrderOf_nsmul_eq_zero, nsmul_zero, zero_add]

theorem smul_pred (hT : addOrderOf T = r) (k e : ℕ) (h : e + 1 = k * r) : e • T = -T := by
  have : (e + 1) • T = 0 := by
    have := smul_of_order hT k 0
    rw [h]; simpa using this
  rw [succ_nsmul] at this
  exact eq_neg_of_add_eq_zero_left this

theorem nonzero_of_order (hT : addOrderOf T = r) (hr : 1 < r) : T ≠ 0 := by
  intro e
  rw [e, addOrderOf_zero] at hT
  omega
end group

section final
variable {c : Cols} {inp : In} {srow : ℤ}

/-- **C77, Pallas, partial.** With the three missing copy constraints the scalar `b + 2^254 b_high` is below the order and
the output is the multiple of the base point by twice the scalar plus `2^255 + 1`. -/
theorem pallas_sound_partial (t : Table (ZMod pallasP)) (T : (curve (5 : ZMod pallasP)).Point) (hT : addOrderOf T = vestaP)
    (hTe : enc T = (inp.tx.value t, inp.ty.value t)) (hc0 : t .constant (c.w 0) (srow + 1) = 0)
    (h : Sat t (circuit (pallasKind _) c inp srow ++ missing c inp srow)) :
    ∃ hi : ℕ, hi < 2 ∧ inp.bHigh.value t = (hi : ZMod pallasP) ∧ (inp.b.value t).val < 2 ^ 254 ∧
      (inp.b.value t).val + 2 ^ 254 * hi < vestaP ∧
      ((resultX c srow).value t, (resultY c srow).value t) =
        enc ((2 * ((inp.b.value t).val + 2 ^ 254 * hi) + 1 + 2 ^ 255) • T) := by
  obtain ⟨hb, htwo, htor⟩ := pallas_ok
  obtain ⟨q1, q2, q3⟩ := tq_facts
  obtain ⟨p1, p2, p3, p4⟩ := tp_facts
  have hp : 2 ^ 254 < pallasP := by rw [pallasP_eq]; omega
  obtain ⟨n, hs, hl, hbase, hg⟩ := core hb htwo htor hT vestaP_eq q1 q2 q3 hp rfl hTe hc0 h
  obtain ⟨k1, k2, k3⟩ := pallas_consts (ZMod pallasP)
  have hn := hs.lt
  obtain ⟨hh, hbv⟩ := hs.pallas rfl
  have hv := val_of_cast hbv (by rw [pallasP_eq]; omega)
  have hz := z0_eq
  have hpe := pallasP_eq
  have hve := vestaP_eq
  have dm := Nat.div_add_mod n (2 ^ 254)
  refine ⟨n / 2 ^ 254, by omega, hh, by rw [hv]; omega, ?_, ?_⟩
  · rw [hv, hve]; omega
  rw [hv, show n % 2 ^ 254 + 2 ^ 254 * (n / 2 ^ 254) = n by omega]
  have i1 : (n : ZMod pallasP) = (pallasKind _).shiftedMinusOne ↔ n = tqN - 1 := by rw [k1]; exact cast_iff' (by omega) (by omega)
  have i2 : (n : ZMod pallasP) = (pallasKind _).shiftedZero ↔ n = z0 := by rw [k2]; exact cast_iff' (by omega) (by omega)
  have i3 : (n : ZMod pallasP) = (pallasKind _).shiftedOne ↔ n = tqN := by rw [k3]; exact cast_iff' (by omega) (by omega)
  have d1 : (pallasKind (ZMod pallasP)).shiftedMinusOne ≠ (pallasKind _).shiftedOne := by
    rw [k1, k3]; intro e; have := cast_inj_of_lt (by omega) (by omega) e; omega
  have d2 : (pallasKind (ZMod pallasP)).shiftedZero ≠ (pallasKind _).shiftedMinusOne := by
    rw [k1, k2]; intro e; have := cast_inj_of_lt (by omega) (by omega) e; omega
  have d3 : (pallasKind (ZMod pallasP)).shiftedZero ≠ (pallasKind _).shiftedOne := by
    rw [k2, k3]; intro e; have := cast_inj_of_lt (by omega) (by omega) e; omega
  have hcs := hl.cases d1 d2 d3
  rw [hs.cell, i1, i2, i3] at hcs
  show (t .witness (c.w 0) (srow + 103), t .witness (c.w 1) (srow + 103)) = _
  have b1 := congrArg Prod.fst hbase
  have b2 := congrArg Prod.snd hbase
  simp only at b1 b2
  rcases hcs with ⟨e, ex, ey⟩ | ⟨e, ex, ey⟩ | ⟨e, ex, ey⟩ | ⟨-, hm, ex, ey⟩
  · rw [smul_pred hT 2 _ (by omega), enc_neg, ex, ey, b1, b2]
  · rw [show 2 * n + 1 + 2 ^ 255 = 3 * vestaP + 0 by omega, smul_of_order hT, zero_nsmul, ex, ey]; rfl
  · rw [show 2 * n + 1 + 2 ^ 255 = 2 * vestaP + 1 by omega, smul_of_order hT, one_nsmul, ex, ey, hbase]
  · rw [ex, ey]; exact (hg hm).2.2.2

/-- The multiple computed for Vesta: the three scalars `2 t_p - 1`, `2 t_p`, `2 t_p + 1` stand for -1, 0 and 1. -/
def vestaMul (n : ℕ) : ℤ :=
  if n = 2 * tpN - 1 then -1 else if n = 2 * tpN then 0 else if n = 2 * tpN + 1 then 1 else 2 * n + 1 + 2 ^ 255

/-- **C77, Vesta, partial.** With the three missing copy constraints the scalar is below the order, is none of the three
values without an assignment and the output is the multiple of the base point. -/
theorem vesta_sound_partial (t : Table (ZMod vestaP)) (T : (curve (5 : ZMod vestaP)).Point) (hT : addOrderOf T = pallasP)
    (hTe : enc T = (inp.tx.value t, inp.ty.value t)) (hc0 : t .constant (c.w 0) (srow + 1) = 0)
    (h : Sat t (circuit (vestaKind _) c inp srow ++ missing c inp srow)) :
    (inp.b.value t).val < pallasP ∧ (inp.b.value t).val ≠ tpN - 1 ∧ (inp.b.value t).val ≠ tpN ∧
      2 * (inp.b.value t).val + 1 ≠ 2 ^ 254 + 3 * tpN ∧
      ((resultX c srow).value t, (resultY c srow).value t) = enc (vestaMul (inp.b.value t).val • T) := by
  obtain ⟨hb, htwo, htor⟩ := vesta_ok
  obtain ⟨q1, q2, q3⟩ := tq_facts
  obtain ⟨p1, p2, p3, p4⟩ := tp_facts
  have hp : 2 ^ 254 < vestaP := by rw [vestaP_eq]; omega
  obtain ⟨n, hs, hl, hbase, hg⟩ := core hb htwo htor hT pallasP_eq p1 p2 p3 hp rfl hTe hc0 h
  obtain ⟨k1, k2, k3⟩ := vesta_consts (ZMod vestaP)
  have hn := hs.lt
  have hbv := hs.vesta rfl
  have hv := val_of_cast hbv (by rw [vestaP_eq]; omega)
  have hpe := pallasP_eq
  have hve := vestaP_eq
  rw [hv]
  have i1 : (n : ZMod vestaP) = (vestaKind _).shiftedMinusOne ↔ n = 2 * tpN - 1 := by rw [k1]; exact cast_iff (by omega) (by omega)
  have i2 : (n : ZMod vestaP) = (vestaKind _).shiftedZero ↔ n = 2 * tpN := by rw [k2]; exact cast_iff (by omega) (by omega)
  have i3 : (n : ZMod vestaP) = (vestaKind _).shiftedOne ↔ n = 2 * tpN + 1 := by rw [k3]; exact cast_iff (by omega) (by omega)
  have d1 : (vestaKind (ZMod vestaP)).shiftedMinusOne ≠ (vestaKind _).shiftedOne := by
    rw [k1, k3]; intro e; have := cast_inj_of_lt (by omega) (by omega) e; omega
  have d2 : (vestaKind (ZMod vestaP)).shiftedZero ≠ (vestaKind _).shiftedMinusOne := by
    rw [k1, k2]; intro e; have := cast_inj_of_lt (by omega) (by omega) e; omega
  have d3 : (vestaKind (ZMod vestaP)).shiftedZero ≠ (vestaKind _).shiftedOne := by
    rw [k2, k3]; intro e; have := cast_inj_of_lt (by omega) (by omega) e; omega
  have hcs := hl.cases d1 d2 d3
  rw [hs.cell, i1, i2, i3] at hcs
  have b1 := congrArg Prod.fst hbase
  have b2 := congrArg Prod.snd hbase
  simp only at b1 b2
  refine ⟨by rw [hpe]; exact hn, ?_⟩
  have er : ((resultX c srow).value t, (resultY c srow).value t) =
    (t .witness (c.w 0) (srow + 103), t .witness (c.w 1) (srow + 103)) := rfl
  rw [er]
  unfold vestaMul
  rcases hcs with ⟨e, ex, ey⟩ | ⟨e, ex, ey⟩ | ⟨e, ex, ey⟩ | ⟨⟨e1, e2, e3⟩, hm, ex, ey⟩
  · refine ⟨by omega, by omega, by omega, ?_⟩
    rw [if_pos e, neg_one_zsmul, enc_neg, ex, ey, b1, b2]
  · refine ⟨by omega, by omega, by omega, ?_⟩
    rw [if_neg (by omega), if_pos e, zero_zsmul, ex, ey]; rfl
  · refine ⟨by omega, by omega, by omega, ?_⟩
    rw [if_neg (by omega), if_neg (by omega), if_pos e, one_zsmul, ex, ey, hbase]
  · obtain ⟨g1, g2, g3, g4⟩ := hg hm
    refine ⟨g2, g1, by omega, ?_⟩
    rw [if_neg (mt i1.2 e1), if_neg (mt i2.2 e2), if_neg (mt i3.2 e3), ex, ey, g4, ← natCast_zsmul]
    congr 2

end final
end VarBaseMul
end Verif
