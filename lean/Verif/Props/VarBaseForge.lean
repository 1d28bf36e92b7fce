import Verif.Props.VarBaseThms

/-!
# C77: what the missing copy constraints of the variable base multiplication allow
-/

set_option linter.unusedVariables false
set_option linter.unusedSectionVars false

namespace Verif
namespace VarBaseMul
open UnifiedAddition (curve enc enc_zero equation_of sumCells_eq pallas_ok vesta_ok)
open PastaOrder

/-- Fifteen columns, the inputs in the public input column. -/
def c0 : Cols := ⟨List.range 15, [0], [0]⟩
def inp0 : In := ⟨⟨0, 0, false, .publicInput⟩, ⟨0, 1, false, .publicInput⟩, ⟨0, 2, false, .publicInput⟩,
  ⟨0, 3, false, .publicInput⟩⟩
def t0 {F : Type*} [Zero F] (P : F × F) (b h : F) : Table F := fun ty _ r =>
  if ty = .publicInput then (if r = 0 then P.1 else if r = 1 then P.2 else if r = 2 then b else h) else 0

theorem c0_ok : c0.OK 15 := ⟨by decide, by decide⟩

theorem out0 : inp0.tx.Outside 0 104 ∧ inp0.ty.Outside 0 104 ∧ inp0.b.Outside 0 104 ∧ inp0.bHigh.Outside 0 104 := by
  refine ⟨?_, ?_, ?_, ?_⟩ <;> intro h <;> exact absurd h (by decide)

section flip
variable {p : ℕ} [Fact p.Prime]

theorem pre_flip (β : ℕ → ℕ) (hβ : ∀ i, β i < 2) (i : ℕ) : pre (fun i => 1 - β i) i + pre β i + 1 = 2 ^ i := by
  induction i with
  | zero => rfl
  | succ i ih =>
    have := hβ i
    rw [pre, pre, pow_succ]
    omega

theorem enc_flip {cb : ZMod p} (T : (curve cb).Point) {b : ℕ} (hb : b < 2) :
    enc (signed T (1 - b)) = ((enc T).1, (2 * (b : ZMod p) - 1) * -(enc T).2) := by
  rw [enc_signed (by omega)]
  interval_cases b <;> (ext <;> push_cast <;> ring)

end flip

/-- **C77, refuted: the base point is free.** The copy constraints tie the first and second column of the pairs of rows to
each other, but not to the input. With the negative of the base point there, and the doubled base point as the code
computes it, the output for the scalar `2^254 - 1` is another multiple. -/
theorem pallas_base_free : ∃ t : Table (ZMod pallasP),
    enc pallasG = (inp0.tx.value t, inp0.ty.value t) ∧ inp0.b.value t = 2 ^ 254 - 1 ∧ inp0.bHigh.value t = 0 ∧
    Sat t (circuit (pallasKind _) c0 inp0 0) ∧
    t .witness (c0.w 14) (0 + 100) = t .witness (c0.w 6) (0 + 101) ∧
    ((resultX c0 0).value t, (resultY c0 0).value t) ≠ enc ((2 * (2 ^ 254 - 1) + 1 + 2 ^ 255) • pallasG) := by
  obtain ⟨o1, o2, o3, o4⟩ := out0
  obtain ⟨hsq, htwo, htor⟩ := pallas_ok
  obtain ⟨q1, q2, q3⟩ := tq_facts
  obtain ⟨d1, d2, d3⟩ := pallas_distinct
  obtain ⟨k1, k2, k3⟩ := pallas_consts (ZMod pallasP)
  have hpe := pallasP_eq
  have hve := vestaP_eq
  have hz := z0_eq
  obtain ⟨p1, p2, p3, p4⟩ := tp_facts
  have hp : 2 ^ 254 < pallasP := by omega
  have hT := pallasG_order
  generalize pallasG = T at *
  have eb : ((2 : ZMod pallasP) ^ 254 - 1) = ((2 ^ 254 - 1 : ℕ) : ZMod pallasP) := by
    rw [Nat.cast_sub (Nat.one_le_two_pow)]; push_cast; ring
  set t := t0 (enc T) ((2 : ZMod pallasP) ^ 254 - 1) 0 with ht
  have hbv : (inp0.b.value t).val = 2 ^ 254 - 1 := by
    refine val_of_cast (?_ : inp0.b.value t = _) (by omega)
    rw [← eb]; rfl
  have hon := honest_pallas (inp := inp0) (t := t) T 0 (by omega) (by push_cast; rfl) (by rw [hbv]; omega)
    (by rw [hbv]; omega)
  rw [hbv, mul_zero, add_zero] at hon
  set dh := honestData (pallasKind _) inp0 t T with hdh
  have etx : dh.tx = (enc T).1 := rfl
  have ety : dh.ty = (enc T).2 := rfl
  let d : Data (ZMod pallasP) := { dh with ty := -dh.ty }
  have hond : Honest (pallasKind _) d tqN (2 ^ 254 - 1) := ⟨hon.lt, hon.bits, hon.b, hon.aux, hon.auxBits⟩
  have hβ : ∀ i < 255, (fun i => 1 - d.bits i) i < 2 := fun i _ => by simp only; omega
  have hpre : pre d.bits 255 = 2 ^ 254 - 1 := by rw [hond.pre q2 _ le_rfl, Nat.sub_self, pow_zero, Nat.div_one]
  have hpre' : pre (fun i => 1 - d.bits i) 255 = 2 ^ 254 := by
    have := pre_flip d.bits hond.lt2 255
    rw [hpre] at this
    omega
  have hp0 : d.p0 = enc ((2 : ℕ) • T) := by rw [two_nsmul]; rfl
  have hq : ∀ i < 255, (d.tx, qy d i) = enc (signed T ((fun i => 1 - d.bits i) i)) := by
    intro i hi
    rw [enc_flip T (hond.lt2 i), ← etx, ← ety]; rfl
  have hn : Fine tqN (pre (fun i => 1 - d.bits i) 255) := by rw [hpre']; exact ⟨by omega, Or.inl (by omega)⟩
  have s1 := slopes hsq htwo hT hve q1 q2 q3 hβ hn hp0 hq
  have s2 := chords (g := mm (pallasKind _) d ≠ 0) hsq htwo hT hve q1 q2 q3 hβ hn hp0 hq (fun _ => by
    rw [hpre']; exact ⟨by omega, by omega, by omega⟩)
  obtain ⟨-, hF⟩ := filled hsq htwo htor c0_ok T (inp := inp0) (srow := 0) (t := t) rfl o1 o2 (cell (pallasKind _) d)
  obtain ⟨r1, r2, -, -, r5⟩ := hF.sat hp rfl rfl o3 (fun _ => o4) rfl rfl q2 rfl hond (fun _ => by
    show (0 : ZMod pallasP) = _
    rw [hond.bit0 q2]; norm_num) d1 d2 d3 s1 s2
  refine ⟨_, ?_, ?_, ?_, r1, r2, ?_⟩
  · rw [hF.frame.outside o1, hF.frame.outside o2]; rfl
  · rw [hF.frame.outside o3]; rfl
  · rw [hF.frame.outside o4]; rfl
  · rw [r5]
    have ha := hond.acc q2
    unfold res
    rw [ha, k1, k2, k3]
    simp only
    rw [if_neg (fun e => by have := cast_inj_of_lt (by omega) (by omega) e; omega),
      if_neg (fun e => by have := cast_inj_of_lt (by omega) (by omega) e; omega),
      if_neg (fun e => by have := cast_inj_of_lt (by omega) (by omega) e; omega),
      pts hsq htwo hβ hp0 hq 255 le_rfl, al_255, hpre']
    intro e
    have e := enc_inj hsq e
    have e2 : 2 * 2 ^ 254 + 1 + 2 ^ 255 = 2 + (2 * (2 ^ 254 - 1) + 1 + 2 ^ 255) := by norm_num
    rw [e2, add_nsmul, add_eq_right, nsmul_zero_iff hT] at e
    exact absurd (Nat.le_of_dvd (by norm_num) e) (by omega)

/-- The scalar of the second decomposition of zero on Vesta: the order of the scalar field itself. -/
def aliasData (T : (curve (5 : ZMod vestaP)).Point) : Data (ZMod vestaP) :=
  ⟨(enc T).1, (enc T).2, enc (T + T), fun i => (vestaP.testBit (254 - i)).toNat, fun _ => 0, 0,
    0 - 2 ^ 254 - (tpN : ZMod vestaP) + 2 ^ 130⟩

/-- The cells of the second decomposition: as the data says, but for the last chunks of the range check. -/
def aliasCell (T : (curve (5 : ZMod vestaP)).Point) (r j : ℕ) : ZMod vestaP :=
  if r = 101 ∧ j = 6 then (aliasData T).aux * 16⁻¹
  else if r = 102 ∧ j = 14 then (aliasData T).aux
  else cell (vestaKind _) (aliasData T) r j

/-- **C77, refuted: the range check is void.** The last link of the chain of chunks of `aux` is not copied, so the scalar
of Vesta may be decomposed as itself plus the modulus of the native field: for the scalar zero the circuit accepts the
output for the scalar `vestaP` as well, with the base point copied. -/
theorem vesta_alias : ∃ t : Table (ZMod vestaP),
    enc vestaG = (inp0.tx.value t, inp0.ty.value t) ∧ inp0.b.value t = 0 ∧
    Sat t (circuit (vestaKind _) c0 inp0 0) ∧
    inp0.tx.value t = t .witness (c0.w 0) (0 + 1) ∧ inp0.ty.value t = t .witness (c0.w 1) (0 + 1) ∧
    ((resultX c0 0).value t, (resultY c0 0).value t) ≠ enc (vestaMul 0 • vestaG) := by
  obtain ⟨o1, o2, o3, o4⟩ := out0
  obtain ⟨hsq, htwo, htor⟩ := vesta_ok
  obtain ⟨q1, q2, q3⟩ := tq_facts
  obtain ⟨p1, p2, p3, p4⟩ := tp_facts
  obtain ⟨d1, d2, d3⟩ := vesta_distinct
  obtain ⟨k1, k2, k3⟩ := vesta_consts (ZMod vestaP)
  have hpq : tqN < 2 * tpN - 2 := by decide +kernel
  have hpe := pallasP_eq
  have hve := vestaP_eq
  have hp : 2 ^ 254 < vestaP := by omega
  have ar : ∀ v r a b : ℕ, v = 2 ^ 254 + a → r = 2 ^ 254 + b → a < 2 * b - 2 → b < 2 ^ 126 → 2 * v + 1 + 2 ^ 255 ≠ 3 * r := by
    intro v r a b; omega
  have hT := vestaG_order
  generalize vestaG = T at *
  set t := t0 (enc T) (0 : ZMod vestaP) 0 with ht
  generalize hd : aliasData T = d
  have hdb : ∀ i, d.bits i = (vestaP.testBit (254 - i)).toNat := by rw [← hd]; exact fun _ => rfl
  have hda : d.auxBits = fun _ => 0 := by rw [← hd]; rfl
  have etx : d.tx = (enc T).1 := by rw [← hd]; rfl
  have ety : d.ty = (enc T).2 := by rw [← hd]; rfl
  have hlt2 : ∀ i, d.bits i < 2 := by intro i; rw [hdb]; exact Bool.toNat_lt _
  have hpre : ∀ i ≤ 255, pre d.bits i = vestaP / 2 ^ (255 - i) := by
    intro i hi
    rw [← pre_testBit vestaP 255 (by omega) i hi]
    exact pre_congr i fun j _ => hdb j
  have hpre255 : pre d.bits 255 = vestaP := by rw [hpre _ le_rfl, Nat.sub_self, pow_zero, Nat.div_one]
  have hbit0 : d.bits 0 = 1 := by
    have := hpre 1 (by omega)
    rw [pre, pre] at this
    omega
  have hp0 : d.p0 = enc ((2 : ℕ) • T) := by rw [two_nsmul, ← hd]; rfl
  have hq : ∀ i < 255, (d.tx, qy d i) = enc (signed T (d.bits i)) := by
    intro i hi
    rw [enc_signed (hlt2 i), ← etx, ← ety]; rfl
  have hn : Fine tpN (pre d.bits 255) := by rw [hpre255]; exact ⟨by omega, Or.inl (by omega)⟩
  have s1 := slopes hsq htwo hT hpe p1 p2 p3 (fun i _ => hlt2 i) hn hp0 hq
  have s2 := chords (g := mm (vestaKind _) d ≠ 0) hsq htwo hT hpe p1 p2 p3 (fun i _ => hlt2 i) hn hp0 hq (fun _ => by
    rw [hpre255]
    exact ⟨by omega, by omega, ar _ _ _ _ hve hpe hpq p2⟩)
  obtain ⟨-, hF⟩ := filled hsq htwo htor c0_ok T (inp := inp0) (srow := 0) (t := t) rfl o1 o2 (aliasCell T)
  generalize writeAll _ _ = t' at hF
  have f3 := hF.frame
  have hcells : Cells (vestaKind _) c0 0 t' d := hF.cells fun r j hm => by
    unfold aliasCell
    rw [hd, if_neg, if_neg]
    · rintro ⟨rfl, rfl⟩
      rcases hm with h | h <;> omega
    · rintro ⟨rfl, rfl⟩
      rcases hm with h | h <;> omega
  have hu : ∀ k, uacc d k = 0 ∧ u0 d k = 0 ∧ u1 d k = 0 := by
    intro k
    have a : u0 d k = 0 := by simp [u0, hda]
    have b : u1 d k = 0 := by simp [u1, hda]
    refine ⟨?_, a, b⟩
    cases k with
    | zero => rfl
    | succ k =>
      induction k with
      | zero => simp [uacc, u0, u1, hda]
      | succ k ih => 
        have a : u0 d k.succ = 0 := by simp [u0, hda]
        have b : u1 d k.succ = 0 := by simp [u1, hda]
        rw [uacc]
        simp only [Nat.succ_eq_add_one] at a b
        rw [ih (by simp [u0, hda]) (by simp [u1, hda]), a, b]; simp
  have hA : ∀ k : ℕ, k < 22 → t' .witness (c0.w 6) (0 + 59 + 2 * (k : ℤ)) = (if k = 21 then d.aux * 16⁻¹ else 0) ∧
      t' .witness (c0.w 12) (0 + 59 + 2 * (k : ℤ) + 1) = 0 ∧
      t' .witness (c0.w 13) (0 + 59 + 2 * (k : ℤ) + 1) = 0 ∧
      t' .witness (c0.w 14) (0 + 59 + 2 * (k : ℤ) + 1) = (if k = 21 then d.aux else 0) := by
    intro k hk
    obtain ⟨b6, b12, b13, b14⟩ := hF.aux k hk
    obtain ⟨g6, g12, g13, g14⟩ := cell_aux (K := vestaKind _) (d := d) k hk
    rw [b6, b12, b13, b14]
    unfold aliasCell
    rw [hd, g6, g12, g13, g14, (hu k).1, (hu k).2.1, (hu k).2.2, (hu (k + 1)).1]
    refine ⟨?_, ?_, ?_, ?_⟩
    · by_cases h : k = 21
      · subst h; simp
      · rw [if_neg (by omega), if_neg (by omega), if_neg h]
    · rw [if_neg (by omega), if_neg (by omega)]
    · rw [if_neg (by omega), if_neg (by omega)]
    · by_cases h : k = 21
      · subst h; simp
      · rw [if_neg (by omega), if_neg (by omega), if_neg h]
  obtain ⟨a6, a12, a13, a14⟩ := hA 21 (by omega)
  have e102 : (0 : ℤ) + 59 + 2 * ((21 : ℕ) : ℤ) + 1 = 0 + 102 := by norm_num
  have e101 : (0 : ℤ) + 59 + 2 * ((21 : ℕ) : ℤ) = 0 + 101 := by norm_num
  rw [e102] at a12 a13 a14
  rw [e101] at a6
  rw [if_pos rfl] at a6 a14
  have h16 : (16 : ZMod vestaP) ≠ 0 := by
    have : (16 : ZMod vestaP) = 2 ^ 4 := by norm_num
    rw [this]; exact pow_ne_zero _ htwo
  have kf : (vestaKind (ZMod vestaP)).pallas = false := rfl
  have hcast : ((vestaP : ℕ) : ZMod vestaP) = 0 := ZMod.natCast_self _
  have hrest : Rest (vestaKind _) c0 inp0 0 t' d := by
    refine ⟨by rw [f3.const]; rfl, by rw [f3.const]; rfl, hF.ua, ?_, ?_, ?_, ?_, ?_, ?_, ?_, ?_, ?_, ?_, ?_, ?_, ?_, ?_⟩
    · rw [hp0, two_nsmul]; exact hF.p0
    · intro k hk
      obtain ⟨b6, b12, b13, b14⟩ := hA k (by omega)
      simp only [gate3, List.forall_mem_cons, List.not_mem_nil, false_imp_iff, implies_true, and_true, oct_eval, Expr.eval_sub,
        Expr.eval_mul, Expr.eval_const, Cols.eval_wv, add_zero]
      rw [b6, b12, b13, b14, if_neg (by omega), if_neg (by omega)]
      simp
    · have := (hA 0 (by omega)).1
      rw [show (0 : ℤ) + 59 + 2 * ((0 : ℕ) : ℤ) = 0 + 59 by simp, if_neg (by omega)] at this
      exact this
    · intro k hk
      rw [(hA k (by omega)).2.2.2, (hA (k + 1) (by omega)).1, if_neg (by omega), if_neg (by omega)]
    · rw [a12]; simp
    · rw [a13]; simp
    · rw [a14, a6, a12, a13]
      field_simp
      ring
    · intro _; rw [a14]
    · intro _
      rw [e2_eq, hpre _ (by omega), show vestaP / 2 ^ (255 - 125) = 2 ^ 124 by norm_num; omega]
      norm_num
    · rw [acc_eq, e2_eq]
    · rw [f3.outside o3, ← hd]; rfl
    · rw [if_neg (by rw [kf]; decide), acc_eq, hpre255, hcast, ← hd]; rfl
    · rw [if_neg (by rw [kf]; decide), if_neg (by rw [kf]; decide), hbit0, Nat.cast_one, one_mul, ← hd]; rfl
    · intro h; rw [kf] at h; exact absurd h (by decide)
  refine ⟨t', ?_, ?_, facts_of hcells hlt2 s1 s2 d1 d2 d3 hrest, ?_, ?_, ?_⟩
  · rw [f3.outside o1, f3.outside o2]; rfl
  · rw [f3.outside o3]; rfl
  · have q0 := hcells.fst 0 0 (by omega) (by omega) (by omega)
    rw [f3.outside o1]
    refine Eq.trans ?_ q0.symm
    rw [← hd]; rfl
  · have q1 := hcells.fst 0 1 (by omega) (by omega) (by omega)
    rw [f3.outside o2]
    refine Eq.trans ?_ q1.symm
    rw [← hd]; rfl
  · have l0 : t' .witness (c0.w 0) (0 + 103) = (res (vestaKind _) d).1 := hcells.last 0 (by omega)
    have l1 : t' .witness (c0.w 1) (0 + 103) = (res (vestaKind _) d).2 := hcells.last 1 (by omega)
    rw [resultX, resultY, Cols.value_wa, Cols.value_wa, l0, l1, Prod.mk.eta]
    unfold res vestaMul
    rw [acc_eq, hpre255, hcast, k1, k2, k3]
    simp only
    have nz : ∀ n : ℕ, 0 < n → n < vestaP → (0 : ZMod vestaP) ≠ (n : ZMod vestaP) := by
      intro n h1 h2 e
      have := cast_inj_of_lt (a := 0) (b := n) (by omega) h2 (by rw [Nat.cast_zero]; exact e)
      omega
    rw [if_neg (nz _ (by omega) (by omega)), if_neg (nz _ (by omega) (by omega)), if_neg (nz _ (by omega) (by omega)),
      if_neg (by omega), if_neg (by omega), if_neg (by omega), pts hsq htwo (fun i _ => hlt2 i) hp0 hq 255 le_rfl, al_255, hpre255]
    intro e
    have e := enc_inj hsq e
    rw [show (2 * ((0 : ℕ) : ℤ) + 1 + 2 ^ 255 : ℤ) = ((1 + 2 ^ 255 : ℕ) : ℤ) by norm_num, natCast_zsmul,
      Nat.add_assoc, add_nsmul, add_eq_right, nsmul_zero_iff hT] at e
    obtain ⟨k, hk⟩ := e
    rcases Nat.lt_or_ge k 2 with h | h
    · interval_cases k <;> omega
    · rcases Nat.lt_or_ge k 3 with h3 | h3
      · have : k = 2 := by omega
        subst this; omega
      · have : pallasP * 3 ≤ pallasP * k := Nat.mul_le_mul_left _ h3
        omega

end VarBaseMul
end Verif
