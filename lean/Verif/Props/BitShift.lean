import Verif.Model.BitShift
import Verif.Props.BitBuilder

/-!
# Constant bit shift: C27
-/

set_option linter.unusedSimpArgs false
set_option linter.unusedVariables false
set_option linter.unusedSectionVars false

namespace Verif
namespace BitDecomp
open BitBuilder

/-- The decomposition constraints hold on any table that agrees with the generated one on the component's rows. -/
theorem sat_after {F : Type*} [Field F] (c : Cols) (w bits : ℕ) (hw : 3 ≤ w) (hb : 0 < bits) (hc : c.OK w)
    (hk : c.k 0 = 0) (x : Var) (srow : ℤ) (t0 t : Table F) (b : ℕ → Bool) (hx : x.value t = (bitsNat b bits : ℕ))
    (hz : t .constant 0 srow = 0)
    (hag : ∀ i r, r < srow + (rows w bits true : ℕ) → t .witness i r = writeAll (writes c w bits true b srow) t0 .witness i r) :
    Sat t (circuit c w bits x srow) := by
  obtain ⟨G, hG0, hs, hT, hR, hp, hp0⟩ := layout w bits true hw hb
  obtain ⟨r1, r2, r3, r4⟩ := read (F := F) c w bits hw hb hc true b srow t0
  have hv : ∀ k, k < 3 * w * G → val c w srow t k = val c w srow (writeAll (writes c w bits true b srow) t0) k := by
    intro k hk
    rw [val_eq, val_eq]
    apply hag
    have : k / w < 3 * G := Nat.div_lt_of_lt_mul (by linarith)
    rw [hR]; omega
  have hsum : ∀ g, g < G → 3 * w * g + (3 * w - 1) < 3 * w * G := by
    intro g hg
    have : 3 * w * (g + 1) ≤ 3 * w * G := Nat.mul_le_mul_left _ hg
    have e2 : 3 * w * (g + 1) = 3 * w * g + 3 * w := by ring
    omega
  obtain ⟨s1, s2, s3, s4⟩ := cells_sat c w bits hw hb true srow t b hz (by rw [hk]; exact hz)
    (fun i hi => by rw [hv _ (bitCell_lt w i G hw hG0 (by omega)), r1 i hi])
    (fun i hi => by rw [hv _ (bitCell_lt w _ G hw hG0 (by omega)), r2 i hi])
    (fun g hg => by rw [hv _ (by rw [sumCell_even w g hw]; exact hsum g (by omega)), r3 g hg])
    (fun g hg => by
      rw [hv _ (by rw [sumCell_odd w g hw]; exact Nat.mul_lt_mul_of_pos_left (by omega) (by omega)), r4 g hg])
  simp only [circuit, sat_append, sat_cons, sat_nil, and_true, holds_copy]
  exact ⟨⟨⟨s1, s2⟩, s3⟩, hx.trans s4.symm⟩

end BitDecomp

/-- Specification: multiplication by `2^shift` modulo `2^bits`, or division by `2^shift`. -/
def shiftSpec (bits shift : ℕ) (right : Bool) (x : ℕ) : ℕ :=
  if right then x / 2 ^ shift else x * 2 ^ shift % 2 ^ bits

namespace BitShift
open BitBuilder

theorem inputs_length (c : Cols) (w bits shift : ℕ) (right : Bool) (srow : ℤ) :
    (inputs c w bits shift right srow).length = compBits bits shift right := by simp [inputs]

theorem spec_testBit (bits shift : ℕ) (right : Bool) (x : ℕ) (hs : shift ≤ bits) (i : ℕ)
    (hi : i < compBits bits shift right) :
    (shiftSpec bits shift right x).testBit (compBits bits shift right - 1 - i) =
      if right then x.testBit (bits - 1 - i) else decide (i + shift < bits) && x.testBit (bits - 1 - (i + shift)) := by
  cases right
  · simp only [compBits, Bool.false_eq_true, if_false] at hi ⊢
    simp only [shiftSpec, Bool.false_eq_true, if_false]
    rw [Nat.testBit_mod_two_pow, ← Nat.shiftLeft_eq, Nat.testBit_shiftLeft]
    have e : bits - 1 - i - shift = bits - 1 - (i + shift) := by omega
    rw [e, decide_eq_true (by omega : bits - 1 - i < bits), Bool.true_and]
    congr 1
    exact decide_eq_decide.2 (by omega)
  · simp only [compBits, if_true] at hi ⊢
    simp only [shiftSpec, if_true]
    rw [Nat.testBit_div_two_pow]
    congr 1; omega

theorem spec_lt (bits shift : ℕ) (right : Bool) (x : ℕ) (hs : shift ≤ bits) (hx : x < 2 ^ bits) :
    shiftSpec bits shift right x < 2 ^ compBits bits shift right := by
  cases right
  · exact Nat.mod_lt _ (by positivity)
  · simp only [shiftSpec, compBits, if_true]
    rw [Nat.div_lt_iff_lt_mul (by positivity), ← pow_add, Nat.sub_add_cancel hs]
    exact hx

section
variable {p : ℕ} [Fact p.Prime]

/-- The inputs of the composition are the bits of the shifted number. -/
theorem inputs_value (c : Cols) (w bits shift : ℕ) (hs : shift ≤ bits) (right : Bool) (srow : ℤ) (t : Table (ZMod p))
    (x : ℕ) (hz : (zeroVar srow).value t = 0)
    (ho : ∀ i < bits, (BitDecomp.out c w bits true srow i).value t = if x.testBit (bits - 1 - i) then 1 else 0)
    (i : ℕ) (hi : i < compBits bits shift right) :
    ((inputs c w bits shift right srow).getD i default).value t =
      (((shiftSpec bits shift right x).testBit (compBits bits shift right - 1 - i)).toNat : ZMod p) := by
  rw [spec_testBit bits shift right x hs i hi]
  have hcb : compBits bits shift right ≤ bits := by unfold compBits; split_ifs <;> omega
  simp only [inputs, List.getD, List.getElem?_map, List.getElem?_range hi, Option.map_some, Option.getD_some]
  cases right
  · simp only [Bool.false_eq_true, if_false]
    by_cases h : i + shift < bits
    · simp only [h, if_true, decide_true, Bool.true_and]
      rw [ho _ h]; cases x.testBit (bits - 1 - (i + shift)) <;> simp
    · simp only [h, if_false, decide_false, Bool.false_and, hz]; simp
  · simp only [if_true]
    rw [ho _ (by omega)]; cases x.testBit (bits - 1 - i) <;> simp

end
end BitShift

section
variable {p : ℕ} [Fact p.Prime]
open BitShift

/-- C27, soundness: every accepted table has an input below `2^bits` and holds the shifted number. -/
theorem bitShift_sound (c : Cols) (w bits shift : ℕ) (hw : 3 ≤ w) (hb : 0 < bits) (hp : bits < Nat.size p)
    (hk : c.k 0 = 0) (right : Bool) (hs : shift ≤ bits) (hcb : 0 < compBits bits shift right) (x : Var) (srow : ℤ)
    (t : Table (ZMod p)) (h : Sat t (BitShift.circuit c w bits shift right x srow)) :
    (x.value t).val < 2 ^ bits ∧
    (BitShift.out c w bits shift right srow).value t = (shiftSpec bits shift right (x.value t).val : ℕ) := by
  simp only [BitShift.circuit, sat_append] at h
  obtain ⟨hd, hc⟩ := h
  obtain ⟨hlt, ho⟩ := bitDecomp_sound c w bits hw hb hp hk true x srow t hd
  refine ⟨hlt, ?_⟩
  have hz : (BitBuilder.zeroVar srow).value t = 0 := by
    simp only [BitDecomp.circuit, sat_append] at hd
    exact BitBuilder.zeroVar_of_k0 hk hd.1.1.1
  have hl := inputs_length c w bits shift right srow
  have := (bitComp_sound c w hw hk false true _ (by rw [← List.length_pos_iff, hl]; exact hcb) _ t hc).1
  rw [hl] at this
  rw [BitShift.out, this, ← sum_idx true (fun i => ((inputs c w bits shift right srow).getD i default).value t)]
  refine (horner2_congr fun i hi =>
    inputs_value c w bits shift hs right srow t (x.value t).val hz ho i hi).trans ?_
  rw [horner2_bits, bitsNat_of_testBit _ _ (spec_lt bits shift right _ hs hlt)]

/-- The output is the shifted number as an integer, not only modulo `p`. -/
theorem bitShift_sound_val (c : Cols) (w bits shift : ℕ) (hw : 3 ≤ w) (hb : 0 < bits) (hp : bits < Nat.size p)
    (hk : c.k 0 = 0) (right : Bool) (hs : shift ≤ bits) (hcb : 0 < compBits bits shift right) (x : Var) (srow : ℤ)
    (t : Table (ZMod p)) (h : Sat t (BitShift.circuit c w bits shift right x srow)) :
    ((BitShift.out c w bits shift right srow).value t).val = shiftSpec bits shift right (x.value t).val := by
  obtain ⟨h1, h2⟩ := bitShift_sound c w bits shift hw hb hp hk right hs hcb x srow t h
  have h3 := spec_lt bits shift right _ hs h1
  have h4 : 2 ^ compBits bits shift right ≤ 2 ^ bits :=
    Nat.pow_le_pow_right (by omega) (by unfold compBits; split_ifs <;> omega)
  have h5 : 2 ^ bits ≤ p := Nat.lt_size.1 hp
  rw [h2, ZMod.val_natCast, Nat.mod_eq_of_lt (by omega)]

/-- C27, completeness: for every input below `2^bits` the generated table satisfies the constraints. -/
theorem bitShift_complete (c : Cols) (w bits shift : ℕ) (hw : 3 ≤ w) (hb : 0 < bits) (hc : c.OK w)
    (hp : bits < Nat.size p) (hk : c.k 0 = 0) (right : Bool) (hs : shift ≤ bits)
    (hcb : 0 < compBits bits shift right) (x : Var) (srow : ℤ) (t : Table (ZMod p))
    (hx : x.Outside srow (BitShift.total w bits shift right)) :
    let C := BitShift.circuit c w bits shift right x srow
    let tc := writeConsts C t
    (x.value tc).val < 2 ^ bits →
    let t' := BitShift.assign c w bits shift right x srow tc
    Sat t' C ∧ Frame c srow (BitShift.total w bits shift right) tc t' ∧
    (BitShift.out c w bits shift right srow).value t' = (shiftSpec bits shift right (x.value tc).val : ℕ) := by
  intro C tc hlt t'
  set R := BitBuilder.rows w bits true with hR
  set rc := compRow w bits srow with hrc
  have hrc' : rc = srow + (R : ℤ) := rfl
  have hl := inputs_length c w bits shift right srow
  have htot : BitShift.total w bits shift right = R + BitBuilder.rows w (compBits bits shift right) false := rfl
  obtain ⟨G, hG0, -, hT, hRG, -, -⟩ := BitBuilder.layout w bits true hw hb
  have hRpos : 0 < R := by omega
  have htc : tc = (t.set .constant 0 srow 0).set .constant 0 rc 0 := by
    simp only [tc, C, BitShift.circuit]
    rw [writeConsts_append, BitDecomp.writeConsts_eq, BitComp.writeConsts_eq, hk]
  have k0 : tc .constant 0 srow = 0 := by rw [htc]; simp [Table.set_apply]
  have k1 : tc .constant 0 rc = 0 := by rw [htc, Table.set_same]
  set t1 := BitDecomp.assign c w bits x srow tc with ht1
  have hxd : x.Outside srow R := fun h => by rcases hx h with h | h <;> omega
  have hset0 : tc.set .constant 0 srow 0 = tc := by
    funext ty i r; rw [Table.set_apply]; split_ifs with h
    · obtain ⟨rfl, rfl, rfl⟩ := h; exact k0.symm
    · rfl
  have hd := bitDecomp_complete c w bits hw hb hc hk x srow tc hxd (by rw [hset0]; exact hlt)
  rw [BitDecomp.writeConsts_eq, hk, hset0] at hd
  obtain ⟨hd1, hd2⟩ : Sat t1 _ ∧ Frame c srow R tc t1 := hd
  have hset1 : t1.set .constant 0 rc 0 = t1 := by
    funext ty i r; rw [Table.set_apply]; split_ifs with h
    · obtain ⟨rfl, rfl, rfl⟩ := h; rw [hd2.const, k1]
    · rfl
  have hx1 : x.value t1 = x.value tc := hd2.outside hxd
  have hz1 : (BitBuilder.zeroVar srow).value t1 = 0 := (hd2.const _ _).trans k0
  obtain ⟨-, ho⟩ := bitDecomp_sound c w bits hw hb hp hk true x srow t1 hd1
  have hin : ∀ v ∈ inputs c w bits shift right srow, v.Outside rc (BitBuilder.rows w (compBits bits shift right) false) ∧
      (v.value t1 = 0 ∨ v.value t1 = 1) := by
    intro v hv
    constructor
    · have hout : ∀ i < bits, (BitDecomp.out c w bits true srow i).Outside rc
          (BitBuilder.rows w (compBits bits shift right) false) := by
        intro i hi h
        left
        have hbc := BitBuilder.bitCell_lt w (BitBuilder.padding w bits true + BitBuilder.idx true bits i) G hw hG0
          (by simp [BitBuilder.idx]; omega)
        have : BitBuilder.bitCell w (BitBuilder.padding w bits true + BitBuilder.idx true bits i) / w < 3 * G :=
          Nat.div_lt_of_lt_mul (by linarith)
        have e : (BitDecomp.out c w bits true srow i).rotation = srow +
          ((BitBuilder.bitCell w (BitBuilder.padding w bits true + BitBuilder.idx true bits i) / w : ℕ) : ℤ) := rfl
        omega
      have hcle : compBits bits shift right ≤ bits := by unfold compBits; split_ifs <;> omega
      simp only [inputs, List.mem_map, List.mem_range] at hv
      obtain ⟨i, hi, rfl⟩ := hv
      cases right
      · simp only [Bool.false_eq_true, if_false]
        split_ifs with h
        · exact hout _ h
        · intro h; cases h
      · exact hout _ (by omega)
    · obtain ⟨i, hi, rfl⟩ := List.getElem_of_mem hv
      rw [hl] at hi
      have := inputs_value c w bits shift hs right srow t1 (x.value t1).val hz1 ho i hi
      simp only [List.getD, List.getElem?_eq_getElem (by rw [hl]; exact hi), Option.getD_some] at this
      rw [this]
      cases (shiftSpec bits shift right (x.value t1).val).testBit (compBits bits shift right - 1 - i) <;> simp
  have hcc := bitComp_complete c w hw hc hk false true (inputs c w bits shift right srow)
    (by rw [← List.length_pos_iff, hl]; exact hcb) rc t1 (by rw [hl]; exact fun v hv => (hin v hv).1)
    (by rw [hset1]; exact fun v hv => (hin v hv).2)
  rw [BitComp.writeConsts_eq, hk, hset1, hl] at hcc
  obtain ⟨hc1, hc2⟩ : Sat t' _ ∧ Frame c rc _ t1 t' := hcc
  have hF : Frame c srow (BitShift.total w bits shift right) tc t' :=
    (hd2.mono le_rfl (by push_cast [htot]; omega)).trans (hc2.mono (by omega) (by push_cast [htot]; omega))
  have hS : Sat t' C := by
    simp only [C, BitShift.circuit, sat_append]
    refine ⟨?_, hc1⟩
    refine BitDecomp.sat_after c w bits hw hb hc hk x srow tc t' (BitDecomp.inBits bits (x.value tc).val) ?_ ?_ ?_
    · have : bitsNat (BitDecomp.inBits bits (x.value tc).val) bits = (x.value tc).val := bitsNat_of_testBit _ _ hlt
      rw [hF.outside hx, this, ZMod.natCast_zmod_val]
    · rw [hF.const, k0]
    · intro i r hr
      exact hc2.row (by omega) _ _
  refine ⟨hS, hF, ?_⟩
  rw [(bitShift_sound c w bits shift hw hb hp hk right hs hcb x srow t' hS).2, hF.outside hx]

end

/-- An instance: 5-bit numbers over `ZMod 67`, three columns, shift by 2. -/
example : (⟨[0, 1, 2], [0], []⟩ : Cols).OK 3 ∧ 5 < Nat.size 67 ∧ Nat.Prime 67 ∧
    0 < BitShift.compBits 5 2 true ∧ shiftSpec 5 2 false 27 = 12 ∧ shiftSpec 5 2 true 27 = 6 :=
  ⟨⟨by decide, rfl⟩, by rw [Nat.lt_size]; norm_num, by norm_num, by decide, by decide, by decide⟩

end Verif
