import Verif.Model.Comparison
import Verif.Props.RangeCheck
import Mathlib.Data.Nat.Size

/-!
# Comparison and division built on range checks: C21, C24
-/

set_option linter.unusedSimpArgs false
set_option linter.unusedVariables false
set_option linter.unusedSectionVars false

namespace Verif

/-- The relation that a comparison mode stands for (`FLAG` has none). -/
def CmpMode.rel : CmpMode → ℕ → ℕ → Prop
  | .flag, _, _ => False
  | .lt, x, y => x < y
  | .le, x, y => x ≤ y
  | .gt, x, y => x > y
  | .ge, x, y => x ≥ y

section
variable {p : ℕ} [hp : Fact p.Prime]

/-- Subtraction of small numbers: the difference is small iff it does not wrap around. -/
theorem zmod_sub_small {k : ℕ} (hk : 2 ^ (k + 1) ≤ p) {a b : ZMod p} (ha : a.val < 2 ^ k) (hb : b.val < 2 ^ k) :
    (b - a).val < 2 ^ k ↔ a.val ≤ b.val := by
  rw [pow_succ] at hk
  constructor
  · intro h
    by_contra hlt
    have h1 : (a - b).val = a.val - b.val := ZMod.val_sub (by omega)
    have h2 : b - a = -(a - b) := by ring
    have h3 : a - b ≠ 0 := by
      intro h0; rw [h0, ZMod.val_zero] at h1; omega
    haveI : NeZero (a - b) := ⟨h3⟩
    rw [h2, ZMod.val_neg_of_ne_zero] at h
    have := (a - b).val_lt
    omega
  · intro h
    rw [ZMod.val_sub h]; omega

namespace CompUnchecked

theorem final_row (w bits : ℕ) (m : CmpMode) (srow : ℤ) :
    srow + rows w bits m - 1 - bonus w m = srow + RangeCheck.rows w bits := by
  simp only [rows]; push_cast; omega

/-- The gate in terms of the cells: difference, and (strict modes) an inverse of it. -/
theorem gate_holds (c : Cols) (w : ℕ) (m : CmpMode) (row : ℤ) (t : Table (ZMod p)) :
    (∀ e ∈ (gate c w m : List (Expr (ZMod p))), e.eval t row = 0) ↔
      t .witness (c.w 2) row = t .witness (c.w 1) row - t .witness (c.w 0) row ∧
      (m.strict → t .witness (c.w 2) row *
        (if bonus w m = 0 then t .witness (c.w 3) row else t .witness (c.w 0) (row + 1)) = 1) := by
  have e : ∀ a b d : ZMod p, a - b + d = 0 ↔ a = b - d := fun a b d =>
    ⟨fun h => by linear_combination h, fun h => by linear_combination h⟩
  unfold gate
  cases hs : m.strict with
  | false => simp [e]
  | true =>
    by_cases hb : bonus w m = 0 <;> simp [hb, e, sub_eq_zero]

end CompUnchecked

open CompUnchecked in
/-- C21, soundness: for operands below `2^bits`, an accepted table implies the relation. -/
theorem comparisonUnchecked_sound (c : Cols) (w bits : ℕ) (hw : 2 ≤ w) (hk : c.k 0 = 0) (m : CmpMode)
    (hm : m ≠ .flag) (hb : bits < Nat.size p - 1) (x y : Var) (srow : ℤ) (t : Table (ZMod p))
    (hx : (x.value t).val < 2 ^ bits) (hy : (y.value t).val < 2 ^ bits)
    (h : Sat t (circuit c w bits m x y srow)) : m.rel (x.value t).val (y.value t).val := by
  have h2 : 2 ^ (bits + 1) ≤ p := Nat.lt_size.1 (by omega)
  simp only [circuit, sat_append, sat_cons, sat_nil, and_true, holds_gate, holds_copy, List.mem_singleton,
    forall_eq, final_row] at h
  obtain ⟨hrc, hg, hcx, hcy⟩ := h
  have hsmall := Verif.rangeCheck_sound c w bits hw hk _ _ t hrc
  rw [Cols.value_wa] at hsmall
  rw [gate_holds] at hg
  obtain ⟨hd, hnz⟩ := hg
  rw [hd] at hsmall hnz
  cases m with
  | flag => exact absurd rfl hm
  | lt =>
    simp only [CmpMode.swaps, Cols.value_wa] at hcx hcy; simp at hcx hcy
    rw [← hcx, ← hcy] at hsmall hnz
    have := (zmod_sub_small h2 hx hy).1 hsmall
    refine lt_of_le_of_ne this fun he => ?_
    have he := ZMod.val_injective p he
    have := hnz rfl
    rw [he] at this; simp at this
  | le =>
    simp only [CmpMode.swaps, Cols.value_wa] at hcx hcy; simp at hcx hcy
    rw [← hcx, ← hcy] at hsmall
    exact (zmod_sub_small h2 hx hy).1 hsmall
  | gt =>
    simp only [CmpMode.swaps, Cols.value_wa] at hcx hcy; simp at hcx hcy
    rw [← hcx, ← hcy] at hsmall hnz
    have := (zmod_sub_small h2 hy hx).1 hsmall
    refine lt_of_le_of_ne this fun he => ?_
    have he := ZMod.val_injective p he
    have := hnz rfl
    rw [he] at this; simp at this
  | ge =>
    simp only [CmpMode.swaps, Cols.value_wa] at hcx hcy; simp at hcx hcy
    rw [← hcx, ← hcy] at hsmall
    exact (zmod_sub_small h2 hy hx).1 hsmall

namespace CompUnchecked

theorem writeConsts_eq (c : Cols) (w bits : ℕ) (m : CmpMode) (x y : Var) (srow : ℤ) (t : Table (ZMod p)) :
    writeConsts (circuit c w bits m x y srow) t = t.set .constant (c.k 0) srow 0 := by
  simp only [circuit]
  rw [writeConsts_append, RangeCheck.writeConsts_eq]
  rfl

/-- Shared completeness core on the ordered operands `a` (smaller) and `b`. -/
theorem core (c : Cols) (w bits : ℕ) (hw : 3 ≤ w) (hc : c.OK w) (hk : c.k 0 = 0) (m : CmpMode) (x y : Var)
    (srow : ℤ) (t : Table (ZMod p)) (hz : t .constant 0 srow = 0)
    (hxo : x.Outside srow (rows w bits m)) (hyo : y.Outside srow (rows w bits m))
    (a b : ZMod p) (ha : a = if m.swaps then y.value t else x.value t)
    (hb : b = if m.swaps then x.value t else y.value t)
    (hd : (b - a).val < 2 ^ bits) (hs : m.strict → b - a ≠ 0) :
    let t' := assign c w bits m x y srow t
    Sat t' (circuit c w bits m x y srow) ∧ Frame c srow (rows w bits m) t t' := by
  intro t'
  set R := RangeCheck.rows w bits with hR
  set row : ℤ := srow + R with hrow
  set t1 := ((t.set .witness (c.w 0) row a).set .witness (c.w 1) row b).set .witness (c.w 2) row (b - a) with ht1
  have hrows : rows w bits m = R + 1 + bonus w m := rfl
  have hR1 : 1 ≤ R := by simp [hR, RangeCheck.rows]
  have hin : srow ≤ row ∧ row < srow + rows w bits m := by rw [hrows]; push_cast; omega
  have h3 : ∀ i j : ℤ, 0 ≤ i ∧ i < 3 → 0 ≤ j ∧ j < 3 → (c.w i = c.w j ↔ i = j) := fun i j hi hj =>
    hc.inj (by omega) (by omega)
  have hf1 : Frame c srow (rows w bits m) t t1 :=
    (((Frame.refl _ _ _ _).setOK hc (by omega) hin 0 a).setOK hc (by omega) hin 1 b).setOK hc (by omega) hin 2 _
  have hv : (c.wa 2 row).value t1 = b - a := by rw [Cols.value_wa, ht1, Table.set_same]
  set ws := RangeCheck.writes (F := ZMod p) c w bits (b - a).val srow with hws
  have hown := (RangeCheck.grid (F := ZMod p) c w bits (b - a).val (by omega) srow).own hc
  have hf2 := hown.frame t1
  have e2 : RangeCheck.assign c w bits (c.wa 2 row) srow t1 = writeAll ws t1 := by
    rw [RangeCheck.assign, hv]
  set t2 := writeAll ws t1 with ht2
  have et' : t' = if m.strict then
      (if bonus w m = 0 then t2.set .witness (c.w 3) row (b - a)⁻¹ else t2.set .witness (c.w 0) (row + 1) (b - a)⁻¹)
      else t2 := by
    simp only [t', assign]
    rw [← ha, ← hb, ← hR, ← hrow, ← ht1, e2]
  have hbon : bonus w m = 0 ∨ (bonus w m = 1 ∧ m.strict = true) := by
    unfold bonus; split_ifs with h
    · exact Or.inr ⟨rfl, h.2⟩
    · exact Or.inl rfl
  -- the last write touches only rows from `row` on
  have hf3 : Frame c row (1 + bonus w m) t2 t' := by
    rw [et']
    split_ifs with h1 h2
    · exact (Frame.refl _ _ _ _).setOK hc (by omega) (by omega) _ _
    · exact (Frame.refl _ _ _ _).setOK hc (by omega) (by push_cast; omega) _ _
    · exact Frame.refl _ _ _ _
  have hfr : Frame c srow (rows w bits m) t t' :=
    (hf1.trans (hf2.mono le_rfl (by rw [hrows]; push_cast; omega))).trans
      (hf3.mono hin.1 (by rw [hrows]; push_cast; omega))
  refine ⟨?_, hfr⟩
  have hrd : ∀ i : ℤ, 0 ≤ i ∧ i < 3 → t' .witness (c.w i) row = t1 .witness (c.w i) row := by
    intro i hi
    have e : t2 .witness (c.w i) row = t1 .witness (c.w i) row := hf2.row (by omega) _ _
    rw [← e, et']
    split_ifs with h1 h2
    · by_cases hw4 : 4 ≤ w
      · apply Table.set_ne
        rintro ⟨-, h, -⟩
        have := (hc.inj (by omega) (by omega)).1 h
        omega
      · exact absurd h2 (by simp [bonus, h1]; omega)
    · apply Table.set_ne; rintro ⟨-, -, h⟩; omega
    · rfl
  have r0 : t' .witness (c.w 0) row = a := by
    rw [hrd 0 (by omega), ht1]; simp [Table.set_apply, h3]
  have r1 : t' .witness (c.w 1) row = b := by
    rw [hrd 1 (by omega), ht1]; simp [Table.set_apply, h3]
  have r2 : t' .witness (c.w 2) row = b - a := by
    rw [hrd 2 (by omega), ht1, Table.set_same]
  simp only [circuit, sat_append, sat_cons, sat_nil, and_true, holds_gate, holds_copy, List.mem_singleton,
    forall_eq, final_row]
  rw [← hR, ← hrow]
  refine ⟨?_, ?_, ?_, ?_⟩
  · refine RangeCheck.sat_after c w bits (by omega) hc hk _ srow t1 t' (b - a).val hd ?_ ?_ ?_
    · rw [Cols.value_wa, r2, ZMod.natCast_zmod_val]
    · rw [hfr.const, hz]
    · intro i r _ h2; exact hf3.row (Or.inl (by omega)) _ _
  · rw [gate_holds, r0, r1, r2]
    refine ⟨rfl, fun h => ?_⟩
    have : (if bonus w m = 0 then t' .witness (c.w 3) row else t' .witness (c.w 0) (row + 1)) = (b - a)⁻¹ := by
      rw [et']
      split_ifs <;> simp [Table.set_same]
    rw [this, mul_inv_cancel₀ (hs h)]
  · rw [hfr.outside hxo]
    cases hsw : m.swaps <;> simp [hsw, Cols.value_wa, r0, r1] at ha hb ⊢
    · exact ha.symm
    · exact hb.symm
  · rw [hfr.outside hyo]
    cases hsw : m.swaps <;> simp [hsw, Cols.value_wa, r0, r1] at ha hb ⊢
    · exact hb.symm
    · exact ha.symm

end CompUnchecked

open CompUnchecked in
/-- C21, completeness: for operands below `2^bits` in the relation the generated table is accepted. -/
theorem comparisonUnchecked_complete (c : Cols) (w bits : ℕ) (hw : 3 ≤ w) (hc : c.OK w) (hk : c.k 0 = 0)
    (m : CmpMode) (hb : bits < Nat.size p - 1) (x y : Var) (srow : ℤ) (t : Table (ZMod p))
    (hxo : x.Outside srow (rows w bits m)) (hyo : y.Outside srow (rows w bits m)) :
    let tc := writeConsts (circuit c w bits m x y srow) t
    let t' := assign c w bits m x y srow tc
    (x.value tc).val < 2 ^ bits → (y.value tc).val < 2 ^ bits → m.rel (x.value tc).val (y.value tc).val →
    Sat t' (circuit c w bits m x y srow) ∧ Frame c srow (rows w bits m) tc t' := by
  intro tc t' hx hy hr
  have h2 : 2 ^ (bits + 1) ≤ p := Nat.lt_size.1 (by omega)
  have hz : tc .constant 0 srow = 0 := by
    simp only [tc]; rw [writeConsts_eq, hk, Table.set_same]
  refine core c w bits hw hc hk m x y srow tc hz hxo hyo _ _ rfl rfl ?_ ?_
  · cases m <;> simp only [CmpMode.swaps, CmpMode.rel] at hr ⊢ <;> simp
    · exact (zmod_sub_small h2 hx hy).2 hr.le
    · exact (zmod_sub_small h2 hx hy).2 hr
    · exact (zmod_sub_small h2 hy hx).2 (le_of_lt hr)
    · exact (zmod_sub_small h2 hy hx).2 hr
  · intro hs h0
    cases m <;> simp only [CmpMode.swaps, CmpMode.strict, CmpMode.rel] at hr hs h0 <;> simp at hs h0
    · rw [sub_eq_zero] at h0; rw [h0] at hr; exact lt_irrefl _ hr
    · rw [sub_eq_zero] at h0; rw [h0] at hr; exact lt_irrefl _ hr

open CompUnchecked in
/-- The bound on the operands is a real precondition: larger ones are compared modulo the field. Over the
field with 7 elements and one bit, the table for `6 < 0` (difference 1) is accepted. -/
theorem comparisonUnchecked_wraps :
    ∃ (c : Cols) (x y : Var) (t : Table (ZMod 7)), c.OK 4 ∧ c.k 0 = 0 ∧
      Sat t (circuit c 4 1 .lt x y 0) ∧ (x.value t).val = 6 ∧ (y.value t).val = 0 := by
  set c : Cols := ⟨[0, 1, 2, 3], [0], []⟩
  have hc : c.OK 4 := ⟨by decide, rfl⟩
  set t : Table (ZMod 7) := fun ty i _ => if ty = .publicInput ∧ i = 0 then 6 else 0
  have hk : c.k 0 = 0 := by decide
  have := core c 4 1 (by omega) hc hk .lt ⟨0, 0, false, .publicInput⟩ ⟨1, 0, false, .publicInput⟩ 0 t rfl
    (by simp [Var.Outside]) (by simp [Var.Outside]) 6 0 rfl rfl (by decide) (by decide)
  refine ⟨c, _, _, _, hc, hk, this.1, ?_, ?_⟩
  · rw [this.2.outside (by simp [Var.Outside])]; rfl
  · rw [this.2.outside (by simp [Var.Outside])]; rfl

example : (⟨[0, 1, 2], [0], []⟩ : Cols).OK 3 ∧ CompUnchecked.rows 3 5 .lt = 5 ∧ CompUnchecked.rows 4 5 .le = 3 ∧
    CmpMode.rel .gt 9 4 ∧ 1 < Nat.size 7 - 1 :=
  ⟨⟨by decide, rfl⟩, by decide, by decide, by simp [CmpMode.rel], by decide⟩


namespace DivRem

theorem div_le_bonus {w k : ℕ} (hw : 3 ≤ w) (hk : k < 5) : k / w ≤ bonus w := by
  unfold bonus
  split_ifs with h
  · have : k / w ≤ k / 3 := Nat.div_le_div_left hw (by omega)
    omega
  · rw [Nat.div_eq_of_lt (by omega)]

theorem addr_eq {w k : ℕ} (c : Cols) (srow : ℤ) (t : Table (ZMod p)) :
    (addr c w srow k).value t = t .witness (c.w ((k % w : ℕ) : ℤ)) (srow + ((k / w : ℕ) : ℤ)) := by
  rw [addr, Cols.value_wa]

theorem gvar_eval {w k : ℕ} (c : Cols) (srow : ℤ) (t : Table (ZMod p)) :
    (gvar c w k : Expr (ZMod p)).eval t srow = (addr c w srow k).value t := by
  rw [gvar, Cols.eval_wv, addr_eq]

/-- What the circuit says about the five values. -/
theorem circuit_iff (c : Cols) (w bits : ℕ) (check : Bool) (x y : Var) (srow : ℤ) (t : Table (ZMod p)) :
    Sat t (circuit c w bits check x y srow) ↔
      ((addr c w srow 0).value t = (addr c w srow 1).value t * (addr c w srow 2).value t + (addr c w srow 3).value t ∧
       (addr c w srow 4).value t = (addr c w srow 1).value t - (addr c w srow 3).value t) ∧
      (∀ i < 2 + 2 * check.toNat, Sat t (RangeCheck.circuit c w bits (addr c w srow (rcVar i)) (rcRow w bits srow i))) ∧
      x.value t = (addr c w srow 0).value t ∧ y.value t = (addr c w srow 1).value t := by
  have hfm : ∀ n, Sat t ((List.range n).flatMap fun i =>
      RangeCheck.circuit (F := ZMod p) c w bits (addr c w srow (rcVar i)) (rcRow w bits srow i)) ↔
      ∀ i < n, Sat t (RangeCheck.circuit c w bits (addr c w srow (rcVar i)) (rcRow w bits srow i)) := by
    intro n
    induction n with
    | zero => simp
    | succ n ih =>
      rw [List.range_succ, List.flatMap_append, sat_append, ih]
      simp only [List.flatMap_cons, List.flatMap_nil, List.append_nil]
      constructor
      · rintro ⟨h1, h2⟩ i hi
        rcases Nat.lt_succ_iff_lt_or_eq.1 hi with h | rfl
        · exact h1 i h
        · exact h2
      · intro h; exact ⟨fun i hi => h i (by omega), h n (by omega)⟩
  simp only [circuit, sat_append, hfm, sat_cons, sat_nil, and_true, holds_gate, holds_copy, List.mem_singleton,
    forall_eq, gate, List.mem_cons, List.not_mem_nil, or_false, forall_eq_or_imp, Expr.eval_sub, Expr.eval_mul,
    gvar_eval, and_assoc]
  constructor
  · rintro ⟨h1, h2, h3⟩
    exact ⟨by linear_combination h1, by linear_combination -h2, h3⟩
  · rintro ⟨h1, h2, h3⟩
    exact ⟨by linear_combination h1, by linear_combination -h2, h3⟩

theorem sound (c : Cols) (w bits : ℕ) (hw : 2 ≤ w) (hk : c.k 0 = 0) (check : Bool) (x y : Var) (srow : ℤ)
    (t : Table (ZMod p)) (h : Sat t (circuit c w bits check x y srow)) :
    x.value t = y.value t * (quotient c w srow).value t + (remainder c w srow).value t ∧
    ((quotient c w srow).value t).val < 2 ^ bits ∧ (y.value t - (remainder c w srow).value t).val < 2 ^ bits ∧
    (check → (x.value t).val < 2 ^ bits ∧ (y.value t).val < 2 ^ bits) := by
  rw [circuit_iff] at h
  obtain ⟨⟨h1, h2⟩, hr, hx, hy⟩ := h
  have hrc := fun i hi => Verif.rangeCheck_sound c w bits hw hk _ _ t (hr i hi)
  rw [hx, hy]
  refine ⟨h1, hrc 1 (by omega), ?_, fun hc => ?_⟩
  · have := hrc 0 (by omega)
    simp only [rcVar, List.getD_cons_zero, h2] at this
    exact this
  · rw [hc] at hrc
    exact ⟨hrc 2 (by decide), hrc 3 (by decide)⟩

def headVal (x y q r : ZMod p) (k : ℕ) : ZMod p := [x, y, q, r, y - r].getD k 0

theorem heads_grid (c : Cols) (w : ℕ) (hw : 3 ≤ w) (x y q r : ZMod p) (srow : ℤ) :
    GridWrites c srow w (1 + bonus w) (fun i j => headVal x y q r (i * w + j)) (heads c w x y q r srow) := by
  intro z hz
  simp only [heads, List.map_cons, List.map_nil, List.mem_cons, List.not_mem_nil, or_false] at hz
  have key : ∀ k < 5, ∃ i < 1 + bonus w, ∃ j < w, (⟨.witness, c.w ((k % w : ℕ) : ℤ), srow + ((k / w : ℕ) : ℤ),
      headVal x y q r k⟩ : Write (ZMod p)) = ⟨.witness, c.w (j : ℤ), srow + (i : ℤ), headVal x y q r (i * w + j)⟩ := by
    intro k hk
    refine ⟨k / w, by have := div_le_bonus hw hk; omega, k % w, Nat.mod_lt _ (by omega), ?_⟩
    rw [Nat.div_add_mod']
  rcases hz with rfl | rfl | rfl | rfl | rfl
  · exact key 0 (by omega)
  · exact key 1 (by omega)
  · exact key 3 (by omega)
  · exact key 2 (by omega)
  · exact key 4 (by omega)

theorem heads_read (c : Cols) (w : ℕ) (hw : 3 ≤ w) (hc : c.OK w) (x y q r : ZMod p) (srow : ℤ)
    (t : Table (ZMod p)) (k : ℕ) (hk : k < 5) :
    (addr c w srow k).value (writeAll (heads c w x y q r srow) t) = headVal x y q r k := by
  rw [addr_eq]
  have := (heads_grid c w hw x y q r srow).read hc t (r := k / w) (j := k % w) (Nat.mod_lt _ (by omega)) (by
    simp only [Nat.div_add_mod']
    interval_cases k <;> simp [heads, headVal])
  rw [this, Nat.div_add_mod']

/-- All range-check blocks after the loop. -/
theorem blocksRead (c : Cols) (w bits : ℕ) (hw : 3 ≤ w) (hc : c.OK w) (srow : ℤ) (t1 : Table (ZMod p)) (n : ℕ)
    (hn : n ≤ 4) :
    let T := (List.range n).foldl
      (fun t i => RangeCheck.assign c w bits (addr c w srow (rcVar i)) (rcRow w bits srow i) t) t1
    Frame c (srow + ((1 + bonus w : ℕ) : ℤ)) (n * RangeCheck.rows w bits) t1 T ∧
    ∀ i < n, ∃ t0, ∀ idx r, rcRow w bits srow i ≤ r → r < rcRow w bits srow i + RangeCheck.rows w bits →
      T .witness idx r = writeAll (RangeCheck.writes c w bits ((addr c w srow (rcVar i)).value t1).val
        (rcRow w bits srow i)) t0 .witness idx r := by
  induction n with
  | zero => exact ⟨by simpa using Frame.refl _ _ _ _, by simp⟩
  | succ n ih =>
    obtain ⟨hf, hb⟩ := ih (by omega)
    intro T
    set T0 := (List.range n).foldl
      (fun t i => RangeCheck.assign c w bits (addr c w srow (rcVar i)) (rcRow w bits srow i) t) t1 with hT0
    have hT : T = RangeCheck.assign c w bits (addr c w srow (rcVar n)) (rcRow w bits srow n) T0 := by
      simp only [T, List.range_succ, List.foldl_append, List.foldl_cons, List.foldl_nil]
      rw [hT0]
    have hrv : rcVar n < 5 := by
      have : n < 4 := by omega
      interval_cases n <;> simp [rcVar]
    have hv : (addr c w srow (rcVar n)).value T0 = (addr c w srow (rcVar n)).value t1 := by
      apply hf.outside
      intro _
      left
      simp only [addr, Cols.wa]
      have := div_le_bonus hw hrv
      push_cast; omega
    have hT' : T = writeAll (RangeCheck.writes c w bits ((addr c w srow (rcVar n)).value t1).val
        (rcRow w bits srow n)) T0 := by rw [hT, RangeCheck.assign, hv]
    have hf2 : Frame c (rcRow w bits srow n) (RangeCheck.rows w bits) T0 T := by
      rw [hT']; exact ((RangeCheck.grid c w bits _ (by omega) _).own hc).frame _
    refine ⟨?_, ?_⟩
    · refine (hf.mono le_rfl ?_).trans (hf2.mono ?_ ?_)
      · push_cast; nlinarith
      · unfold rcRow; push_cast; nlinarith
      · unfold rcRow; push_cast; nlinarith
    · intro i hi
      rcases Nat.lt_succ_iff_lt_or_eq.1 hi with h | rfl
      · obtain ⟨t0, h0⟩ := hb i h
        refine ⟨t0, fun idx r h1 h2 => ?_⟩
        rw [← h0 idx r h1 h2]
        apply hf2.row
        left
        have : (i + 1) * RangeCheck.rows w bits ≤ n * RangeCheck.rows w bits := Nat.mul_le_mul_right _ h
        have h3 : rcRow w bits srow i + RangeCheck.rows w bits ≤ rcRow w bits srow n := by
          unfold rcRow; push_cast
          have : ((i : ℤ) + 1) * RangeCheck.rows w bits ≤ n * RangeCheck.rows w bits := by exact_mod_cast this
          linarith
        omega
      · exact ⟨T0, fun idx r _ _ => by rw [hT']⟩

/-- Any quotient and remainder that satisfy the constraints can be placed in an accepted table. -/
theorem core (c : Cols) (w bits : ℕ) (hw : 3 ≤ w) (hc : c.OK w) (hk : c.k 0 = 0) (check : Bool) (x y : Var)
    (srow : ℤ) (t : Table (ZMod p)) (hz : ∀ i < 2 + 2 * check.toNat, t .constant 0 (rcRow w bits srow i) = 0)
    (hxo : x.Outside srow (rows w bits check)) (hyo : y.Outside srow (rows w bits check)) (q r : ZMod p)
    (h1 : x.value t = y.value t * q + r) (h2 : q.val < 2 ^ bits) (h3 : (y.value t - r).val < 2 ^ bits)
    (h4 : check → (x.value t).val < 2 ^ bits ∧ (y.value t).val < 2 ^ bits) :
    let t' := assignWith c w bits check x y q r srow t
    Sat t' (circuit c w bits check x y srow) ∧ Frame c srow (rows w bits check) t t' ∧
      (quotient c w srow).value t' = q ∧ (remainder c w srow).value t' = r := by
  intro t'
  set t1 := writeAll (heads c w (x.value t) (y.value t) q r srow) t with ht1
  have hf1 : Frame c srow (1 + bonus w) t t1 := ((heads_grid c w hw _ _ q r srow).own hc).frame t
  have hamt : 2 + 2 * check.toNat ≤ 4 := by cases check <;> simp
  obtain ⟨hf2, hbl⟩ := blocksRead c w bits hw hc srow t1 (2 + 2 * check.toNat) hamt
  have et' : (List.range (2 + 2 * check.toNat)).foldl
      (fun t i => RangeCheck.assign c w bits (addr c w srow (rcVar i)) (rcRow w bits srow i) t) t1 = t' := rfl
  rw [et'] at hf2 hbl
  have hfr : Frame c srow (rows w bits check) t t' := by
    refine (hf1.mono le_rfl ?_).trans (hf2.mono (by omega) ?_)
    · unfold rows; push_cast; nlinarith
    · unfold rows; push_cast; linarith
  have hval : ∀ k < 5, (addr c w srow k).value t' = headVal (x.value t) (y.value t) q r k := by
    intro k hk5
    rw [← heads_read c w hw hc _ _ _ _ srow t k hk5, ← ht1]
    apply hf2.outside
    intro _
    left
    have := div_le_bonus hw hk5
    simp only [addr, Cols.wa]; push_cast; omega
  refine ⟨?_, hfr, hval 2 (by omega), hval 3 (by omega)⟩
  rw [circuit_iff, hval 0 (by omega), hval 1 (by omega), hval 2 (by omega), hval 3 (by omega), hval 4 (by omega),
    hfr.outside hxo, hfr.outside hyo]
  refine ⟨⟨h1, rfl⟩, fun i hi => ?_, rfl, rfl⟩
  obtain ⟨t0, h0⟩ := hbl i hi
  have hrv : rcVar i < 5 := by
    have : i < 4 := by omega
    interval_cases i <;> simp [rcVar]
  have hv1 : (addr c w srow (rcVar i)).value t1 = headVal (x.value t) (y.value t) q r (rcVar i) :=
    heads_read c w hw hc _ _ _ _ srow t _ hrv
  refine RangeCheck.sat_after c w bits (by omega) hc hk _ _ t0 t' _ ?_ ?_ ?_ h0
  · rw [hv1]
    have : i = 0 ∨ i = 1 ∨ (check = true ∧ (i = 2 ∨ i = 3)) := by
      cases check <;> simp at hi ⊢ <;> omega
    rcases this with rfl | rfl | ⟨h, rfl | rfl⟩
    · exact h3
    · exact h2
    · exact (h4 h).1
    · exact (h4 h).2
  · rw [hval _ hrv, hv1, ZMod.natCast_zmod_val]
  · rw [hfr.const, hz i hi]

theorem writeConsts_eq (c : Cols) (w bits : ℕ) (check : Bool) (x y : Var) (srow : ℤ) (t : Table (ZMod p))
    (i : ℕ) (hi : i < 2 + 2 * check.toNat) :
    writeConsts (circuit c w bits check x y srow) t .constant (c.k 0) (rcRow w bits srow i) = 0 := by
  have key : ∀ n (t : Table (ZMod p)), i < n → writeConsts ((List.range n).flatMap fun i =>
      RangeCheck.circuit (F := ZMod p) c w bits (addr c w srow (rcVar i)) (rcRow w bits srow i)) t
        .constant (c.k 0) (rcRow w bits srow i) = 0 := by
    intro n
    induction n with
    | zero => simp
    | succ n ih =>
      intro t hi
      rw [List.range_succ, List.flatMap_append, writeConsts_append]
      simp only [List.flatMap_cons, List.flatMap_nil, List.append_nil]
      rw [RangeCheck.writeConsts_eq, Table.set_apply]
      split_ifs with h
      · rfl
      · rcases Nat.lt_succ_iff_lt_or_eq.1 hi with h' | rfl
        · exact ih _ h'
        · exact absurd ⟨rfl, rfl, rfl⟩ h
  simp only [circuit]
  rw [writeConsts_append, writeConsts_append]
  simp only [writeConsts_gate, writeConsts_nil, writeConsts_copy]
  exact key _ _ hi

end DivRem

open DivRem in
/-- C24, exactly what the component enforces: `q` and `r` can be proved for `x`, `y` iff `x = y q + r` in the
field, `q` and `y - r` are below `2^bits` (and, with `check_inputs`, so are `x` and `y`). Nothing bounds `r`
itself, and `y - r = 0` is allowed. -/
theorem divRem_accepts_iff (c : Cols) (w bits : ℕ) (hw : 3 ≤ w) (hc : c.OK w) (hk : c.k 0 = 0) (check : Bool)
    (srow : ℤ) (a b q r : ZMod p) :
    (∃ t, Sat t (circuit c w bits check ⟨0, 0, false, .publicInput⟩ ⟨0, 1, false, .publicInput⟩ srow) ∧
      t .publicInput 0 0 = a ∧ t .publicInput 0 1 = b ∧
      (quotient c w srow).value t = q ∧ (remainder c w srow).value t = r) ↔
    a = b * q + r ∧ q.val < 2 ^ bits ∧ (b - r).val < 2 ^ bits ∧
      (check → a.val < 2 ^ bits ∧ b.val < 2 ^ bits) := by
  constructor
  · rintro ⟨t, h, rfl, rfl, rfl, rfl⟩
    exact sound c w bits (by omega) hk check _ _ srow t h
  · rintro ⟨h1, h2, h3, h4⟩
    set t : Table (ZMod p) := fun ty _ i => if ty = .publicInput then (if i = 0 then a else b) else 0
    obtain ⟨hs, hf, hq, hr⟩ := core c w bits hw hc hk check ⟨0, 0, false, .publicInput⟩ ⟨0, 1, false, .publicInput⟩
      srow t (fun _ _ => rfl) (by simp [Var.Outside]) (by simp [Var.Outside]) q r h1 h2 h3 h4
    exact ⟨_, hs, hf.outside (v := ⟨0, 0, false, .publicInput⟩) (by simp [Var.Outside]),
      hf.outside (v := ⟨0, 1, false, .publicInput⟩) (by simp [Var.Outside]), hq, hr⟩

open DivRem in
/-- C24, completeness: for operands below `2^bits` and a nonzero divisor the generated table is accepted and
holds the Euclidean quotient and remainder. -/
theorem divRem_complete (c : Cols) (w bits : ℕ) (hw : 3 ≤ w) (hc : c.OK w) (hk : c.k 0 = 0) (check : Bool)
    (x y : Var) (srow : ℤ) (t : Table (ZMod p))
    (hxo : x.Outside srow (rows w bits check)) (hyo : y.Outside srow (rows w bits check)) :
    let tc := writeConsts (circuit c w bits check x y srow) t
    let t' := assign c w bits check x y srow tc
    (x.value tc).val < 2 ^ bits → (y.value tc).val < 2 ^ bits → y.value tc ≠ 0 →
    Sat t' (circuit c w bits check x y srow) ∧ Frame c srow (rows w bits check) tc t' ∧
      ((quotient c w srow).value t').val = (x.value tc).val / (y.value tc).val ∧
      ((remainder c w srow).value t').val = (x.value tc).val % (y.value tc).val := by
  intro tc t' hx hy h0
  have hy0 : 0 < (y.value tc).val := Nat.pos_of_ne_zero fun h => h0 ((ZMod.val_eq_zero _).1 h)
  have hpx := (x.value tc).val_lt
  have hpy := (y.value tc).val_lt
  have hmod := Nat.mod_lt (x.value tc).val hy0
  have hdiv := Nat.div_le_self (x.value tc).val (y.value tc).val
  have e1 : (qr (x.value tc) (y.value tc)).1.val = (x.value tc).val / (y.value tc).val := by
    simp only [qr]; exact ZMod.val_cast_of_lt (by omega)
  have e2 : (qr (x.value tc) (y.value tc)).2 = (((x.value tc).val % (y.value tc).val : ℕ) : ZMod p) := by
    simp only [qr]; rw [if_neg (by omega)]
  have e3 : (qr (x.value tc) (y.value tc)).2.val = (x.value tc).val % (y.value tc).val := by
    rw [e2]; exact ZMod.val_cast_of_lt (by omega)
  obtain ⟨hs, hf, hq, hr⟩ := core c w bits hw hc hk check x y srow tc (fun i hi => by
      have := writeConsts_eq c w bits check x y srow t i hi
      rw [hk] at this; exact this) hxo hyo (qr (x.value tc) (y.value tc)).1 (qr (x.value tc) (y.value tc)).2
    (by
      rw [e2]; simp only [qr]
      have := Nat.div_add_mod (x.value tc).val (y.value tc).val
      calc x.value tc = (((x.value tc).val : ℕ) : ZMod p) := (ZMod.natCast_zmod_val _).symm
        _ = (((y.value tc).val * ((x.value tc).val / (y.value tc).val) + (x.value tc).val % (y.value tc).val : ℕ) : ZMod p) := by
            rw [this]
        _ = _ := by push_cast; rw [ZMod.natCast_zmod_val])
    (by rw [e1]; omega) (by rw [ZMod.val_sub (by rw [e3]; omega)]; omega) (fun _ => ⟨hx, hy⟩)
  exact ⟨hs, hf, (congrArg ZMod.val hq).trans e1, (congrArg ZMod.val hr).trans e3⟩

open DivRem in
/-- C24 fails as stated, first reason: `y - r = 0` is allowed. With `check_inputs`, any admissible size and any
width, `1 / 1` can be proved to be quotient 0 with remainder 1. -/
theorem divRem_refuted_full_remainder (c : Cols) (w bits : ℕ) (hw : 3 ≤ w) (hc : c.OK w) (hk : c.k 0 = 0)
    (hb : 0 < bits) (srow : ℤ) :
    ∃ t : Table (ZMod p),
      Sat t (circuit c w bits true ⟨0, 0, false, .publicInput⟩ ⟨0, 1, false, .publicInput⟩ srow) ∧
      t .publicInput 0 0 = 1 ∧ t .publicInput 0 1 = 1 ∧
      (quotient c w srow).value t = 0 ∧ (remainder c w srow).value t = 1 := by
  have h1 : (1 : ZMod p).val < 2 ^ bits := by
    haveI : Fact (1 < p) := ⟨hp.out.one_lt⟩
    rw [ZMod.val_one]; exact Nat.one_lt_two_pow (by omega)
  refine (divRem_accepts_iff c w bits hw hc hk true srow 1 1 0 1).2 ⟨by simp, by simp, by simp, fun _ => ⟨h1, h1⟩⟩

open DivRem in
/-- C24 fails as stated, second reason: the remainder itself is not range checked. With `check_inputs`, any
size from 3 bits on and any field with more than 64 elements, `5 / 2` can be proved to be quotient 3 with
remainder `-1`. -/
theorem divRem_refuted_negative_remainder (c : Cols) (w bits : ℕ) (hw : 3 ≤ w) (hc : c.OK w) (hk : c.k 0 = 0)
    (hb : 3 ≤ bits) (hpb : 64 < p) (srow : ℤ) :
    ∃ t : Table (ZMod p),
      Sat t (circuit c w bits true ⟨0, 0, false, .publicInput⟩ ⟨0, 1, false, .publicInput⟩ srow) ∧
      t .publicInput 0 0 = 5 ∧ t .publicInput 0 1 = 2 ∧
      (quotient c w srow).value t = 3 ∧ (remainder c w srow).value t = -1 := by
  have h8 : 8 ≤ 2 ^ bits := by
    calc 8 = 2 ^ 3 := by norm_num
      _ ≤ 2 ^ bits := Nat.pow_le_pow_right (by norm_num) hb
  have hv : ∀ n : ℕ, n < 8 → ((n : ℕ) : ZMod p).val < 2 ^ bits := fun n hn => by
    rw [ZMod.val_cast_of_lt (by omega)]; omega
  have h2 := hv 2 (by omega)
  have h3 := hv 3 (by omega)
  have h5 := hv 5 (by omega)
  refine (divRem_accepts_iff c w bits hw hc hk true srow 5 2 3 (-1)).2 ⟨by ring, h3, ?_, fun _ => ⟨h5, h2⟩⟩
  have : (2 : ZMod p) - -1 = 3 := by ring
  rw [this]; exact h3

open DivRem in
/-- C24, the part that holds: *if the user additionally* range checks the remainder and rules out `r = y`, the
result is the Euclidean one. Missing from the code, hence from this theorem's conclusion: those two facts. -/
theorem divRem_sound_partial (c : Cols) (w bits : ℕ) (hw : 2 ≤ w) (hk : c.k 0 = 0) (check : Bool)
    (hb : 0 < bits) (hpb : 2 ^ (2 * bits) ≤ p) (x y : Var) (srow : ℤ) (t : Table (ZMod p))
    (h : Sat t (circuit c w bits check x y srow))
    (hx : (x.value t).val < 2 ^ bits) (hy : (y.value t).val < 2 ^ bits)
    (hr : ((remainder c w srow).value t).val < 2 ^ bits) (hne : (remainder c w srow).value t ≠ y.value t) :
    ((quotient c w srow).value t).val = (x.value t).val / (y.value t).val ∧
    ((remainder c w srow).value t).val = (x.value t).val % (y.value t).val := by
  obtain ⟨h1, h2, h3, -⟩ := sound c w bits hw hk check x y srow t h
  generalize (quotient c w srow).value t = q at *
  generalize (remainder c w srow).value t = r at *
  generalize x.value t = a at *
  generalize y.value t = b at *
  have h2p : 2 ^ (bits + 1) ≤ p := le_trans (Nat.pow_le_pow_right (by norm_num) (by omega)) hpb
  have hle := (zmod_sub_small h2p hr hy).1 h3
  have hlt : r.val < b.val := lt_of_le_of_ne hle fun e => hne (ZMod.val_injective p e)
  have hsmall : b.val * q.val + r.val < p := by
    have e : 2 ^ (2 * bits) = 2 ^ bits * 2 ^ bits := by rw [two_mul, pow_add]
    have : b.val * q.val ≤ (2 ^ bits - 1) * (2 ^ bits - 1) := Nat.mul_le_mul (by omega) (by omega)
    have h4 : (2 ^ bits - 1) * (2 ^ bits - 1) + 2 ^ bits ≤ 2 ^ bits * 2 ^ bits := by
      obtain ⟨N, hN⟩ : ∃ N, 2 ^ bits = N + 1 := ⟨2 ^ bits - 1, by have := Nat.one_le_two_pow (n := bits); omega⟩
      rw [hN]; simp; nlinarith
    omega
  have hint : a.val = b.val * q.val + r.val := by
    have e : a = ((b.val * q.val + r.val : ℕ) : ZMod p) := by
      rw [h1]; push_cast; simp only [ZMod.natCast_zmod_val]
    rw [e, ZMod.val_cast_of_lt hsmall]
  rw [hint]
  constructor
  · rw [Nat.mul_add_div (by omega), Nat.div_eq_of_lt hlt, Nat.add_zero]
  · rw [Nat.mul_add_mod, Nat.mod_eq_of_lt hlt]

/-- Non-vacuity: in the field with 97 elements and 3 bits, `7 = 2 * 3 + 1` is accepted with all hypotheses of
`divRem_sound_partial` met. -/
example : 2 ^ (2 * 3) ≤ 97 ∧ (7 : ZMod 97) = 2 * 3 + 1 ∧ (3 : ZMod 97).val < 2 ^ 3 ∧
    ((2 : ZMod 97) - 1).val < 2 ^ 3 ∧ (1 : ZMod 97) ≠ 2 ∧ DivRem.rows 3 3 true = 2 + 4 * 2 :=
  ⟨by norm_num, by decide, by decide, by decide, by decide, by decide⟩

end
end Verif
