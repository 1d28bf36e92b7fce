import Verif.Props.VarBaseBuild

/-!
# C77: completeness of the assignment of the variable base scalar multiplication
-/

set_option linter.unusedVariables false
set_option linter.unusedSectionVars false
set_option linter.unusedSimpArgs false

namespace Verif
namespace VarBaseMul
open UnifiedAddition (curve enc enc_zero equation_of sumCells_eq pallas_ok vesta_ok unifiedAddition_complete_wide)

theorem pre_testBit (x N : ℕ) (hx : x < 2 ^ N) (i : ℕ) (hi : i ≤ N) :
    pre (fun j => (x.testBit (N - 1 - j)).toNat) i = x / 2 ^ (N - i) := by
  induction i with
  | zero => rw [Nat.sub_zero, Nat.div_eq_of_lt hx]; rfl
  | succ i ih =>
    rw [pre, ih (by omega), Nat.toNat_testBit, show N - 1 - i = N - (i + 1) by omega,
      show N - i = (N - (i + 1)) + 1 by omega, pow_succ, ← Nat.div_div_eq_div_mul]
    omega

section complete
variable {p : ℕ} [Fact p.Prime] {K : Kind (ZMod p)} {c : Cols} {inp : In} {srow : ℤ} {t : Table (ZMod p)}
  {d : Data (ZMod p)}

theorem pre_congr {β β' : ℕ → ℕ} (i : ℕ) (h : ∀ j < i, β j = β' j) : pre β i = pre β' i := by
  induction i with
  | zero => rfl
  | succ i ih => rw [pre, pre, ih fun j hj => h j (by omega), h i (by omega)]

/-- The chunks of the range check put together. -/
theorem uacc_eq (d : Data (ZMod p)) (k : ℕ) (hk : k ≤ 21) :
    uacc d k = (pre (fun j => d.auxBits (125 + j)) (6 * k) : ZMod p) := by
  induction k with
  | zero => simp [uacc, pre]
  | succ k ih =>
    rw [uacc, if_pos (by omega), ih (by omega), u0, u1, if_pos (by omega), show 6 * (k + 1) = 6 * k + 5 + 1 by ring, pre,
      show 6 * k + 5 = 6 * k + 4 + 1 by ring, pre, show 6 * k + 4 = 6 * k + 3 + 1 by ring, pre,
      show 6 * k + 3 = 6 * k + 2 + 1 by ring, pre, show 6 * k + 2 = 6 * k + 1 + 1 by ring, pre, pre, mul_comm k 6]
    push_cast
    simp only [← add_assoc]
    ring

theorem uacc_last (d : Data (ZMod p)) : uacc d 22 = (pre (fun j => d.auxBits (125 + j)) 130 : ZMod p) := by
  rw [uacc, if_neg (by omega), uacc_eq d 21 (by omega), u0, u1, if_neg (by omega)]
  rw [show pre (fun j => d.auxBits (125 + j)) 130 = 2 * (2 * (2 * (2 * pre (fun j => d.auxBits (125 + j)) 126 +
    d.auxBits (125 + 126)) + d.auxBits (125 + 127)) + d.auxBits (125 + 128)) + d.auxBits (125 + 129) from rfl]
  push_cast
  ring

theorem oct_nat {a : ℕ} (ha : a < 8) : (a : ZMod p) * ((a : ZMod p) - 1) * ((a : ZMod p) - 2) * ((a : ZMod p) - 3) *
    ((a : ZMod p) - 4) * ((a : ZMod p) - 5) * ((a : ZMod p) - 6) * ((a : ZMod p) - 7) = 0 := by
  interval_cases a <;> simp

theorem u0_nat (hx : ∀ i, d.auxBits i < 2) (k : ℕ) : ∃ a : ℕ, a < 8 ∧ u0 d k = (a : ZMod p) := by
  have h1 := hx (125 + k * 6)
  have h2 := hx (125 + k * 6 + 1)
  have h3 := hx (125 + k * 6 + 2)
  exact ⟨4 * d.auxBits (125 + k * 6) + 2 * d.auxBits (125 + k * 6 + 1) + d.auxBits (125 + k * 6 + 2), by omega,
    by unfold u0; push_cast; ring⟩

theorem u1_nat (hx : ∀ i, d.auxBits i < 2) (k : ℕ) : ∃ a : ℕ, a < 8 ∧ (k = 21 → a < 2) ∧ u1 d k = (a : ZMod p) := by
  have h1 := hx (125 + k * 6 + 3)
  have h2 := hx (125 + k * 6 + 4)
  have h3 := hx (125 + k * 6 + 5)
  unfold u1
  split_ifs with h
  · exact ⟨4 * d.auxBits (125 + k * 6 + 3) + 2 * d.auxBits (125 + k * 6 + 4) + d.auxBits (125 + k * 6 + 5), by omega,
      by omega, by push_cast; ring⟩
  · exact ⟨d.auxBits (125 + k * 6 + 3), by omega, by omega, by ring⟩

/-- The scalar `N` of the data, and the range check. -/
structure Honest (K : Kind (ZMod p)) (d : Data (ZMod p)) (τ N : ℕ) : Prop where
  lt : N < 2 ^ 254 + τ
  bits : ∀ i, d.bits i = (N.testBit (254 - i)).toNat
  b : d.b = if K.pallas then ((N % 2 ^ 254 : ℕ) : ZMod p) else (N : ZMod p)
  aux : d.aux = d.b - (if K.pallas then 0 else (d.bits 0 : ZMod p) * 2 ^ 254) - (if K.pallas then K.tq else K.tp) + 2 ^ 130
  auxBits : ∀ i, d.auxBits i = (d.aux.val.testBit (254 - i)).toNat

theorem Honest.lt2 {τ N : ℕ} (h : Honest K d τ N) (i : ℕ) : d.bits i < 2 := by
  rw [h.bits]; exact Bool.toNat_lt _

theorem Honest.auxlt {τ N : ℕ} (h : Honest K d τ N) (i : ℕ) : d.auxBits i < 2 := by
  rw [h.auxBits]; exact Bool.toNat_lt _

theorem Honest.pre {τ N : ℕ} (h : Honest K d τ N) (ht : τ < 2 ^ 126) (i : ℕ) (hi : i ≤ 255) :
    pre d.bits i = N / 2 ^ (255 - i) := by
  have hl := h.lt
  rw [← pre_testBit N 255 (by omega) i hi]
  exact pre_congr i fun j hj => h.bits j

theorem Honest.acc {τ N : ℕ} (h : Honest K d τ N) (ht : τ < 2 ^ 126) : acc d 51 = (N : ZMod p) := by
  rw [acc_eq, h.pre ht _ (by omega)]; norm_num

theorem Honest.bit0 {τ N : ℕ} (h : Honest K d τ N) (ht : τ < 2 ^ 126) : d.bits 0 = N / 2 ^ 254 := by
  have hl := h.lt
  rw [h.bits, Nat.toNat_testBit, Nat.sub_zero]
  omega

theorem Honest.low {τ N : ℕ} (h : Honest K d τ N) (ht : τ < 2 ^ 126) :
    d.b - (if K.pallas then 0 else (d.bits 0 : ZMod p) * 2 ^ 254) = ((N % 2 ^ 254 : ℕ) : ZMod p) := by
  rw [h.b, h.bit0 ht]
  split_ifs
  · rw [sub_zero]
  · have e : (N : ZMod p) = ((2 ^ 254 * (N / 2 ^ 254) + N % 2 ^ 254 : ℕ) : ZMod p) := by rw [Nat.div_add_mod]
    rw [e]
    generalize N / 2 ^ 254 = x
    generalize N % 2 ^ 254 = y
    push_cast
    ring

theorem Honest.range {τ N : ℕ} (h : Honest K d τ N) (ht : τ < 2 ^ 126) (hp : 2 ^ 254 < p)
    (hτ : (if K.pallas then K.tq else K.tp) = (τ : ZMod p)) (h1 : d.bits 0 = 1) : uacc d 22 = d.aux := by
  have hl := h.lt
  rw [h.bit0 ht] at h1
  have ha := h.aux
  rw [h.low ht, hτ] at ha
  have hlow : N % 2 ^ 254 < τ := by omega
  have e : d.aux = ((N % 2 ^ 254 + 2 ^ 130 - τ : ℕ) : ZMod p) := by
    rw [ha, Nat.cast_sub (by omega)]
    push_cast
    ring
  have hv := val_of_cast e (by omega)
  have hlt : d.aux.val < 2 ^ 130 := by rw [hv]; omega
  rw [uacc_last, pre_congr (β' := fun j => (d.aux.val.testBit (130 - 1 - j)).toNat) 130, pre_testBit _ 130 hlt 130 le_rfl,
    Nat.sub_self, pow_zero, Nat.div_one, ZMod.natCast_zmod_val]
  intro j hj
  show d.auxBits (125 + j) = (d.aux.val.testBit (130 - 1 - j)).toNat
  rw [h.auxBits, show 254 - (125 + j) = 130 - 1 - j by omega]

/-! ### Reading the generated table -/

/-- The cells of the component filled by an arbitrary function. -/
def fill (c : Cols) (srow : ℤ) (f : ℕ → ℕ → ZMod p) : List (Write (ZMod p)) :=
  positions.map fun q => ⟨.witness, c.w (q.2 : ℤ), srow + (q.1 : ℤ), f q.1 q.2⟩

theorem grid (c : Cols) (srow : ℤ) (f : ℕ → ℕ → ZMod p) : GridWrites c srow 15 104 f (fill c srow f) := by
  intro x hx
  obtain ⟨q, hq, rfl⟩ := List.mem_map.1 hx
  refine ⟨q.1, ?_, q.2, ?_, rfl⟩
  · simp only [positions, List.mem_append, List.mem_flatMap, List.mem_range, List.mem_map] at hq
    rcases hq with (⟨k, hk, ⟨j, hj, rfl⟩ | ⟨j, hj, rfl⟩⟩ | ⟨k, hk, hq⟩) | ⟨j, hj, rfl⟩
    · simp only; omega
    · simp only; omega
    · simp only [List.mem_cons, List.not_mem_nil, or_false] at hq
      rcases hq with rfl | rfl | rfl | rfl <;> simp only <;> omega
    · simp only; omega
  · simp only [positions, List.mem_append, List.mem_flatMap, List.mem_range, List.mem_map] at hq
    rcases hq with (⟨k, hk, ⟨j, hj, rfl⟩ | ⟨j, hj, rfl⟩⟩ | ⟨k, hk, hq⟩) | ⟨j, hj, rfl⟩
    · simp only [List.mem_cons, List.not_mem_nil, or_false] at hj ⊢; omega
    · simp only [List.mem_cons, List.not_mem_nil, or_false] at hj ⊢; omega
    · simp only [List.mem_cons, List.not_mem_nil, or_false] at hq
      rcases hq with rfl | rfl | rfl | rfl <;> simp only <;> omega
    · simp only [List.mem_cons, List.not_mem_nil, or_false] at hj ⊢; omega

theorem main_mem {r j : ℕ} (h : Main r j) : (r, j) ∈ positions := by
  simp only [positions, List.mem_append, List.mem_flatMap, List.mem_range, List.mem_map]
  rcases h with ⟨h1, h2, h3, h4, h5⟩ | ⟨rfl, h⟩
  · left; left
    refine ⟨(r - 1) / 2, by omega, ?_⟩
    rcases Nat.mod_two_eq_zero_or_one r with hr | hr
    · right
      refine ⟨j, ?_, by ext <;> (simp; try omega)⟩
      simp only [List.mem_cons, List.not_mem_nil, or_false]; omega
    · left
      refine ⟨j, ?_, by ext <;> (simp; try omega)⟩
      simp only [List.mem_cons, List.not_mem_nil, or_false]; omega
  · right
    refine ⟨j, ?_, rfl⟩
    simp only [List.mem_cons, List.not_mem_nil, or_false]; omega

theorem read_pos {f : ℕ → ℕ → ZMod p} (hc : c.OK 15) (t1 : Table (ZMod p)) {r j : ℕ} (hj : j < 15) (h : (r, j) ∈ positions) :
    writeAll (fill c srow f) t1 .witness (c.w (j : ℤ)) (srow + (r : ℤ)) = f r j :=
  (grid c srow f).read hc t1 hj (List.mem_map.2 ⟨(r, j), h, rfl⟩)

theorem aux_mem (k : ℕ) (hk : k < 22) : (2 * (k + 29) + 1, 6) ∈ positions ∧ (2 * (k + 29) + 2, 12) ∈ positions ∧
    (2 * (k + 29) + 2, 13) ∈ positions ∧ (2 * (k + 29) + 2, 14) ∈ positions := by
  have : ∀ x ∈ [(2 * (k + 29) + 1, 6), (2 * (k + 29) + 2, 12), (2 * (k + 29) + 2, 13), (2 * (k + 29) + 2, 14)],
      x ∈ positions := by
    intro x hx
    unfold positions
    exact List.mem_append_left _ (List.mem_append_right _ (List.mem_flatMap.2 ⟨k, List.mem_range.2 hk, hx⟩))
  refine ⟨this _ ?_, this _ ?_, this _ ?_, this _ ?_⟩ <;> simp

/-- A table filled after the doubling of the base point. -/
structure Filled (c : Cols) (inp : In) (srow : ℤ) (t t' : Table (ZMod p)) {cb : ZMod p} (T : (curve cb).Point)
    (f : ℕ → ℕ → ZMod p) : Prop where
  frame : Frame c srow 104 t t'
  get : ∀ r j : ℕ, j < 15 → (r, j) ∈ positions → t' .witness (c.w (j : ℤ)) (srow + (r : ℤ)) = f r j
  ua : Sat t' (UnifiedAddition.circuit c (addIn inp) srow)
  p0 : (t' .witness (c.w 4) srow, t' .witness (c.w 5) srow) = enc (T + T)

theorem filled {cb : ZMod p} (hb : ∀ y : ZMod p, y ^ 2 ≠ cb) (htwo : (2 : ZMod p) ≠ 0) (htor : ∀ x : ZMod p, x ^ 3 + cb ≠ 0)
    (hc : c.OK 15) (T : (curve cb).Point) (hT : enc T = (inp.tx.value t, inp.ty.value t))
    (o1 : inp.tx.Outside srow 104) (o2 : inp.ty.Outside srow 104) (f : ℕ → ℕ → ZMod p) :
    let t1 := UnifiedAddition.assign c (addIn inp) srow t
    ((UnifiedAddition.resultX c srow).value t1, (UnifiedAddition.resultY c srow).value t1) = enc (T + T) ∧
    Filled c inp srow t (writeAll (fill c srow f) t1) T f := by
  intro t1
  have out1 : ∀ {v : Var}, v.Outside srow 104 → v.Outside srow 1 := by
    intro v h hv
    rcases h hv with h | h
    · exact Or.inl h
    · right; push_cast at h ⊢; omega
  obtain ⟨s1, f1, r1⟩ := unifiedAddition_complete_wide cb hb htwo htor c (n := 15) (by omega) hc (addIn inp) srow t T T hT hT
    (out1 o1) (out1 o2) (out1 o1) (out1 o2)
  have hw : writeConsts (UnifiedAddition.circuit c (addIn inp) srow) t = t := rfl
  rw [hw] at s1 f1 r1
  refine ⟨r1, ?_⟩
  have f2 : Frame c srow 104 t1 (writeAll (fill c srow f) t1) := ((grid c srow f).own hc).frame t1
  have hrow : ∀ i : ℤ, writeAll (fill c srow f) t1 .witness (c.w i) srow = t1 .witness (c.w i) srow := by
    intro i
    refine writeAll_of_notMem _ _ _ _ _ ?_
    rintro x hx ⟨_, _, h⟩
    obtain ⟨q, hq, rfl⟩ := List.mem_map.1 hx
    simp only at h
    simp only [positions, List.mem_append, List.mem_flatMap, List.mem_range, List.mem_map] at hq
    rcases hq with (⟨k, hk, ⟨j, hj, rfl⟩ | ⟨j, hj, rfl⟩⟩ | ⟨k, hk, hq⟩) | ⟨j, hj, rfl⟩
    · simp only at h; omega
    · simp only at h; omega
    · simp only [List.mem_cons, List.not_mem_nil, or_false] at hq
      rcases hq with rfl | rfl | rfl | rfl <;> simp only at h <;> omega
    · simp only at h; omega
  have hget : ∀ r j : ℕ, j < 15 → (r, j) ∈ positions →
      writeAll (fill c srow f) t1 .witness (c.w (j : ℤ)) (srow + (r : ℤ)) = f r j := fun r j hj h => read_pos hc t1 hj h
  generalize writeAll (fill c srow f) t1 = t' at *
  have v1 : inp.tx.value t' = inp.tx.value t1 := f2.outside o1
  have v2 : inp.ty.value t' = inp.ty.value t1 := f2.outside o2
  refine ⟨(f1.mono le_rfl (by push_cast; omega)).trans f2, hget, ?_, ?_⟩
  · simp [UnifiedAddition.circuit, UnifiedAddition.constraints, addIn] at s1 ⊢
    simp only [hrow, v1, v2]
    exact s1
  · rw [hrow, hrow]; exact r1

section filled
variable {cb : ZMod p} {T : (curve cb).Point} {t' : Table (ZMod p)} {f : ℕ → ℕ → ZMod p}

theorem Filled.cells (h : Filled c inp srow t t' T f) (hf : ∀ r j, Main r j → f r j = cell K d r j) :
    Cells K c srow t' d := by
  intro r j hm
  rw [← hf r j hm]
  refine h.get r j ?_ (main_mem hm)
  rcases hm with h | h
  · exact h.2.2.1
  · omega

/-- The cells of the range check. -/
theorem Filled.aux (h : Filled c inp srow t t' T f) (k : ℕ) (hk : k < 22) :
    t' .witness (c.w 6) (srow + 59 + 2 * (k : ℤ)) = f (2 * (k + 29) + 1) 6 ∧
    t' .witness (c.w 12) (srow + 59 + 2 * (k : ℤ) + 1) = f (2 * (k + 29) + 2) 12 ∧
    t' .witness (c.w 13) (srow + 59 + 2 * (k : ℤ) + 1) = f (2 * (k + 29) + 2) 13 ∧
    t' .witness (c.w 14) (srow + 59 + 2 * (k : ℤ) + 1) = f (2 * (k + 29) + 2) 14 := by
  obtain ⟨a, b, e, g⟩ := aux_mem k hk
  have r1 : srow + 59 + 2 * (k : ℤ) = srow + ((2 * (k + 29) + 1 : ℕ) : ℤ) := by push_cast; ring
  have r2 : srow + 59 + 2 * (k : ℤ) + 1 = srow + ((2 * (k + 29) + 2 : ℕ) : ℤ) := by push_cast; ring
  rw [r2, r1]
  exact ⟨h.get _ 6 (by omega) a, h.get _ 12 (by omega) b, h.get _ 13 (by omega) e, h.get _ 14 (by omega) g⟩

theorem cell_aux (k : ℕ) (hk : k < 22) : cell K d (2 * (k + 29) + 1) 6 = uacc d k ∧
    cell K d (2 * (k + 29) + 2) 12 = u0 d k ∧ cell K d (2 * (k + 29) + 2) 13 = u1 d k ∧
    cell K d (2 * (k + 29) + 2) 14 = uacc d (k + 1) := by
  rw [cell_fst _ _ (by omega), cell_snd _ _ (by omega), cell_snd _ _ (by omega), cell_snd _ _ (by omega)]
  simp [fstCell, sndCell]

/-- A table filled with the cells of `d` satisfies the circuit and the last link of the chain of chunks. -/
theorem Filled.sat (hF : Filled c inp srow t t' T (cell K d)) (hp : 2 ^ 254 < p) (hp0 : d.p0 = enc (T + T))
    (hdb : inp.b.value t = d.b) (o3 : inp.b.Outside srow 104)
    (o4 : K.pallas = true → inp.bHigh.Outside srow 104) (hk0 : t .constant (c.k 0) (srow + 1) = 0)
    (hc0 : t .constant (c.w 0) (srow + 1) = 0) {τ N : ℕ} (ht : τ < 2 ^ 126)
    (hτ : (if K.pallas then K.tq else K.tp) = (τ : ZMod p)) (hon : Honest K d τ N)
    (hbh : K.pallas = true → inp.bHigh.value t = (d.bits 0 : ZMod p))
    (h1 : K.shiftedMinusOne ≠ K.shiftedOne) (h2 : K.shiftedZero ≠ K.shiftedMinusOne) (h3 : K.shiftedZero ≠ K.shiftedOne)
    (hs : ∀ i < 255, Slope (pt d i).1 (pt d i).2 d.tx (qy d i) (slope d i))
    (hch : ∀ i < 255, (i < 253 ∨ mm K d ≠ 0) →
      Chord (pt d i).1 (pt d i).2 d.tx (slope d i) (pt d (i + 1)).1 (pt d (i + 1)).2) :
    Sat t' (circuit K c inp srow) ∧ t' .witness (c.w 14) (srow + 100) = t' .witness (c.w 6) (srow + 101) ∧
      t' .witness (c.w 0) (srow + 1) = d.tx ∧ t' .witness (c.w 1) (srow + 1) = d.ty ∧
      ((resultX c srow).value t', (resultY c srow).value t') = res K d := by
  have f3 := hF.frame
  have hcells : Cells K c srow t' d := hF.cells fun _ _ _ => rfl
  have hA : ∀ k : ℕ, k < 22 → t' .witness (c.w 6) (srow + 59 + 2 * (k : ℤ)) = uacc d k ∧
      t' .witness (c.w 12) (srow + 59 + 2 * (k : ℤ) + 1) = u0 d k ∧
      t' .witness (c.w 13) (srow + 59 + 2 * (k : ℤ) + 1) = u1 d k ∧
      t' .witness (c.w 14) (srow + 59 + 2 * (k : ℤ) + 1) = uacc d (k + 1) := by
    intro k hk
    obtain ⟨b6, b12, b13, b14⟩ := hF.aux k hk
    obtain ⟨g6, g12, g13, g14⟩ := cell_aux (K := K) (d := d) k hk
    rw [b6, b12, b13, b14]
    exact ⟨g6, g12, g13, g14⟩
  have e102 : srow + 59 + 2 * ((21 : ℕ) : ℤ) + 1 = srow + 102 := by push_cast; ring
  have e101 : srow + 59 + 2 * ((21 : ℕ) : ℤ) = srow + 101 := by push_cast; ring
  obtain ⟨a6, a12, a13, a14⟩ := hA 21 (by omega)
  rw [e102] at a12 a13 a14
  rw [e101] at a6
  obtain ⟨x0, hx0, ex0⟩ := u0_nat hon.auxlt 21
  obtain ⟨x1, -, hx1, ex1⟩ := u1_nat hon.auxlt 21
  have hx1 := hx1 rfl
  have hl := hon.lt
  have hrest : Rest K c inp srow t' d := by
    refine ⟨by rw [f3.const, hk0], by rw [f3.const, hc0], hF.ua, ?_, ?_, ?_, ?_, ?_, ?_, ?_, ?_, ?_, ?_, ?_, ?_, hon.aux, ?_⟩
    · rw [hp0]; exact hF.p0
    · intro k hk
      obtain ⟨b6, b12, b13, b14⟩ := hA k (by omega)
      obtain ⟨y0, hy0, ey0⟩ := u0_nat hon.auxlt k
      obtain ⟨y1, hy1, -, ey1⟩ := u1_nat hon.auxlt k
      simp only [gate3, List.forall_mem_cons, List.not_mem_nil, false_imp_iff, implies_true, and_true, oct_eval, Expr.eval_sub,
        Expr.eval_mul, Expr.eval_const, Cols.eval_wv, add_zero]
      rw [b6, b12, b13, b14]
      refine ⟨?_, ?_, ?_⟩
      · rw [ey0]; exact oct_nat hy0
      · rw [ey1]; exact oct_nat hy1
      · rw [uacc, if_pos (by omega)]; ring
    · have := (hA 0 (by omega)).1
      rw [show srow + 59 + 2 * ((0 : ℕ) : ℤ) = srow + 59 by simp] at this
      exact this
    · intro k hk
      rw [(hA k (by omega)).2.2.2, (hA (k + 1) (by omega)).1]
    · rw [a12, ex0]; exact oct_nat hx0
    · rw [a13, ex1]; interval_cases x1 <;> simp
    · rw [a14, a6, a12, a13, uacc, if_neg (by omega)]
    · intro h; rw [a14]; exact hon.range ht hp hτ h
    · intro h
      rw [hon.bit0 ht] at h
      rw [e2_eq, hon.pre ht _ (by omega), show N / 2 ^ (255 - 125) = 2 ^ 124 by norm_num; omega]
      norm_num
    · rw [acc_eq, e2_eq]
    · rw [f3.outside o3]; exact hdb
    · split_ifs with hk
      · rw [f3.outside (o4 hk)]; exact hbh hk
      · rw [hon.acc ht, hon.b, if_neg hk]
    · intro hk
      have hlow := hon.low ht
      rw [if_pos hk, sub_zero] at hlow
      have e : (N : ZMod p) = ((2 ^ 254 * (N / 2 ^ 254) + N % 2 ^ 254 : ℕ) : ZMod p) := by rw [Nat.div_add_mod]
      rw [hlow, hon.acc ht, hon.bit0 ht, e]
      generalize N / 2 ^ 254 = x
      generalize N % 2 ^ 254 = y
      push_cast
      ring
  refine ⟨facts_of hcells hon.lt2 hs hch h1 h2 h3 hrest, ?_, ?_, ?_, ?_⟩
  · have := (hA 20 (by omega)).2.2.2
    rw [show srow + 59 + 2 * ((20 : ℕ) : ℤ) + 1 = srow + 100 by push_cast; ring] at this
    rw [this, a6]
  · have q0 := hcells.fst 0 0 (by omega) (by omega) (by omega)
    rw [show srow + 1 + 2 * ((0 : ℕ) : ℤ) = srow + 1 by simp] at q0
    exact q0
  · have q1 := hcells.fst 0 1 (by omega) (by omega) (by omega)
    rw [show srow + 1 + 2 * ((0 : ℕ) : ℤ) = srow + 1 by simp] at q1
    exact q1
  · have l0 : t' .witness (c.w 0) (srow + 103) = (res K d).1 := hcells.last 0 (by omega)
    have l1 : t' .witness (c.w 1) (srow + 103) = (res K d).2 := hcells.last 1 (by omega)
    rw [resultX, resultY, Cols.value_wa, Cols.value_wa, l0, l1]

end filled

/-- The data of the assignment, with `2T` from the group. -/
def honestData (K : Kind (ZMod p)) (inp : In) (t : Table (ZMod p)) {cb : ZMod p} (T : (curve cb).Point) : Data (ZMod p) :=
  data K (inp.tx.value t) (inp.ty.value t) (inp.b.value t) (inp.bHigh.value t) (enc (T + T))

theorem assign_sat {cb : ZMod p} (hb : ∀ y : ZMod p, y ^ 2 ≠ cb) (htwo : (2 : ZMod p) ≠ 0) (htor : ∀ x : ZMod p, x ^ 3 + cb ≠ 0)
    (hp : 2 ^ 254 < p) (hc : c.OK 15) (T : (curve cb).Point) (hT : enc T = (inp.tx.value t, inp.ty.value t))
    (o1 : inp.tx.Outside srow 104) (o2 : inp.ty.Outside srow 104) (o3 : inp.b.Outside srow 104)
    (o4 : K.pallas = true → inp.bHigh.Outside srow 104) (hk0 : t .constant (c.k 0) (srow + 1) = 0)
    (hc0 : t .constant (c.w 0) (srow + 1) = 0) {τ N : ℕ} (ht : τ < 2 ^ 126)
    (hτ : (if K.pallas then K.tq else K.tp) = (τ : ZMod p)) (hon : Honest K (honestData K inp t T) τ N)
    (hbh : K.pallas = true → inp.bHigh.value t = ((honestData K inp t T).bits 0 : ZMod p))
    (h1 : K.shiftedMinusOne ≠ K.shiftedOne) (h2 : K.shiftedZero ≠ K.shiftedMinusOne) (h3 : K.shiftedZero ≠ K.shiftedOne)
    (hs : ∀ d, d = honestData K inp t T → ∀ i < 255, Slope (pt d i).1 (pt d i).2 d.tx (qy d i) (slope d i))
    (hch : ∀ d, d = honestData K inp t T → ∀ i < 255, (i < 253 ∨ mm K d ≠ 0) →
      Chord (pt d i).1 (pt d i).2 d.tx (slope d i) (pt d (i + 1)).1 (pt d (i + 1)).2) :
    let t' := assign K c inp srow t
    Sat t' (circuit K c inp srow ++ missing c inp srow) ∧ Frame c srow 104 t t' ∧
      ((resultX c srow).value t', (resultY c srow).value t') = res K (honestData K inp t T) := by
  intro t'
  obtain ⟨r1, hF⟩ := filled hb htwo htor hc T hT o1 o2 (cell K (honestData K inp t T))
  have et : t' = writeAll (fill c srow (cell K (honestData K inp t T))) (UnifiedAddition.assign c (addIn inp) srow t) := by
    show writeAll (writes K c srow (data K (inp.tx.value t) (inp.ty.value t) (inp.b.value t) (inp.bHigh.value t) _)) _ = _
    rw [r1]; rfl
  rw [← et] at hF
  clear_value t'
  obtain ⟨s1, s2, s3, s4, s5⟩ := hF.sat hp rfl rfl o3 o4 hk0 hc0 ht hτ hon hbh h1 h2 h3 (hs _ rfl) (hch _ rfl)
  refine ⟨(sat_append _ _).2 ⟨s1, ?_⟩, hF.frame, s5⟩
  simp only [missing, sat_cons, sat_nil, holds_copy, and_true, Cols.value_wa]
  exact ⟨by rw [hF.frame.outside o1, s3]; rfl, by rw [hF.frame.outside o2, s4]; rfl, s2⟩

end complete
end VarBaseMul
end Verif
