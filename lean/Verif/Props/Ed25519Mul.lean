import Verif.Props.Ed25519Complete

/-!
# C49: the honest assignment of multiplication
-/

set_option linter.unusedSimpArgs false
set_option linter.unusedVariables false
set_option linter.unusedSectionVars false
set_option exponentiation.threshold 600

namespace Verif
namespace Ed25519

theorem carry_split {s S M low high : ℤ} (hs : 0 ≤ s) (hS : 0 ≤ S) (hl : 0 ≤ low ∧ low < 2 ^ 132) (hh : 0 ≤ high ∧ high < 2 ^ 125)
    (h : s + 2 ^ 132 * S + 2 ^ 257 * M = low + 2 ^ 132 * high) :
    ∃ u v : ℤ, 0 ≤ u ∧ 0 ≤ v ∧ s = low + u * 2 ^ 132 ∧ S + u = high + v * 2 ^ 125 := by
  refine ⟨s / 2 ^ 132, (S + s / 2 ^ 132) / 2 ^ 125, ?_, ?_, ?_, ?_⟩
  · omega
  · omega
  · omega
  · omega

/-- The carries of a multiplication over the integers. -/
theorem mul_int {a0 a1 a2 a3 b0 b1 b2 b3 q0 q1 q2 q3 r0 r1 r2 r3 : ℕ}
    (ha0 : a0 < 2 ^ 66) (ha1 : a1 < 2 ^ 66) (ha2 : a2 < 2 ^ 66) (ha3 : a3 < 2 ^ 57)
    (hb0 : b0 < 2 ^ 66) (hb1 : b1 < 2 ^ 66) (hb2 : b2 < 2 ^ 66) (hb3 : b3 < 2 ^ 57)
    (hq0 : q0 < 2 ^ 66) (hq1 : q1 < 2 ^ 66) (hq2 : q2 < 2 ^ 66) (hq3 : q3 < 2 ^ 57)
    (hr0 : r0 < 2 ^ 66) (hr1 : r1 < 2 ^ 66) (hr2 : r2 < 2 ^ 66) (hr3 : r3 < 2 ^ 57)
    (h : num a0 a1 a2 a3 * num b0 b1 b2 b3 = num q0 q1 q2 q3 * (2 ^ 255 - 19) + num r0 r1 r2 r3) :
    ∃ u v : ℕ, u < 2 ^ 70 ∧ v < 2 ^ 75 ∧
      a0 * b0 + 19 * q0 + (a1 * b0 + a0 * b1 + 19 * q1) * 2 ^ 66 = r0 + r1 * 2 ^ 66 + u * 2 ^ 132 ∧
      a2 * b0 + a0 * b2 + a1 * b1 + 19 * q2
        + (a3 * b0 + b3 * a0 + a1 * b2 + b1 * a2 + 3 * 2 ^ 57 * q0 + 19 * q3) * 2 ^ 66 + u = r2 + r3 * 2 ^ 66 + v * 2 ^ 125 := by
  have hz : (num a0 a1 a2 a3 : ℤ) * num b0 b1 b2 b3 = num q0 q1 q2 q3 * (2 ^ 255 - 19) + num r0 r1 r2 r3 := by
    have := congrArg (Nat.cast (R := ℤ)) h
    push_cast [show (19 : ℕ) ≤ 2 ^ 255 by norm_num] at this
    linear_combination this
  unfold num at hz
  push_cast at hz
  have hlow : (0 : ℤ) ≤ r0 + r1 * 2 ^ 66 ∧ (r0 + r1 * 2 ^ 66 : ℤ) < 2 ^ 132 := by clear hz h; omega
  have hhigh : (0 : ℤ) ≤ r2 + r3 * 2 ^ 66 ∧ (r2 + r3 * 2 ^ 66 : ℤ) < 2 ^ 125 := by clear hz h; omega
  obtain ⟨u, v, hu, hv, e1, e2⟩ := carry_split (s := (a0 * b0 + 19 * q0 + (a1 * b0 + a0 * b1 + 19 * q1) * 2 ^ 66 : ℤ))
    (S := (a2 * b0 + a0 * b2 + a1 * b1 + 19 * q2
        + (a3 * b0 + b3 * a0 + a1 * b2 + b1 * a2 + 3 * 2 ^ 57 * q0 + 19 * q3) * 2 ^ 66 : ℤ))
    (M := - ((q0 + q1 * 2 ^ 66 + q2 * 2 ^ 132 + q3 * 2 ^ 198) - 3 * 2 ^ 64 * (q1 + q2 * 2 ^ 66 + q3 * 2 ^ 132)
      - 2 ^ 7 * (a1 * b3 + a2 * b2 + a3 * b1) - 2 ^ 73 * (a2 * b3 + a3 * b2) - 2 ^ 139 * (a3 * b3)))
    (low := r0 + r1 * 2 ^ 66) (high := r2 + r3 * 2 ^ 66) (by exact_mod_cast Nat.zero_le _) (by exact_mod_cast Nat.zero_le _) hlow hhigh
    (by linear_combination hz)
  lift u to ℕ using hu
  lift v to ℕ using hv
  have pb : ∀ {x y X Y : ℕ}, x < X → y < Y → x * y ≤ X * Y := fun h1 h2 => Nat.mul_le_mul h1.le h2.le
  have e1' : a0 * b0 + 19 * q0 + (a1 * b0 + a0 * b1 + 19 * q1) * 2 ^ 66 = r0 + r1 * 2 ^ 66 + u * 2 ^ 132 := by exact_mod_cast e1
  have e2' : a2 * b0 + a0 * b2 + a1 * b1 + 19 * q2
        + (a3 * b0 + b3 * a0 + a1 * b2 + b1 * a2 + 3 * 2 ^ 57 * q0 + 19 * q3) * 2 ^ 66 + u = r2 + r3 * 2 ^ 66 + v * 2 ^ 125 := by
    exact_mod_cast e2
  clear hz h e1 e2
  have hu70 : u < 2 ^ 70 := by
    have m1 := pb ha0 hb0
    have m2 := pb ha1 hb0
    have m3 := pb ha0 hb1
    clear e2'
    generalize a0 * b0 = x1 at *
    generalize a1 * b0 = x2 at *
    generalize a0 * b1 = x3 at *
    clear ha0 ha1 ha2 ha3 hb0 hb1 hb2 hb3 hq2 hq3 hr2 hr3
    norm_num at *
    omega
  refine ⟨u, v, hu70, ?_, e1', e2'⟩
  have m1 := pb ha2 hb0
  have m2 := pb ha0 hb2
  have m3 := pb ha1 hb1
  have m4 := pb ha3 hb0
  have m5 := pb hb3 ha0
  have m6 := pb ha1 hb2
  have m7 := pb hb1 ha2
  clear e1'
  generalize a2 * b0 = x1 at *
  generalize a0 * b2 = x2 at *
  generalize a1 * b1 = x3 at *
  generalize a3 * b0 = x4 at *
  generalize b3 * a0 = x5 at *
  generalize a1 * b2 = x6 at *
  generalize b1 * a2 = x7 at *
  clear ha0 ha1 ha2 ha3 hb0 hb1 hb2 hb3 hq1 hr0 hr1
  norm_num at *
  omega

section mul
variable {n : ℕ} [Fact n.Prime] {c : Cols}

theorem rangeCircuit_sat {F : Type*} [Field F] {T : Table F} {inp : ℕ → Var} {row : ℤ}
    (h : (Op.gate (rangeGate c) [row]).Holds T) (he : ∀ i : ℕ, i < 4 → T .witness (c.w i) row = (inp i).value T) :
    Sat T (rangeCircuit c inp row) := by
  simp only [rangeCircuit, sat_cons]
  refine ⟨h, fun o ho => ?_⟩
  simp only [List.mem_flatMap, List.mem_range] at ho
  obtain ⟨i, hi, ho⟩ := ho
  split_ifs at ho with hh
  · exact absurd ho (by simp)
  · rw [List.mem_singleton] at ho
    subst ho
    exact he i hi

/-- The cells of an assignment of multiplication. -/
structure MulAt (T : Table (ZMod n)) (c : Cols) (row : ℤ) (a b q r : ℕ → ℕ) (u v : ℕ) (f g : ZMod n) : Prop where
  ha : ∀ j : ℕ, j < 4 → T .witness (c.w j) (row + 4) = a j
  hb : ∀ j : ℕ, j < 4 → T .witness (c.w ((4 + j : ℕ) : ℤ)) (row + 4) = b j
  hq0 : T .witness (c.w 8) (row + 4) = q 0
  hq : ∀ j : ℕ, j < 3 → T .witness (c.w j) (row + 5) = q (j + 1)
  hr : ∀ j : ℕ, j < 4 → T .witness (c.w ((3 + j : ℕ) : ℤ)) (row + 5) = r j
  hu : T .witness (c.w 7) (row + 5) = u
  hv : T .witness (c.w 8) (row + 5) = v
  huc : ∀ j : ℕ, j < 4 → T .witness (c.w j) (row + 6) = carryChunk 4 u j
  hvc : ∀ j : ℕ, j < 4 → T .witness (c.w ((4 + j : ℕ) : ℤ)) (row + 6) = carryChunk 9 v j
  rq : RangeAt T c row q f
  rr : RangeAt T c (row + 2) r g

theorem MulAt.carries {T : Table (ZMod n)} {row : ℤ} {a b q r : ℕ → ℕ} {u v : ℕ} {f g : ZMod n}
    (h : MulAt T c row a b q r u v f g) : CarryCells T c (row + 6) 0 4 ∧ CarryCells T c (row + 6) 4 9 :=
  ⟨⟨⟨_, Nat.mod_lt _ (by norm_num), h.huc 0 (by omega)⟩, ⟨_, Nat.mod_lt _ (by norm_num), h.huc 1 (by omega)⟩,
    ⟨_, Nat.mod_lt _ (by norm_num), h.huc 2 (by omega)⟩, ⟨_, Nat.mod_lt _ (Nat.two_pow_pos _), h.huc 3 (by omega)⟩⟩,
   ⟨⟨_, Nat.mod_lt _ (by norm_num), h.hvc 0 (by omega)⟩, ⟨_, Nat.mod_lt _ (by norm_num), h.hvc 1 (by omega)⟩,
    ⟨_, Nat.mod_lt _ (by norm_num), h.hvc 2 (by omega)⟩, ⟨_, Nat.mod_lt _ (Nat.two_pow_pos _), h.hvc 3 (by omega)⟩⟩⟩

/-- The circuit of multiplication holds for cells which satisfy the integer relations. -/
theorem mul_sat {T : Table (ZMod n)} {row : ℤ} {a b : ℕ → ℕ} {Q R u v : ℕ} {f g : ZMod n} {inp : In}
    (h : MulAt T c row a b (limb Q) (limb R) u v f g) (hQ : Q < 2 ^ 255) (hR : R < 2 ^ 255) (hu : u < 2 ^ 70) (hv : v < 2 ^ 75)
    (h1 : a 0 * b 0 + 19 * limb Q 0 + (a 1 * b 0 + a 0 * b 1 + 19 * limb Q 1) * 2 ^ 66
      = limb R 0 + limb R 1 * 2 ^ 66 + u * 2 ^ 132)
    (h2 : a 2 * b 0 + a 0 * b 2 + a 1 * b 1 + 19 * limb Q 2
        + (a 3 * b 0 + b 3 * a 0 + a 1 * b 2 + b 1 * a 2 + 3 * 2 ^ 57 * limb Q 0 + 19 * limb Q 3) * 2 ^ 66 + u
      = limb R 2 + limb R 3 * 2 ^ 66 + v * 2 ^ 125)
    (h5 : num (a 0) (a 1) (a 2) (a 3) * num (b 0) (b 1) (b 2) (b 3) = Q * (2 ^ 255 - 19) + R)
    (hf : (xiSum (limb Q) : ZMod n) ≠ 0 ∨ f = 1) (hg : (xiSum (limb R) : ZMod n) ≠ 0 ∨ g = 1)
    (ha : ∀ i : ℕ, i < 4 → (inp.a i).value T = a i) (hb : ∀ i : ℕ, i < 4 → (inp.b i).value T = b i) :
    Sat T (mulCircuit c inp row) := by
  obtain ⟨lq3, lqe⟩ := limb_num hQ
  obtain ⟨lr3, lre⟩ := limb_num hR
  have hq := h.rq.gate (limb_lt _ _) (limb_lt _ _) (limb_lt _ _) lq3 hf
  have hr := h.rr.gate (limb_lt _ _) (limb_lt _ _) (limb_lt _ _) lr3 hg
  have hus := congrArg (Nat.cast (R := ZMod n)) (carry_sum (w := 4) (u := u) hu)
  have hvs := congrArg (Nat.cast (R := ZMod n)) (carry_sum (w := 9) (u := v) hv)
  have h1' := congrArg (Nat.cast (R := ZMod n)) h1
  have h2' := congrArg (Nat.cast (R := ZMod n)) h2
  have h5' := congrArg (Nat.cast (R := ZMod n)) h5
  rw [lqe, lre] at h5'
  unfold num at h5'
  push_cast [show (19 : ℕ) ≤ 2 ^ 255 by norm_num] at hus hvs h1' h2' h5'
  have a0 := h.ha 0 (by omega); have a1 := h.ha 1 (by omega); have a2 := h.ha 2 (by omega); have a3 := h.ha 3 (by omega)
  have b0 := h.hb 0 (by omega); have b1 := h.hb 1 (by omega); have b2 := h.hb 2 (by omega); have b3 := h.hb 3 (by omega)
  have q0 := h.hq0
  have q1 := h.hq 0 (by omega); have q2 := h.hq 1 (by omega); have q3 := h.hq 2 (by omega)
  have r0 := h.hr 0 (by omega); have r1 := h.hr 1 (by omega); have r2 := h.hr 2 (by omega); have r3 := h.hr 3 (by omega)
  have u0 := h.huc 0 (by omega); have u1 := h.huc 1 (by omega); have u2 := h.huc 2 (by omega); have u3 := h.huc 3 (by omega)
  have v0 := h.hvc 0 (by omega); have v1 := h.hvc 1 (by omega); have v2 := h.hvc 2 (by omega); have v3 := h.hvc 3 (by omega)
  norm_num at a0 a1 a2 a3 b0 b1 b2 b3 q0 q1 q2 q3 r0 r1 r2 r3 u0 u1 u2 u3 v0 v1 v2 v3
  simp only [mulCircuit, sat_cons, sat_append]
  refine ⟨?_, ⟨?_, ?_⟩, ?_⟩
  · simp only [mulGate, mulT, holds_gate, List.mem_singleton, forall_eq, List.forall_mem_cons, Expr.eval_sub, Expr.eval_add,
      Expr.eval_mul, Cols.eval_wv, sh, Expr.eval_const, add_zero, composeE, Expr.eval_one, add_assoc,
      show (5 : ℤ) + 1 = 6 by norm_num, show (5 : ℤ) + -1 = 4 by norm_num, a0, a1, a2, a3, b0, b1, b2, b3, q0, q1, q2, q3,
      r0, r1, r2, r3, u0, u1, u2, u3, v0, v1, v2, v3, h.hu, h.hv, negP_val, modulus_val]
    push_cast
    refine ⟨?_, ?_, ?_, ?_, ?_⟩
    · linear_combination -h1'
    · linear_combination -h2'
    · linear_combination hus
    · linear_combination hvs
    · linear_combination h5'
  · intro o ho
    simp only [mulCopies, List.mem_append, List.mem_map, List.mem_range] at ho
    rcases ho with ⟨i, hi, rfl⟩ | ⟨i, hi, rfl⟩
    · exact (h.ha i hi).trans (ha i hi).symm
    · exact (h.hb i hi).trans (hb i hi).symm
  · refine rangeCircuit_sat hq fun i hi => (h.rq.inp i hi).trans ?_
    unfold mulQ
    by_cases h0 : i = 0
    · subst h0; rw [if_pos rfl]; exact h.hq0.symm
    · rw [if_neg h0, Cols.value_wa]
      have := h.hq (i - 1) (by omega)
      rw [Nat.sub_add_cancel (by omega), Nat.cast_sub (by omega), Nat.cast_one] at this
      exact this.symm
  · exact rangeCircuit_sat hr fun i hi => (h.rr.inp i hi).trans (h.hr i hi).symm


theorem mulWrites_grid (row : ℤ) (a b q r : ℕ → ℕ) :
    GridWrites c row 9 7 (mulCell n a b q r) (mulWrites c row a b q r) := by
  intro x hx
  simp only [mulWrites, List.mem_append, List.mem_map, List.mem_range] at hx
  rcases hx with (⟨j, hj, rfl⟩ | ⟨j, hj, rfl⟩) | ⟨j, hj, rfl⟩
  · exact ⟨4, by omega, j, by omega, rfl⟩
  · exact ⟨5, by omega, j, by omega, rfl⟩
  · exact ⟨6, by omega, j, by omega, rfl⟩

/-- The carries computed by the component are those of the integers. -/
theorem mul_carries (hn : 2 ^ 254 < n) {a b q r : ℕ → ℕ} {u v : ℕ} (hu : u < 2 ^ 70) (hv : v < 2 ^ 75)
    (h1 : a 0 * b 0 + 19 * q 0 + (a 1 * b 0 + a 0 * b 1 + 19 * q 1) * 2 ^ 66 = r 0 + r 1 * 2 ^ 66 + u * 2 ^ 132)
    (h2 : a 2 * b 0 + a 0 * b 2 + a 1 * b 1 + 19 * q 2
        + (a 3 * b 0 + b 3 * a 0 + a 1 * b 2 + b 1 * a 2 + 3 * 2 ^ 57 * q 0 + 19 * q 3) * 2 ^ 66 + u
      = r 2 + r 3 * 2 ^ 66 + v * 2 ^ 125) : mulU0 n a b q r = u ∧ mulU1 n a b q r = v := by
  have h1' := congrArg (Nat.cast (R := ZMod n)) h1
  have h2' := congrArg (Nat.cast (R := ZMod n)) h2
  push_cast at h1' h2'
  have e0 : mulU0 n a b q r = u := by
    unfold mulU0
    rw [show (mulTerm n a b q 0 - r 0 + mulTerm n a b q 1 * 2 ^ 66 - r 1 * 2 ^ 66 : ZMod n) = ((u * 2 ^ 132 : ℕ) : ZMod n) by
      simp only [mulTerm, negP_val]
      push_cast
      linear_combination h1', ZMod.val_cast_of_lt, Nat.shiftRight_eq_div_pow, Nat.mul_div_cancel _ (by norm_num)]
    clear h1 h2 h1' h2'
    omega
  refine ⟨e0, ?_⟩
  unfold mulU1
  rw [e0]
  rw [show (mulTerm n a b q 2 - r 2 + mulTerm n a b q 3 * 2 ^ 66 - r 3 * 2 ^ 66 + u : ZMod n) = ((v * 2 ^ 125 : ℕ) : ZMod n) by
    simp only [mulTerm, negP_val]
    push_cast
    linear_combination h2', ZMod.val_cast_of_lt, Nat.shiftRight_eq_div_pow, Nat.mul_div_cancel _ (by norm_num)]
  clear h1 h2 h1' h2'
  omega

/-- Multiplication: the assignment of the component satisfies its circuit, with all chunks within their widths, and
holds the reduced product, for reduced operands. -/
theorem mul_complete (hn : 2 ^ 254 < n) (hc : c.OK 9) {inp : In} {row : ℤ}
    {t : Table (ZMod n)} {x y : ℕ} (hx : Limbs t inp.a x) (hy : Limbs t inp.b y) (hxp : x < modulus) (hyp : y < modulus)
    (hoa : ∀ i, i < 4 → (inp.a i).Outside row 7) (hob : ∀ i, i < 4 → (inp.b i).Outside row 7) :
    let t' := mulAssign c inp row t
    Sat t' (mulCircuit c inp row) ∧ Limbs t' (mulResult c row) (x * y % modulus) ∧
      RangeCells t' c row ∧ RangeCells t' c (row + 2) ∧ CarryCells t' c (row + 6) 0 4 ∧ CarryCells t' c (row + 6) 4 9 ∧
      Frame c row 7 t t' := by
  obtain ⟨va, ha0, ha1, ha2, ha3, hax⟩ := limbs_val hn hx
  obtain ⟨vb, hb0, hb1, hb2, hb3, hby⟩ := limbs_val hn hy
  intro t'
  set a := fun i => ((inp.a i).value t).val with hadef
  set b := fun i => ((inp.b i).value t).val with hbdef
  have hca : compose a = x := by rw [compose_eq]; exact hax
  have hcb : compose b = y := by rw [compose_eq]; exact hby
  have hRe : mulR a b = x * y % modulus := by
    unfold mulR; rw [hca, hcb, Nat.mod_eq_of_lt hxp, Nat.mod_eq_of_lt hyp]
  have hQe : mulQuot a b = x * y / modulus := by
    unfold mulQuot; rw [hRe, hca, hcb, Nat.mod_eq_of_lt hxp, Nat.mod_eq_of_lt hyp]
    exact (Nat.div_eq_sub_mod_div (m := x * y) (n := modulus)).symm
  have hm0 : 0 < modulus := by rw [modulus_val]; norm_num
  have hm255 : modulus < 2 ^ 255 := by rw [modulus_val]; norm_num
  have hRp : mulR a b < modulus := by rw [hRe]; exact Nat.mod_lt _ hm0
  have hQp : mulQuot a b < modulus := by
    rw [hQe, Nat.div_lt_iff_lt_mul hm0]; exact Nat.mul_lt_mul'' hxp hyp
  have heq : x * y = mulQuot a b * (2 ^ 255 - 19) + mulR a b := by
    rw [hQe, hRe, show (2 ^ 255 - 19 : ℕ) = modulus from rfl, mul_comm _ modulus, Nat.div_add_mod]
  set Q := mulQuot a b with hQdef
  set R := mulR a b with hRdef
  obtain ⟨lq3, lqe⟩ := limb_num (hQp.trans hm255)
  obtain ⟨lr3, lre⟩ := limb_num (hRp.trans hm255)
  obtain ⟨u, v, hu, hv, e1, e2⟩ := mul_int ha0 ha1 ha2 ha3 hb0 hb1 hb2 hb3 (limb_lt Q 0) (limb_lt Q 1) (limb_lt Q 2) lq3
    (limb_lt R 0) (limb_lt R 1) (limb_lt R 2) lr3 (by rw [hax, hby, ← lqe, ← lre]; exact heq)
  obtain ⟨hu0, hu1⟩ := mul_carries (a := a) (b := b) (q := limb Q) (r := limb R) hn hu hv e1 e2
  change mulU0 n a b (limb Q) (limb R) = u at hu0
  change mulU1 n a b (limb Q) (limb R) = v at hu1
  set T := writeAll (mulWrites c row a b (limb Q) (limb R)) t with hT
  have rd : ∀ r j : ℕ, (r = 4 ∨ r = 5) ∧ j < 9 ∨ r = 6 ∧ j < 8 →
      T .witness (c.w (j : ℤ)) (row + (r : ℤ)) = mulCell n a b (limb Q) (limb R) r j := by
    intro r j hr
    refine (mulWrites_grid row a b (limb Q) (limb R)).read hc t (by omega) ?_
    simp only [mulWrites, List.mem_append, List.mem_map, List.mem_range]
    rcases hr with ⟨rfl | rfl, hj⟩ | ⟨rfl, hj⟩
    · exact .inl (.inl ⟨j, hj, rfl⟩)
    · exact .inl (.inr ⟨j, hj, rfl⟩)
    · exact .inr ⟨j, hj, rfl⟩
  have hT1 := rangeAssign_frame hc (mulQ c row) row T
  set T1 := rangeAssign c (mulQ c row) row T with hT1d
  have hT2 := rangeAssign_frame hc (mulResult c row) (row + 2) T1
  have ht' : t' = rangeAssign c (mulResult c row) (row + 2) T1 := rfl
  rw [← ht'] at hT2
  have keep : ∀ j r : ℕ, 4 ≤ r → t' .witness (c.w (j : ℤ)) (row + (r : ℤ)) = T .witness (c.w (j : ℤ)) (row + (r : ℤ)) := by
    intro j r hr
    rw [hT2.row (by omega), hT1.row (by omega)]
  have rd' : ∀ r j : ℕ, (r = 4 ∨ r = 5) ∧ j < 9 ∨ r = 6 ∧ j < 8 →
      t' .witness (c.w (j : ℤ)) (row + (r : ℤ)) = mulCell n a b (limb Q) (limb R) r j := by
    intro r j hr
    rw [keep j r (by omega), rd r j hr]
  have hvq : ∀ i : ℕ, i < 4 → ((mulQ c row i).value T).val = limb Q i := by
    intro i hi
    have : (mulQ c row i).value T = (limb Q i : ZMod n) := by
      unfold mulQ
      by_cases h0 : i = 0
      · subst h0; rw [if_pos rfl]; exact rd 4 8 (by omega)
      · rw [if_neg h0, Cols.value_wa]
        have := rd 5 (i - 1) (by omega)
        rw [Nat.cast_sub (by omega), Nat.cast_one] at this
        refine this.trans ?_
        unfold mulCell
        rw [if_neg (by omega), if_pos rfl, if_pos (by omega), Nat.sub_add_cancel (by omega)]
    rw [this, ZMod.val_cast_of_lt]
    have := limb_lt Q i
    omega
  have hvr : ∀ i : ℕ, i < 4 → ((mulResult c row i).value T1).val = limb R i := by
    intro i hi
    have : (mulResult c row i).value T1 = (limb R i : ZMod n) := by
      unfold mulResult
      rw [Cols.value_wa, hT1.row (by omega)]
      refine (rd 5 (3 + i) (by omega)).trans ?_
      unfold mulCell
      rw [if_neg (by omega), if_pos rfl, if_neg (by omega), if_pos (by omega), Nat.add_sub_cancel_left]
    rw [this, ZMod.val_cast_of_lt]
    have := limb_lt R i
    omega
  have hrq := (rangeAssign_at hc (mulQ c row) row T).congr hvq
  have hrr := (rangeAssign_at hc (mulResult c row) (row + 2) T1).congr hvr
  rw [chunk_congr hvq 0 (by omega)] at hrq
  rw [chunk_congr hvr 0 (by omega)] at hrr
  have hrq' : RangeAt t' c row (limb Q) (if chunk (limb Q) 0 > 2 ^ 22 - 20 then 0 else 1) := by
    refine ⟨fun j hj => ?_, fun k hk => ?_, ?_, fun k hk => ?_, ?_⟩
    · rw [hT2.row (by omega)]; exact hrq.inp j hj
    · rw [hT2.row (by omega)]; exact hrq.lo k hk
    · rw [hT2.row (by omega)]; exact hrq.inv
    · rw [hT2.row (by omega)]; exact hrq.hi k hk
    · rw [hT2.row (by omega)]; exact hrq.flag
  have hat : MulAt t' c row a b (limb Q) (limb R) u v (if chunk (limb Q) 0 > 2 ^ 22 - 20 then 0 else 1)
      (if chunk (limb R) 0 > 2 ^ 22 - 20 then 0 else 1) := by
    refine ⟨fun j hj => ?_, fun j hj => ?_, ?_, fun j hj => ?_, fun j hj => ?_, ?_, ?_, fun j hj => ?_, fun j hj => ?_, hrq', hrr⟩
    · refine (rd' 4 j (by omega)).trans ?_
      simp [mulCell, hj]
    · refine (rd' 4 (4 + j) (by omega)).trans ?_
      simp [mulCell, hj, show 4 + j < 8 by omega]
    · refine (rd' 4 8 (by omega)).trans ?_
      simp [mulCell]
    · refine (rd' 5 j (by omega)).trans ?_
      simp [mulCell, hj]
    · refine (rd' 5 (3 + j) (by omega)).trans ?_
      simp [mulCell, hj, show 3 + j < 7 by omega]
    · refine (rd' 5 7 (by omega)).trans ?_
      simp [mulCell, hu0]
    · refine (rd' 5 8 (by omega)).trans ?_
      simp [mulCell, hu1]
    · refine (rd' 6 j (by omega)).trans ?_
      simp [mulCell, hj, hu0]
    · refine (rd' 6 (4 + j) (by omega)).trans ?_
      simp [mulCell, hj, hu1]
  have hfr : Frame c row 7 t t' :=
    (((mulWrites_grid row a b (limb Q) (limb R)).own hc).frame t).trans
      ((hT1.mono (by omega) (by push_cast; omega)).trans (hT2.mono (by omega) (by push_cast; omega)))
  refine ⟨mul_sat hat (hQp.trans hm255) (hRp.trans hm255) hu hv e1 e2 ?_ ?_ ?_ ?_ ?_, ?_, hat.rq.cells, hat.rr.cells,
    hat.carries.1, hat.carries.2, hfr⟩
  · exact (congrArg₂ (· * ·) hax hby).trans heq
  · exact flag_ok hn (limb_lt _ _) (limb_lt _ _) (limb_lt _ _) lq3 (by rw [← lqe]; exact hQp)
  · exact flag_ok hn (limb_lt _ _) (limb_lt _ _) (limb_lt _ _) lr3 (by rw [← lre]; exact hRp)
  · intro i hi; rw [hfr.outside (hoa i hi)]; exact va i
  · intro i hi; rw [hfr.outside (hob i hi)]; exact vb i
  · rw [← hRe]
    exact ⟨_, _, _, _, limb_lt _ _, limb_lt _ _, limb_lt _ _, lr3, hat.hr 0 (by omega), hat.hr 1 (by omega),
      hat.hr 2 (by omega), hat.hr 3 (by omega), lre⟩

end mul
end Ed25519
end Verif
