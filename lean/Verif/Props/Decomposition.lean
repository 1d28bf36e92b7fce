import Verif.Model.Decomposition
import Verif.Core.Paint
import Verif.Core.Primality
import Mathlib.FieldTheory.Finite.Basic
import Mathlib.Tactic.LinearCombination

/-!
# C79: the decomposition component outputs the 32-bit words of its inputs
-/

set_option linter.unusedSimpArgs false
set_option linter.unusedSectionVars false

namespace Verif
namespace Decomposition

/-- Specification: word `k` of a 128-bit number, most significant first. -/
def word (x k : ℕ) : ℕ := x / 2 ^ (32 * (3 - k)) % 2 ^ 32

/-- What the component should output. -/
def words (x y k : ℕ) : ℕ := if k < 4 then word x k else word y (k - 4)

theorem pair_word (x i : ℕ) : chunk x (2 * i + 1) * 65536 + chunk x (2 * i) = x / 2 ^ (32 * i) % 2 ^ 32 := by
  unfold chunk
  rw [show 16 * (2 * i + 1) = 32 * i + 16 by ring, show 16 * (2 * i) = 32 * i by ring, pow_add, ← Nat.div_div_eq_div_mul]
  generalize x / 2 ^ (32 * i) = z
  omega

theorem word_lt (x k : ℕ) : word x k < 2 ^ 32 := Nat.mod_lt _ (by norm_num)

/-- A 128-bit number is put together from its words. -/
theorem words_sum (x : ℕ) (hx : x < 2 ^ 128) : word x 3 + word x 2 * 2 ^ 32 + word x 1 * 2 ^ 64 + word x 0 * 2 ^ 96 = x := by
  unfold word
  norm_num
  omega

theorem words_unique {x a b c d : ℕ} (ha : a < 2 ^ 32) (hb : b < 2 ^ 32) (hc : c < 2 ^ 32) (hd : d < 2 ^ 32)
    (h : x = d + c * 2 ^ 32 + b * 2 ^ 64 + a * 2 ^ 96) :
    a = word x 0 ∧ b = word x 1 ∧ c = word x 2 ∧ d = word x 3 := by
  unfold word
  norm_num
  omega

section
variable {p : ℕ} [Fact p.Prime] {c : Cols} {inp : In} {srow : ℤ} {t : Table (ZMod p)}

/-- `calculate` returns the words of its two arguments, for arbitrary field elements (only the low 128 bits count). -/
theorem calculate_words (x y : ZMod p) : calculate x y = (List.range 8).map fun k => ((words x.val y.val k : ℕ) : ZMod p) := by
  have e := pair_word
  simp only [calculate, List.range_succ, List.range_zero, List.nil_append, List.cons_append, List.map_cons, List.map_nil, words, word]
  norm_num
  refine ⟨?_, ?_, ?_, ?_, ?_, ?_, ?_, ?_⟩
  · exact_mod_cast congrArg (Nat.cast (R := ZMod p)) (e x.val 3)
  · exact_mod_cast congrArg (Nat.cast (R := ZMod p)) (e x.val 2)
  · exact_mod_cast congrArg (Nat.cast (R := ZMod p)) (e x.val 1)
  · have := congrArg (Nat.cast (R := ZMod p)) (e x.val 0); norm_num at this; exact_mod_cast this
  · exact_mod_cast congrArg (Nat.cast (R := ZMod p)) (e y.val 3)
  · exact_mod_cast congrArg (Nat.cast (R := ZMod p)) (e y.val 2)
  · exact_mod_cast congrArg (Nat.cast (R := ZMod p)) (e y.val 1)
  · have := congrArg (Nat.cast (R := ZMod p)) (e y.val 0); norm_num at this; exact_mod_cast this

theorem pos_lt : ∀ q ∈ positions, q.1 < 3 ∧ q.2 < 9 := by decide

theorem grid (c : Cols) (srow : ℤ) (f : ℕ → ℕ → ZMod p) : GridWrites c srow 9 3 f
    (positions.map fun q => ⟨.witness, c.w (q.2 : ℤ), srow + (q.1 : ℤ), f q.1 q.2⟩) := by
  intro x hx
  obtain ⟨⟨r, j⟩, hq, rfl⟩ := List.mem_map.1 hx
  have : r < 3 ∧ j < 9 := pos_lt _ hq
  exact ⟨r, this.1, j, this.2, rfl⟩

/-- The constraints on the cells of the component. -/
theorem sat_iff (t : Table (ZMod p)) : Sat t (circuit c inp srow) ↔
    (let W := fun (r j : ℤ) => t .witness (c.w j) (srow + r)
    inp.d0.value t = W 0 8 ∧ inp.d1.value t = W 2 8 ∧
    W 0 8 = W 1 3 + W 1 2 * 2 ^ 32 + W 1 1 * 2 ^ 64 + W 1 0 * 2 ^ 96 ∧
    W 2 8 = W 1 7 + W 1 6 * 2 ^ 32 + W 1 5 * 2 ^ 64 + W 1 4 * 2 ^ 96 ∧
    W 1 3 = W 0 0 + W 0 1 * 65536 ∧ W 1 2 = W 0 2 + W 0 3 * 65536 ∧
    W 1 1 = W 0 4 + W 0 5 * 65536 ∧ W 1 0 = W 0 6 + W 0 7 * 65536 ∧
    W 1 7 = W 2 0 + W 2 1 * 65536 ∧ W 1 6 = W 2 2 + W 2 3 * 65536 ∧
    W 1 5 = W 2 4 + W 2 5 * 65536 ∧ W 1 4 = W 2 6 + W 2 7 * 65536) := by
  have e1 : srow + 1 + -1 = srow := by ring
  have e2 : srow + 1 + 1 = srow + 2 := by ring
  simp only [circuit, constraints, sat_cons, sat_nil, holds_gate, holds_copy, List.mem_cons, List.not_mem_nil, or_false,
    forall_eq_or_imp, forall_eq, Expr.eval_sub, Expr.eval_add, Expr.eval_mul, Cols.eval_wv, Cols.value_wa, Expr.eval_const,
    add_zero, e1, e2, and_true, sub_eq_zero]
  norm_num
  tauto

/-- The value of a cell that is a small number. -/
theorem val_eq {a : ZMod p} {n : ℕ} (h : a = (n : ZMod p)) (hn : n < p) : a.val = n := by
  rw [h, ZMod.val_natCast_of_lt hn]

/-- Soundness, if the sixteen limb cells hold 16-bit numbers: the inputs are below `2^128` and the outputs are their words.
Missing: the circuit does not check the limbs (see `accepts_iff`). -/
theorem decomposition_sound_partial (hp : 2 ^ 128 < p) (h : Sat t (circuit c inp srow))
    (h16 : ∀ j : ℕ, j < 8 → (t .witness (c.w j) srow).val < 2 ^ 16 ∧ (t .witness (c.w j) (srow + 2)).val < 2 ^ 16) :
    (inp.d0.value t).val < 2 ^ 128 ∧ (inp.d1.value t).val < 2 ^ 128 ∧
    ∀ k < 8, ((result c srow k).value t).val = words (inp.d0.value t).val (inp.d1.value t).val k := by
  rw [sat_iff] at h
  simp only [add_zero] at h
  obtain ⟨c0, c1, g1, g2, g3, g4, g5, g6, g7, g8, g9, g10⟩ := h
  have hx : ∀ (j : ℕ), j < 8 → ∃ a : ℕ, a < 2 ^ 16 ∧ t .witness (c.w j) srow = (a : ZMod p) := fun j hj =>
    ⟨_, (h16 j hj).1, (ZMod.natCast_zmod_val _).symm⟩
  have hy : ∀ (j : ℕ), j < 8 → ∃ a : ℕ, a < 2 ^ 16 ∧ t .witness (c.w j) (srow + 2) = (a : ZMod p) := fun j hj =>
    ⟨_, (h16 j hj).2, (ZMod.natCast_zmod_val _).symm⟩
  have pack : ∀ {d w0 w1 w2 w3 : ZMod p} {a0 a1 a2 a3 a4 a5 a6 a7 : ℕ}, a0 < 2 ^ 16 → a1 < 2 ^ 16 → a2 < 2 ^ 16 → a3 < 2 ^ 16 →
      a4 < 2 ^ 16 → a5 < 2 ^ 16 → a6 < 2 ^ 16 → a7 < 2 ^ 16 → d = w3 + w2 * 2 ^ 32 + w1 * 2 ^ 64 + w0 * 2 ^ 96 →
      w3 = (a0 : ZMod p) + (a1 : ZMod p) * 65536 → w2 = (a2 : ZMod p) + (a3 : ZMod p) * 65536 →
      w1 = (a4 : ZMod p) + (a5 : ZMod p) * 65536 → w0 = (a6 : ZMod p) + (a7 : ZMod p) * 65536 →
      d.val < 2 ^ 128 ∧ w0.val = word d.val 0 ∧ w1.val = word d.val 1 ∧ w2.val = word d.val 2 ∧ w3.val = word d.val 3 := by
    intro d w0 w1 w2 w3 a0 a1 a2 a3 a4 a5 a6 a7 h0 h1 h2 h3 h4 h5 h6 h7 e e3 e2 e1 e0
    have v3 := val_eq (a := w3) (n := a0 + a1 * 65536) (by rw [e3]; push_cast; ring) (by omega)
    have v2 := val_eq (a := w2) (n := a2 + a3 * 65536) (by rw [e2]; push_cast; ring) (by omega)
    have v1 := val_eq (a := w1) (n := a4 + a5 * 65536) (by rw [e1]; push_cast; ring) (by omega)
    have v0 := val_eq (a := w0) (n := a6 + a7 * 65536) (by rw [e0]; push_cast; ring) (by omega)
    have vd : d.val = w3.val + w2.val * 2 ^ 32 + w1.val * 2 ^ 64 + w0.val * 2 ^ 96 := by
      rw [v0, v1, v2, v3]
      refine val_eq (a := d) (n := a0 + a1 * 65536 + (a2 + a3 * 65536) * 2 ^ 32 + (a4 + a5 * 65536) * 2 ^ 64 + (a6 + a7 * 65536) * 2 ^ 96) ?_
        (by norm_num at *; omega)
      rw [e, e0, e1, e2, e3]; push_cast; ring
    refine ⟨?_, words_unique ?_ ?_ ?_ ?_ vd⟩
    · rw [vd, v0, v1, v2, v3]; norm_num at *; omega
    all_goals first | rw [v0] | rw [v1] | rw [v2] | rw [v3]
    all_goals norm_num at *; omega
  obtain ⟨x0, bx0, ex0⟩ := hx 0 (by norm_num)
  obtain ⟨x1, bx1, ex1⟩ := hx 1 (by norm_num)
  obtain ⟨x2, bx2, ex2⟩ := hx 2 (by norm_num)
  obtain ⟨x3, bx3, ex3⟩ := hx 3 (by norm_num)
  obtain ⟨x4, bx4, ex4⟩ := hx 4 (by norm_num)
  obtain ⟨x5, bx5, ex5⟩ := hx 5 (by norm_num)
  obtain ⟨x6, bx6, ex6⟩ := hx 6 (by norm_num)
  obtain ⟨x7, bx7, ex7⟩ := hx 7 (by norm_num)
  obtain ⟨y0, by0, ey0⟩ := hy 0 (by norm_num)
  obtain ⟨y1, by1, ey1⟩ := hy 1 (by norm_num)
  obtain ⟨y2, by2, ey2⟩ := hy 2 (by norm_num)
  obtain ⟨y3, by3, ey3⟩ := hy 3 (by norm_num)
  obtain ⟨y4, by4, ey4⟩ := hy 4 (by norm_num)
  obtain ⟨y5, by5, ey5⟩ := hy 5 (by norm_num)
  obtain ⟨y6, by6, ey6⟩ := hy 6 (by norm_num)
  obtain ⟨y7, by7, ey7⟩ := hy 7 (by norm_num)
  norm_num at ex0 ex1 ex2 ex3 ex4 ex5 ex6 ex7 ey0 ey1 ey2 ey3 ey4 ey5 ey6 ey7
  rw [ex0, ex1] at g3
  rw [ex2, ex3] at g4
  rw [ex4, ex5] at g5
  rw [ex6, ex7] at g6
  rw [ey0, ey1] at g7
  rw [ey2, ey3] at g8
  rw [ey4, ey5] at g9
  rw [ey6, ey7] at g10
  rw [← c0] at g1
  rw [← c1] at g2
  obtain ⟨l0, u0, u1, u2, u3⟩ := pack bx0 bx1 bx2 bx3 bx4 bx5 bx6 bx7 g1 g3 g4 g5 g6
  obtain ⟨l1, v0, v1, v2, v3⟩ := pack by0 by1 by2 by3 by4 by5 by6 by7 g2 g7 g8 g9 g10
  refine ⟨l0, l1, fun k hk => ?_⟩
  simp only [result, Cols.value_wa]
  interval_cases k <;> simp only [words, Nat.cast_ofNat, Nat.cast_zero, Nat.cast_one] <;> norm_num <;> assumption

/-- Exactly which outputs the circuit accepts: any eight field elements that recombine to the inputs. -/
theorem accepts_iff (hc : c.OK 9) (h0 : inp.d0.Outside srow 3) (h1 : inp.d1.Outside srow 3) (t : Table (ZMod p)) (o : ℕ → ZMod p) :
    (∃ t', Frame c srow 3 t t' ∧ Sat t' (circuit c inp srow) ∧ ∀ k < 8, (result c srow k).value t' = o k) ↔
      inp.d0.value t = o 3 + o 2 * 2 ^ 32 + o 1 * 2 ^ 64 + o 0 * 2 ^ 96 ∧
      inp.d1.value t = o 7 + o 6 * 2 ^ 32 + o 5 * 2 ^ 64 + o 4 * 2 ^ 96 := by
  constructor
  · rintro ⟨t', hf, hs, ho⟩
    rw [sat_iff] at hs
    obtain ⟨c0, c1, g1, g2, -⟩ := hs
    rw [← hf.outside h0, ← hf.outside h1, c0, c1, g1, g2]
    have := fun k hk => (ho k hk).symm
    simp only [result, Cols.value_wa] at this
    rw [this 0 (by norm_num), this 1 (by norm_num), this 2 (by norm_num), this 3 (by norm_num), this 4 (by norm_num),
      this 5 (by norm_num), this 6 (by norm_num), this 7 (by norm_num)]
    simp only [Nat.cast_ofNat, Nat.cast_zero, Nat.cast_one, and_self]
  · rintro ⟨e0, e1⟩
    let g : ℕ → ℕ → ZMod p := fun r j =>
      if r = 1 then o j
      else if j = 8 then (if r = 0 then inp.d0.value t else inp.d1.value t)
      else if j % 2 = 1 then 0 else if r = 0 then o (3 - j / 2) else o (7 - j / 2)
    obtain ⟨t', hf, hg⟩ := paint hc srow 3 g t
    have r0 : ∀ j : ℕ, j < 9 → t' .witness (c.w j) srow = g 0 j := fun j hj => by
      have := hg 0 j (by norm_num) hj; simpa using this
    have r1 : ∀ j : ℕ, j < 9 → t' .witness (c.w j) (srow + 1) = g 1 j := fun j hj => by
      have := hg 1 j (by norm_num) hj; simpa using this
    have r2 : ∀ j : ℕ, j < 9 → t' .witness (c.w j) (srow + 2) = g 2 j := fun j hj => by
      have := hg 2 j (by norm_num) hj; simpa using this
    refine ⟨t', hf, ?_, fun k hk => ?_⟩
    · rw [sat_iff]
      simp only [add_zero]
      rw [hf.outside h0, hf.outside h1]
      have a0 := fun j hj => r0 j hj
      have q0 := r0 0 (by norm_num)
      have q1 := r0 1 (by norm_num)
      have q2 := r0 2 (by norm_num)
      have q3 := r0 3 (by norm_num)
      have q4 := r0 4 (by norm_num)
      have q5 := r0 5 (by norm_num)
      have q6 := r0 6 (by norm_num)
      have q7 := r0 7 (by norm_num)
      have q8 := r0 8 (by norm_num)
      have s0 := r1 0 (by norm_num)
      have s1 := r1 1 (by norm_num)
      have s2 := r1 2 (by norm_num)
      have s3 := r1 3 (by norm_num)
      have s4 := r1 4 (by norm_num)
      have s5 := r1 5 (by norm_num)
      have s6 := r1 6 (by norm_num)
      have s7 := r1 7 (by norm_num)
      have z0 := r2 0 (by norm_num)
      have z1 := r2 1 (by norm_num)
      have z2 := r2 2 (by norm_num)
      have z3 := r2 3 (by norm_num)
      have z4 := r2 4 (by norm_num)
      have z5 := r2 5 (by norm_num)
      have z6 := r2 6 (by norm_num)
      have z7 := r2 7 (by norm_num)
      have z8 := r2 8 (by norm_num)
      norm_num [g] at q0 q1 q2 q3 q4 q5 q6 q7 q8 s0 s1 s2 s3 s4 s5 s6 s7 z0 z1 z2 z3 z4 z5 z6 z7 z8
      rw [q0, q1, q2, q3, q4, q5, q6, q7, q8, s0, s1, s2, s3, s4, s5, s6, s7, z0, z1, z2, z3, z4, z5, z6, z7, z8]
      refine ⟨rfl, rfl, e0, e1, ?_, ?_, ?_, ?_, ?_, ?_, ?_, ?_⟩ <;> ring
    · simp only [result, Cols.value_wa]
      rw [r1 k (by omega)]
      simp [g]

/-- The cells after `generate_assignments`. -/
theorem assign_read (hc : c.OK 9) (t : Table (ZMod p)) {r j : ℕ} (h : (r, j) ∈ positions) :
    assign c inp srow t .witness (c.w (j : ℤ)) (srow + (r : ℤ)) = cell (inp.d0.value t) (inp.d1.value t) r j := by
  have hj : j < 9 := (pos_lt _ h).2
  exact (grid c srow (cell (inp.d0.value t) (inp.d1.value t))).read hc t hj
    (List.mem_map.2 ⟨(r, j), h, rfl⟩)

theorem assign_frame (hc : c.OK 9) (t : Table (ZMod p)) : Frame c srow 3 t (assign c inp srow t) :=
  ((grid c srow _).own hc).frame t

/-- The outputs of `generate_assignments` are the words, whatever the inputs. -/
theorem assign_result (hc : c.OK 9) (t : Table (ZMod p)) (k : ℕ) (hk : k < 8) :
    (result c srow k).value (assign c inp srow t) = ((words (inp.d0.value t).val (inp.d1.value t).val k : ℕ) : ZMod p) := by
  simp only [result, Cols.value_wa]
  have := assign_read (inp := inp) (srow := srow) hc t (r := 1) (j := k) (by interval_cases k <;> decide)
  rw [Nat.cast_one] at this
  rw [this]
  have e := calculate_words (inp.d0.value t) (inp.d1.value t)
  have e2 := congrArg (fun l => l.getD k 0) e
  interval_cases k <;> exact e2

/-- The honest assignment is accepted exactly when both inputs are 128-bit numbers. -/
theorem decomposition_complete (hp : 2 ^ 128 < p) (hc : c.OK 9) (h0 : inp.d0.Outside srow 3) (h1 : inp.d1.Outside srow 3)
    (t : Table (ZMod p)) :
    Sat (assign c inp srow t) (circuit c inp srow) ↔ (inp.d0.value t).val < 2 ^ 128 ∧ (inp.d1.value t).val < 2 ^ 128 := by
  have hf := assign_frame (inp := inp) (srow := srow) hc t
  have key : ∀ (x : ZMod p), x = ((word x.val 3 : ℕ) : ZMod p) + ((word x.val 2 : ℕ) : ZMod p) * 2 ^ 32 +
      ((word x.val 1 : ℕ) : ZMod p) * 2 ^ 64 + ((word x.val 0 : ℕ) : ZMod p) * 2 ^ 96 ↔ x.val < 2 ^ 128 := by
    intro x
    have w0 := word_lt x.val 0
    have w1 := word_lt x.val 1
    have w2 := word_lt x.val 2
    have w3 := word_lt x.val 3
    constructor
    · intro h
      have := val_eq (a := x) (n := word x.val 3 + word x.val 2 * 2 ^ 32 + word x.val 1 * 2 ^ 64 + word x.val 0 * 2 ^ 96)
        (by push_cast; norm_num at h ⊢; exact h) (by norm_num at *; omega)
      rw [this]
      norm_num at *; omega
    · intro h
      have e := congrArg (Nat.cast (R := ZMod p)) (words_sum x.val h)
      rw [ZMod.natCast_zmod_val] at e
      push_cast at e
      norm_num at e ⊢
      exact e.symm
  have ho := assign_result (inp := inp) (srow := srow) hc t
  rw [← key, ← key]
  have iff1 := accepts_iff (inp := inp) hc h0 h1 t (fun k => ((words (inp.d0.value t).val (inp.d1.value t).val k : ℕ) : ZMod p))
  constructor
  · intro h
    have := iff1.1 ⟨_, hf, h, ho⟩
    simpa [words] using this
  · rintro ⟨k0, k1⟩
    rw [sat_iff]
    simp only [add_zero]
    rw [hf.outside h0, hf.outside h1]
    have r0 : ∀ j : ℕ, (0, j) ∈ positions → assign c inp srow t .witness (c.w j) srow = cell (inp.d0.value t) (inp.d1.value t) 0 j :=
      fun j hj => by have := assign_read (inp := inp) (srow := srow) hc t hj; simpa using this
    have r1 : ∀ j : ℕ, j < 8 → assign c inp srow t .witness (c.w j) (srow + 1) =
        ((words (inp.d0.value t).val (inp.d1.value t).val j : ℕ) : ZMod p) := fun j hj => by
      have := ho j hj; simpa only [result, Cols.value_wa] using this
    have r2 : ∀ j : ℕ, (2, j) ∈ positions → assign c inp srow t .witness (c.w j) (srow + 2) =
        cell (inp.d0.value t) (inp.d1.value t) 2 j :=
      fun j hj => by have := assign_read (inp := inp) (srow := srow) hc t hj; simpa using this
    have q0 := r0 0 (by decide)
    have q1 := r0 1 (by decide)
    have q2 := r0 2 (by decide)
    have q3 := r0 3 (by decide)
    have q4 := r0 4 (by decide)
    have q5 := r0 5 (by decide)
    have q6 := r0 6 (by decide)
    have q7 := r0 7 (by decide)
    have q8 := r0 8 (by decide)
    have s0 := r1 0 (by norm_num)
    have s1 := r1 1 (by norm_num)
    have s2 := r1 2 (by norm_num)
    have s3 := r1 3 (by norm_num)
    have s4 := r1 4 (by norm_num)
    have s5 := r1 5 (by norm_num)
    have s6 := r1 6 (by norm_num)
    have s7 := r1 7 (by norm_num)
    have z0 := r2 0 (by decide)
    have z1 := r2 1 (by decide)
    have z2 := r2 2 (by decide)
    have z3 := r2 3 (by decide)
    have z4 := r2 4 (by decide)
    have z5 := r2 5 (by decide)
    have z6 := r2 6 (by decide)
    have z7 := r2 7 (by decide)
    have z8 := r2 8 (by decide)
    norm_num [cell, words] at q0 q1 q2 q3 q4 q5 q6 q7 q8 s0 s1 s2 s3 s4 s5 s6 s7 z0 z1 z2 z3 z4 z5 z6 z7 z8
    rw [q0, q1, q2, q3, q4, q5, q6, q7, q8, s0, s1, s2, s3, s4, s5, s6, s7, z0, z1, z2, z3, z4, z5, z6, z7, z8]
    have e : ∀ (x i k : ℕ), i + k = 3 → ((word x k : ℕ) : ZMod p) = ((chunk x (2 * i) : ℕ) : ZMod p) + ((chunk x (2 * i + 1) : ℕ) : ZMod p) * 65536 := by
      intro x i k hik
      have := pair_word x i
      rw [word, show 3 - k = i by omega, ← this]
      push_cast; ring
    exact ⟨rfl, rfl, k0, k1, e _ 0 3 rfl, e _ 1 2 rfl, e _ 2 1 rfl, e _ 3 0 rfl, e _ 0 3 rfl, e _ 1 2 rfl, e _ 2 1 rfl, e _ 3 0 rfl⟩

/-- The outputs are not determined: the input itself is accepted as the lowest word, with zeros above, although it is not a
32-bit number. -/
theorem decomposition_unsound (hp : 2 ^ 128 < p) (hc : c.OK 9) (h0 : inp.d0.Outside srow 3) (h1 : inp.d1.Outside srow 3)
    (t : Table (ZMod p)) (hbig : 2 ^ 32 ≤ (inp.d0.value t).val) : ∃ t', Frame c srow 3 t t' ∧ Sat t' (circuit c inp srow) ∧
      (result c srow 3).value t' = inp.d0.value t ∧
      (result c srow 3).value t' ≠ ((words (inp.d0.value t).val (inp.d1.value t).val 3 : ℕ) : ZMod p) := by
  obtain ⟨t', hf, hs, ho⟩ := (accepts_iff (inp := inp) hc h0 h1 t
    (fun k => if k = 3 then inp.d0.value t else if k = 7 then inp.d1.value t else 0)).2 (by norm_num)
  have e : (result c srow 3).value t' = inp.d0.value t := by simpa using ho 3 (by norm_num)
  refine ⟨t', hf, hs, e, fun hw => ?_⟩
  rw [e] at hw
  have hl : words (inp.d0.value t).val (inp.d1.value t).val 3 < 2 ^ 32 := word_lt _ _
  have := val_eq hw (by omega)
  omega
end

/-! ### A concrete case -/

/-- Nine columns. -/
def c0 : Cols := { W := List.range 9 }
/-- Inputs in a public column. -/
def inp0 : In := ⟨⟨0, 0, false, .publicInput⟩, ⟨0, 1, false, .publicInput⟩⟩

example : c0.OK 9 := ⟨by decide, rfl⟩
example : inp0.d0.Outside 5 3 := by intro h; cases h
/-- Both inputs are `2^64 + 7`. -/
def t0 : Table (ZMod pallasP) := fun _ _ _ => ((2 ^ 64 + 7 : ℕ) : ZMod pallasP)

theorem t0_val : (inp0.d0.value t0).val = 2 ^ 64 + 7 := ZMod.val_natCast_of_lt (by norm_num [pallasP])

example : Sat (assign c0 inp0 5 t0) (circuit c0 inp0 5) :=
  (decomposition_complete (by norm_num [pallasP]) ⟨by decide, rfl⟩ (by intro h; cases h) (by intro h; cases h) t0).2
    ⟨by rw [t0_val]; norm_num, by rw [show inp0.d1.value t0 = inp0.d0.value t0 from rfl, t0_val]; norm_num⟩

example : ∃ t', Frame c0 5 3 t0 t' ∧ Sat t' (circuit c0 inp0 5) ∧ (result c0 5 3).value t' = inp0.d0.value t0 ∧
    (result c0 5 3).value t' ≠ ((words (inp0.d0.value t0).val (inp0.d1.value t0).val 3 : ℕ) : ZMod pallasP) :=
  decomposition_unsound (by norm_num [pallasP]) ⟨by decide, rfl⟩ (by intro h; cases h) (by intro h; cases h) t0
    (by rw [t0_val]; norm_num)

example : words (2 ^ 64 + 7) (2 ^ 127) 1 = 1 ∧ words (2 ^ 64 + 7) (2 ^ 127) 3 = 7 ∧ words (2 ^ 64 + 7) (2 ^ 127) 4 = 2 ^ 31 := by
  decide

end Decomposition
end Verif
