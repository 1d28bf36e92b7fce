import Verif.Model.RangeCheck
import Verif.Props.Power

/-!
# C17: range check
-/

set_option linter.unusedSimpArgs false
set_option linter.unusedVariables false
set_option linter.unusedSectionVars false

namespace Verif

section
variable {F : Type*} [Field F]

theorem foldl_chunk_eval (v : Expr F) (t : Table F) (row : ℤ) (n : ℕ) (e : Expr F) :
    ((List.range n).foldl (fun (e : Expr F) (i : ℕ) => e * (v - .const (((i + 1 : ℕ) : F)))) e).eval t row = 0 ↔
      e.eval t row = 0 ∨ ∃ i < n, v.eval t row = ((i + 1 : ℕ) : F) := by
  induction n generalizing e with
  | zero => simp
  | succ n ih =>
    rw [List.range_succ, List.foldl_append, List.foldl_cons, List.foldl_nil, Expr.eval_mul, mul_eq_zero, ih,
      Expr.eval_sub, Expr.eval_const, sub_eq_zero]
    constructor
    · rintro ((h | ⟨i, hi, h⟩) | h)
      · exact Or.inl h
      · exact Or.inr ⟨i, by omega, h⟩
      · exact Or.inr ⟨n, by omega, h⟩
    · rintro (h | ⟨i, hi, h⟩)
      · exact Or.inl (Or.inl h)
      · rcases Nat.lt_succ_iff_lt_or_eq.1 hi with h1 | h1
        · exact Or.inl (Or.inr ⟨i, h1, h⟩)
        · subst h1; exact Or.inr h

/-- The chunk size constraint vanishes exactly on (field images of) `0 .. 2^size - 1`. -/
theorem chunkSizeExpr_eval (v : Expr F) (size : ℕ) (t : Table F) (row : ℤ) :
    (chunkSizeExpr v size).eval t row = 0 ↔ ∃ n : ℕ, n < 2 ^ size ∧ v.eval t row = (n : F) := by
  unfold chunkSizeExpr
  rw [foldl_chunk_eval]
  have h2 : 0 < 2 ^ size := by positivity
  constructor
  · rintro (h | ⟨i, hi, h⟩)
    · exact ⟨0, h2, by simpa using h⟩
    · exact ⟨i + 1, by omega, h⟩
  · rintro ⟨n, hn, h⟩
    rcases n with _ | n
    · left; simpa using h
    · right; exact ⟨n, by omega, h⟩

namespace RangeCheck

/-- Base-4 Horner value of `v 0, ..., v (n-1)`, most significant first. -/
def horner4 (v : ℕ → F) (n : ℕ) : F := (List.range n).foldl (fun s i => 4 * s + v i) 0

@[simp] theorem horner4_zero (v : ℕ → F) : horner4 v 0 = 0 := rfl
theorem horner4_succ (v : ℕ → F) (n : ℕ) : horner4 v (n + 1) = 4 * horner4 v n + v n := by
  simp [horner4, List.range_succ]

theorem horner4_congr {v v' : ℕ → F} {n : ℕ} (h : ∀ i < n, v i = v' i) : horner4 v n = horner4 v' n := by
  induction n with
  | zero => rfl
  | succ n ih => rw [horner4_succ, horner4_succ, ih fun i hi => h i (by omega), h n (by omega)]

theorem horner4_add (v : ℕ → F) (a n : ℕ) :
    horner4 v (a + n) = 4 ^ n * horner4 v a + horner4 (fun i => v (a + i)) n := by
  induction n with
  | zero => simp
  | succ n ih => rw [← add_assoc, horner4_succ, ih, horner4_succ, pow_succ]; ring

theorem sumFold_eval (c : Cols) (t : Table F) (row : ℤ) (m : ℕ) :
    ((List.range m).foldl (fun (e : Expr F) (i : ℕ) => .const (2 ^ 2) * e + c.wv ((1 + (i + 1) : ℕ) : ℤ))
      (c.wv 1)).eval t row = horner4 (fun j => t .witness (c.w ((1 + j : ℕ) : ℤ)) row) (m + 1) := by
  induction m with
  | zero => simp [horner4_succ]
  | succ m ih =>
    rw [List.range_succ, List.foldl_append, List.foldl_cons, List.foldl_nil, horner4_succ, ← ih]
    simp
    norm_num

/-- The running sum constraint in plain terms. -/
theorem sumExpr_eval (c : Cols) (t : Table F) (row : ℤ) (m : ℕ) (hm : 0 < m) :
    (sumExpr c m : Expr F).eval t row = 0 ↔
      t .witness (c.w 0) row = 4 ^ m * t .witness (c.w 0) (row - 1) +
        horner4 (fun j => t .witness (c.w ((1 + j : ℕ) : ℤ)) row) m := by
  obtain ⟨m, rfl⟩ : ∃ k, m = k + 1 := ⟨m - 1, by omega⟩
  unfold sumExpr
  rw [Expr.eval_sub, Expr.eval_add, Nat.add_sub_cancel, sumFold_eval]
  have h4 : (2 : F) ^ (2 * (m + 1)) = 4 ^ (m + 1) := by rw [pow_mul]; norm_num
  simp only [Expr.eval_mul, Expr.eval_const, Cols.eval_wv, h4, add_zero, ← sub_eq_add_neg]
  rw [sub_eq_zero, eq_comm, add_comm]

/-- A row whose first `pad` chunks are zero and whose next chunk has only `2 - odd` bits holds a number
below `2^(2(n-pad)-odd)`. -/
theorem row_bound (v : ℕ → F) (m pad odd : ℕ) (ho : odd ≤ 1) (h4 : ∀ i < m, ∃ n : ℕ, n < 4 ∧ v i = n)
    (hpad : ∀ i < pad, v i = 0) (hodd : odd = 1 → ∃ n : ℕ, n < 2 ∧ v pad = n) (n : ℕ) (hn : n ≤ m) :
    ∃ N : ℕ, horner4 v n = N ∧ (n ≤ pad → N = 0) ∧ (pad < n → N < 2 ^ (2 * (n - pad) - odd)) := by
  induction n with
  | zero => exact ⟨0, by simp, by simp, by simp⟩
  | succ n ih =>
    obtain ⟨N, hN, h0, h1⟩ := ih (by omega)
    obtain ⟨d, hd, hv⟩ := h4 n (by omega)
    rw [horner4_succ, hN]
    rcases Nat.lt_trichotomy n pad with hlt | heq | hgt
    · refine ⟨0, ?_, by simp, by omega⟩
      rw [h0 (by omega), hpad n hlt]; simp
    · subst heq
      have hN0 := h0 le_rfl
      rcases Nat.eq_zero_or_pos odd with ho0 | ho1
      · refine ⟨d, ?_, by omega, fun _ => ?_⟩
        · rw [hN0, hv]; simp
        · subst ho0; have : n + 1 - n = 1 := by omega
          rw [this]; simpa using hd
      · have ho1 : odd = 1 := by omega
        obtain ⟨e, he, hve⟩ := hodd ho1
        refine ⟨e, ?_, by omega, fun _ => ?_⟩
        · rw [hN0, hve]; simp
        · subst ho1; have : n + 1 - n = 1 := by omega
          rw [this]; simpa using he
    · refine ⟨4 * N + d, by rw [hv]; push_cast; ring, by omega, fun _ => ?_⟩
      have hb := h1 hgt
      have e : 2 * (n + 1 - pad) - odd = (2 * (n - pad) - odd) + 2 := by omega
      rw [e, pow_add]
      omega

/-- Layout arithmetic: at least one real chunk per row, the padding fits in the first data row and the
padded width minus the padding is exactly `bits`. -/
theorem layout (w bits : ℕ) (hw : 2 ≤ w) (hb : 0 < bits) :
    ∃ R, rows w bits = R + 2 ∧ paddingSize w bits < w - 1 ∧
      2 * ((w - 1) - paddingSize w bits) - bits % 2 + 2 * (w - 1) * R = bits ∧
      paddedChunks w bits = (R + 1) * (w - 1) ∧ paddingSize w bits + (bits + 1) / 2 = (R + 1) * (w - 1) ∧
      paddingBits w bits + bits = 2 * ((R + 1) * (w - 1)) := by
  obtain ⟨m, rfl⟩ : ∃ m, w = m + 2 := ⟨w - 2, by omega⟩
  have hm : m + 2 - 1 = m + 1 := by omega
  have hrow : rows (m + 2) bits = 1 + (bits + (m + 1) * 2 - 1) / ((m + 1) * 2) := by
    simp only [rows, bitsPerRow, chunksPerRow, hm]
  set q := (bits + (m + 1) * 2 - 1) / ((m + 1) * 2) with hq
  have hk : 0 < (m + 1) * 2 := by omega
  have hdm := Nat.div_add_mod (bits + (m + 1) * 2 - 1) ((m + 1) * 2)
  have hlt := Nat.mod_lt (bits + (m + 1) * 2 - 1) hk
  rw [← hq] at hdm
  have hq1 : 1 ≤ q := by
    rcases Nat.eq_zero_or_pos q with h0 | h0
    · rw [h0] at hdm; omega
    · exact h0
  obtain ⟨R, hR⟩ : ∃ R, q = R + 1 := ⟨q - 1, by omega⟩
  have hP : paddedChunks (m + 2) bits = (R + 1) * (m + 1) := by
    rw [paddedChunks, hrow, hR, chunksPerRow, hm]; congr 1; omega
  have e1 : (m + 1) * 2 * q = 2 * ((R + 1) * (m + 1)) := by rw [hR]; ring
  have e2 : (R + 1) * (m + 1) = R * (m + 1) + (m + 1) := by ring
  have e3 : 2 * (m + 1) * R = 2 * (R * (m + 1)) := by ring
  refine ⟨R, by rw [hrow, hR]; omega, ?_, ?_, ?_, ?_, ?_⟩
  · rw [paddingSize, hP, hm]; omega
  · rw [paddingSize, hP, hm, e3]; omega
  · rw [hP, hm]
  · rw [paddingSize, hP, hm]; omega
  · rw [paddingBits, hP, hm]; omega

/-- C17, soundness over any field: when the zero constant read by the component really is zero, a
satisfied range check proves that the input is the image of a natural number below `2^bits`. -/
theorem rangeCheck_sound (c : Cols) (w bits : ℕ) (hw : 2 ≤ w) (x : Var) (srow : ℤ) (t : Table F)
    (hz : (zeroVar srow).value t = 0) (h : Sat t (circuit c w bits x srow)) :
    ∃ n : ℕ, n < 2 ^ bits ∧ x.value t = (n : F) := by
  simp only [circuit, sat_append, sat_cons, sat_nil, holds_copy, and_true, holds_gate] at h
  obtain ⟨⟨⟨⟨hg, hodd⟩, h0⟩, hpad⟩, hx, -⟩ := h
  rw [hz, Cols.value_wa] at h0
  rw [hx, Cols.value_wa]
  rcases Nat.eq_zero_or_pos bits with hb | hb
  · subst hb
    have hr : rows w 0 = 1 := by
      have : bitsPerRow w - 1 < bitsPerRow w := by simp [bitsPerRow, chunksPerRow]; omega
      simp [rows, Nat.div_eq_of_lt this]
    refine ⟨0, by simp, ?_⟩
    rw [hr]; simpa using h0.symm
  obtain ⟨R, hR, hps, hbits, -, -, -⟩ := layout w bits hw hb
  have hgate : ∀ i < R + 1,
      (∀ j < w - 1, ∃ n : ℕ, n < 4 ∧ t .witness (c.w ((1 + j : ℕ) : ℤ)) (srow + 1 + (i : ℤ)) = (n : F)) ∧
      t .witness (c.w 0) (srow + 1 + (i : ℤ)) = 4 ^ (w - 1) * t .witness (c.w 0) (srow + (i : ℤ)) +
        horner4 (fun j => t .witness (c.w ((1 + j : ℕ) : ℤ)) (srow + 1 + (i : ℤ))) (w - 1) := by
    intro i hi
    have hmem : srow + 1 + (i : ℤ) ∈ rowsFrom (srow + 1) (rows w bits - 1) :=
      mem_rowsFrom.2 ⟨i, by omega, rfl⟩
    have hgi := hg _ hmem
    constructor
    · intro j hj
      have := hgi (chunkSizeExpr (c.wv ((1 + j : ℕ) : ℤ)) 2) (by
        simp only [gate1, List.mem_append, List.mem_map, List.mem_range]
        exact Or.inl ⟨j, hj, rfl⟩)
      simpa [chunkSizeExpr_eval] using this
    · have := hgi (sumExpr c (w - 1)) (by simp [gate1, chunksPerRow])
      rw [sumExpr_eval _ _ _ _ (by omega)] at this
      rw [this]
      congr 4; ring
  -- first data row
  have hfirst : ∃ N : ℕ, t .witness (c.w 0) (srow + 1) = (N : F) ∧
      N < 2 ^ (2 * ((w - 1) - paddingSize w bits) - bits % 2) := by
    obtain ⟨hch, hs⟩ := hgate 0 (by omega)
    simp only [Nat.cast_zero, add_zero] at hch hs
    rw [← h0, mul_zero, zero_add] at hs
    obtain ⟨N, hN, -, hlt⟩ := row_bound (fun j => t .witness (c.w ((1 + j : ℕ) : ℤ)) (srow + 1)) (w - 1)
      (paddingSize w bits) (bits % 2) (by omega) hch
      (by
        intro i hi
        have := hpad (.copy (zeroVar srow) (c.wa ((i + 1 : ℕ) : ℤ) (srow + 1)))
          (List.mem_map.2 ⟨i, List.mem_range.2 hi, rfl⟩)
        rw [holds_copy, hz, Cols.value_wa] at this
        rw [this, Nat.add_comm])
      (by
        intro ho
        rw [if_neg (by omega)] at hodd
        simp only [sat_cons, sat_nil, holds_gate, and_true] at hodd
        have := hodd (srow + 1) (by simp) _ (List.mem_singleton.2 rfl)
        rw [chunkSizeExpr_eval, ho] at this
        simpa using this)
      (w - 1) le_rfl
    exact ⟨N, by rw [hs, hN], hlt hps⟩
  have hrest : ∀ i, i ≤ R → ∃ N : ℕ, t .witness (c.w 0) (srow + 1 + (i : ℤ)) = (N : F) ∧
      N < 2 ^ (2 * ((w - 1) - paddingSize w bits) - bits % 2 + 2 * (w - 1) * i) := by
    intro i
    induction i with
    | zero => intro _; simpa using hfirst
    | succ i ih =>
      intro hi
      obtain ⟨N, hN, hlt⟩ := ih (by omega)
      obtain ⟨hch, hs⟩ := hgate (i + 1) (by omega)
      obtain ⟨M, hM, -, hMlt⟩ := row_bound (fun j => t .witness (c.w ((1 + j : ℕ) : ℤ)) (srow + 1 + ((i + 1 : ℕ) : ℤ)))
        (w - 1) 0 0 (by omega) hch (by simp) (by simp) (w - 1) le_rfl
      refine ⟨4 ^ (w - 1) * N + M, ?_, ?_⟩
      · rw [hs, hM]
        have : srow + ((i + 1 : ℕ) : ℤ) = srow + 1 + (i : ℤ) := by push_cast; ring
        rw [this, hN]; push_cast; ring
      · have hM' := hMlt (by omega)
        have e4 : 2 ^ (2 * (w - 1 - 0) - 0) = 4 ^ (w - 1) := by
          rw [Nat.sub_zero, Nat.sub_zero, pow_mul]; norm_num
        have e5 : 2 ^ (2 * (w - 1) * (i + 1)) = 2 ^ (2 * (w - 1) * i) * 4 ^ (w - 1) := by
          rw [Nat.mul_add, pow_add, Nat.mul_one]
          congr 1
        rw [e4] at hM'
        rw [pow_add] at hlt
        rw [pow_add, e5]
        calc 4 ^ (w - 1) * N + M < 4 ^ (w - 1) * N + 4 ^ (w - 1) := by omega
          _ = 4 ^ (w - 1) * (N + 1) := by ring
          _ ≤ 4 ^ (w - 1) * (2 ^ (2 * (w - 1 - paddingSize w bits) - bits % 2) * 2 ^ (2 * (w - 1) * i)) :=
              Nat.mul_le_mul_left _ (by omega)
          _ = _ := by ring
  obtain ⟨N, hN, hlt⟩ := hrest R le_rfl
  rw [hbits] at hlt
  refine ⟨N, hlt, ?_⟩
  rw [← hN, hR]
  congr 1; push_cast; ring


/-! ### Completeness -/

theorem chunk_lt (w bits x i : ℕ) : chunk w bits x i < 4 := by
  unfold chunk
  have h1 := Bool.toNat_lt (bitAt w bits x (i * 2))
  have h2 := Bool.toNat_lt (bitAt w bits x (i * 2 + 1))
  omega

theorem chunk_pad (w bits x i : ℕ) (hw : 2 ≤ w) (hb : 0 < bits) (hi : i < paddingSize w bits) :
    chunk w bits x i = 0 := by
  obtain ⟨R, -, -, -, -, h1, h2⟩ := layout w bits hw hb
  have h3 : i * 2 < paddingBits w bits := by omega
  have h4 : i * 2 + 1 < paddingBits w bits := by omega
  simp [chunk, bitAt, h3, h4]

theorem chunk_odd (w bits x : ℕ) (hw : 2 ≤ w) (hb : bits % 2 = 1) :
    chunk w bits x (paddingSize w bits) < 2 := by
  obtain ⟨R, -, -, -, -, h1, h2⟩ := layout w bits hw (by omega)
  have h3 : paddingSize w bits * 2 < paddingBits w bits := by omega
  have h4 := Bool.toNat_lt (bitAt w bits x (paddingSize w bits * 2 + 1))
  have h5 : bitAt w bits x (paddingSize w bits * 2) = false := by simp [bitAt, h3]
  rw [chunk, h5]; simp; omega

theorem chunk_eq (w bits x i : ℕ) (hw : 2 ≤ w) (hb : 0 < bits) (hx : x < 2 ^ bits)
    (hi : i < paddedChunks w bits) : chunk w bits x i = x / 4 ^ (paddedChunks w bits - 1 - i) % 4 := by
  obtain ⟨R, -, -, -, hP, h1, h2⟩ := layout w bits hw hb
  rw [← hP] at h1 h2
  have hbit : ∀ k < 2 * paddedChunks w bits, bitAt w bits x k = x.testBit (2 * paddedChunks w bits - 1 - k) := by
    intro k hk
    unfold bitAt
    split_ifs with h
    · rw [eq_comm]
      apply Nat.testBit_lt_two_pow
      exact hx.trans_le (Nat.pow_le_pow_right (by norm_num) (by omega))
    · congr 1; omega
  unfold chunk
  rw [hbit _ (by omega), hbit _ (by omega), Nat.toNat_testBit, Nat.toNat_testBit]
  have e1 : 2 * paddedChunks w bits - 1 - i * 2 = 2 * (paddedChunks w bits - 1 - i) + 1 := by omega
  have e2 : 2 * paddedChunks w bits - 1 - (i * 2 + 1) = 2 * (paddedChunks w bits - 1 - i) := by omega
  rw [e1, e2, pow_succ, ← Nat.div_div_eq_div_mul, pow_mul]
  have e3 : (2 ^ 2 : ℕ) = 4 := by norm_num
  rw [e3]; omega

theorem sumAfter_succ (w bits x n : ℕ) :
    (sumAfter w bits x (n + 1) : F) = sumAfter w bits x n * 4 + (chunk w bits x n : F) := by
  simp [sumAfter, List.range_succ]

theorem sumAfter_horner (w bits x n : ℕ) :
    (sumAfter w bits x n : F) = horner4 (fun i => (chunk w bits x i : F)) n := by
  induction n with
  | zero => rfl
  | succ n ih => rw [sumAfter_succ, horner4_succ, ih]; ring

theorem sumAfter_eq (w bits x n : ℕ) (hw : 2 ≤ w) (hb : 0 < bits) (hx : x < 2 ^ bits)
    (hn : n ≤ paddedChunks w bits) :
    (sumAfter w bits x n : F) = ((x / 4 ^ (paddedChunks w bits - n) : ℕ) : F) := by
  induction n with
  | zero =>
    obtain ⟨R, -, -, -, hP, h1, h2⟩ := layout w bits hw hb
    rw [← hP] at h1 h2
    have : x < 4 ^ paddedChunks w bits := by
      refine hx.trans_le ?_
      have : (4 : ℕ) = 2 ^ 2 := by norm_num
      rw [this, ← pow_mul]
      exact Nat.pow_le_pow_right (by norm_num) (by omega)
    simp [sumAfter, Nat.div_eq_of_lt this]
  | succ n ih =>
    rw [sumAfter_succ, ih (by omega), chunk_eq w bits x n hw hb hx (by omega)]
    have e1 : paddedChunks w bits - n = (paddedChunks w bits - (n + 1)) + 1 := by omega
    have e2 : paddedChunks w bits - 1 - n = paddedChunks w bits - (n + 1) := by omega
    rw [e1, e2, pow_succ, ← Nat.div_div_eq_div_mul]
    set y := x / 4 ^ (paddedChunks w bits - (n + 1))
    have : y = y / 4 * 4 + y % 4 := by omega
    conv_rhs => rw [this]
    push_cast; ring

/-- The table content that the assignment produces satisfies the constraints. -/
theorem cells_sat (c : Cols) (w bits : ℕ) (hw : 2 ≤ w) (x : Var) (srow : ℤ) (t : Table F) (n : ℕ)
    (hn : n < 2 ^ bits) (hx : x.value t = (n : F)) (hz : (zeroVar srow).value t = 0)
    (hk : t .constant (c.k 0) srow = 0) (h0 : t .witness (c.w 0) srow = 0)
    (hch : ∀ i < rows w bits - 1, ∀ j < w - 1, t .witness (c.w ((1 + j : ℕ) : ℤ)) (srow + ((i + 1 : ℕ) : ℤ)) =
      (chunk w bits n (i * (w - 1) + j) : F))
    (hs : ∀ i < rows w bits - 1, t .witness (c.w 0) (srow + ((i + 1 : ℕ) : ℤ)) =
      sumAfter w bits n (i * (w - 1) + (w - 1))) :
    Sat t (circuit c w bits x srow) := by
  have hs' : ∀ i ≤ rows w bits - 1, t .witness (c.w 0) (srow + (i : ℤ)) = sumAfter w bits n (i * (w - 1)) := by
    intro i hi
    rcases i with _ | i
    · simpa [sumAfter] using h0
    · rw [hs i (by omega), Nat.succ_mul]
  have hr1 : 1 ≤ rows w bits := by simp [rows]
  simp only [circuit, sat_append, sat_cons, sat_nil, holds_copy, holds_constant, holds_gate, and_true]
  refine ⟨⟨⟨⟨?_, ?_⟩, ?_⟩, ?_⟩, ?_, hk⟩
  · intro r hr e he
    obtain ⟨i, hi, rfl⟩ := mem_rowsFrom.1 hr
    have er : srow + 1 + (i : ℤ) = srow + ((i + 1 : ℕ) : ℤ) := by push_cast; ring
    simp only [gate1, List.mem_append, List.mem_map, List.mem_range, List.mem_singleton, chunksPerRow] at he
    rcases he with ⟨j, hj, rfl⟩ | rfl
    · rw [chunkSizeExpr_eval]
      refine ⟨_, chunk_lt w bits n (i * (w - 1) + j), ?_⟩
      rw [Cols.eval_wv, add_zero, er, hch i hi j hj]
    · rw [sumExpr_eval _ _ _ _ (by omega)]
      have er2 : srow + 1 + (i : ℤ) - 1 = srow + (i : ℤ) := by ring
      rw [er2, er, hs' (i + 1) (by omega), hs' i (by omega), Nat.succ_mul, sumAfter_horner, sumAfter_horner,
        horner4_add]
      congr 1
      apply horner4_congr
      intro j hj
      rw [hch i hi j hj]
  · split_ifs with ho
    · simp
    · have ho : bits % 2 = 1 := by omega
      obtain ⟨R, hR, hps, -⟩ := layout w bits hw (by omega)
      simp only [sat_cons, sat_nil, holds_gate, and_true, List.mem_singleton]
      rintro r rfl e rfl
      rw [chunkSizeExpr_eval, ho]
      refine ⟨_, chunk_odd w bits n hw ho, ?_⟩
      have := hch 0 (by omega) (paddingSize w bits) hps
      simpa using this
  · rw [hz, Cols.value_wa, h0]
  · intro o ho
    obtain ⟨i, hi, rfl⟩ := List.mem_map.1 ho
    have hi := List.mem_range.1 hi
    rcases Nat.eq_zero_or_pos bits with hb | hb
    · subst hb
      have : paddingSize w 0 = 0 := by
        have : bitsPerRow w - 1 < bitsPerRow w := by simp [bitsPerRow, chunksPerRow]; omega
        simp [paddingSize, paddedChunks, rows, Nat.div_eq_of_lt this]
      omega
    obtain ⟨R, hR, hps, -⟩ := layout w bits hw hb
    have h2 := hch 0 (by omega) i (by omega)
    rw [Nat.zero_mul, Nat.zero_add 1, Nat.zero_add, chunk_pad w bits n i hw hb hi] at h2
    rw [holds_copy, hz, Cols.value_wa]
    rw [Nat.add_comm i 1]
    simpa using h2.symm
  · rw [hx, Cols.value_wa]
    have er : srow + (rows w bits : ℤ) - 1 = srow + ((rows w bits - 1 : ℕ) : ℤ) := by omega
    rw [er, hs' _ le_rfl]
    rcases Nat.eq_zero_or_pos bits with hb | hb
    · subst hb
      have : rows w 0 = 1 := by
        have : bitsPerRow w - 1 < bitsPerRow w := by simp [bitsPerRow, chunksPerRow]; omega
        simp [rows, Nat.div_eq_of_lt this]
      have hn0 : n = 0 := by simpa using hn
      simp [this, sumAfter, hn0]
    have := sumAfter_eq (F := F) w bits n (paddedChunks w bits) hw hb hn le_rfl
    rw [Nat.sub_self, pow_zero, Nat.div_one] at this
    rw [← this]; rfl

/-- Value written to row `r`, column `j`. -/
def cell (w bits n : ℕ) (r j : ℕ) : F :=
  if r = 0 then 0 else if j = 0 then sumAfter w bits n ((r - 1) * (w - 1) + (w - 1))
  else (chunk w bits n ((r - 1) * (w - 1) + (j - 1)) : F)

theorem grid (c : Cols) (w bits n : ℕ) (hw : 2 ≤ w) (srow : ℤ) :
    GridWrites c srow w (rows w bits) (cell w bits n : ℕ → ℕ → F) (writes c w bits n srow) := by
  intro x hx
  have hr1 : 1 ≤ rows w bits := by simp [rows]
  simp only [writes, List.mem_cons, List.mem_flatMap, List.mem_range, List.mem_append, List.mem_map,
    List.not_mem_nil, or_false, chunksPerRow] at hx
  rcases hx with rfl | ⟨i, hi, ⟨j, hj, rfl⟩ | rfl⟩
  · exact ⟨0, by omega, 0, by omega, by simp [cell]⟩
  · exact ⟨i + 1, by omega, j + 1, by omega, by simp [cell, Nat.add_comm]⟩
  · exact ⟨i + 1, by omega, 0, by omega, by simp [cell]⟩

/-- What a table contains after the writes. -/
theorem read (c : Cols) (w bits n : ℕ) (hw : 2 ≤ w) (hc : c.OK w) (srow : ℤ) (t : Table F) :
    let t' := writeAll (writes c w bits n srow) t
    t' .witness (c.w 0) srow = 0 ∧
    (∀ i < rows w bits - 1, ∀ j < w - 1, t' .witness (c.w ((1 + j : ℕ) : ℤ)) (srow + ((i + 1 : ℕ) : ℤ)) =
      (chunk w bits n (i * (w - 1) + j) : F)) ∧
    (∀ i < rows w bits - 1, t' .witness (c.w 0) (srow + ((i + 1 : ℕ) : ℤ)) =
      sumAfter w bits n (i * (w - 1) + (w - 1))) := by
  intro t'
  have hg := grid (F := F) c w bits n hw srow
  refine ⟨?_, ?_, ?_⟩
  · have := hg.read hc t (r := 0) (j := 0) (by omega) (by simp [writes, cell])
    simpa [cell] using this
  · intro i hi j hj
    have := hg.read hc t (r := i + 1) (j := 1 + j) (by omega) (by
      simp only [writes, List.mem_cons, List.mem_flatMap, List.mem_range, List.mem_append, List.mem_map]
      right
      exact ⟨i, hi, Or.inl ⟨j, hj, by simp [cell, chunksPerRow]⟩⟩)
    exact this.trans (by simp [cell])
  · intro i hi
    have := hg.read hc t (r := i + 1) (j := 0) (by omega) (by
      simp only [writes, List.mem_cons, List.mem_flatMap, List.mem_range, List.mem_append, List.mem_map]
      right
      exact ⟨i, hi, Or.inr (by simp [cell, chunksPerRow])⟩)
    rw [Nat.cast_zero] at this
    exact this.trans (by simp [cell])

/-- A table that agrees with the result of the writes on the component's own rows is accepted. -/
theorem sat_after (c : Cols) (w bits : ℕ) (hw : 2 ≤ w) (hc : c.OK w) (hk : c.k 0 = 0) (x : Var) (srow : ℤ)
    (t0 t : Table F) (n : ℕ) (hn : n < 2 ^ bits) (hx : x.value t = (n : F)) (hz : t .constant 0 srow = 0)
    (hag : ∀ i r, srow ≤ r → r < srow + rows w bits →
      t .witness i r = writeAll (writes c w bits n srow) t0 .witness i r) :
    Sat t (circuit c w bits x srow) := by
  obtain ⟨h0, h1, h2⟩ := read (F := F) c w bits n hw hc srow t0
  have hr : 1 ≤ rows w bits := by simp [rows]
  refine cells_sat c w bits hw x srow t n hn hx hz (by rw [hk]; exact hz) ?_ ?_ ?_
  · rw [hag _ _ le_rfl (by omega), h0]
  · intro i hi j hj
    rw [hag _ _ (by omega) (by omega), h1 i hi j hj]
  · intro i hi
    rw [hag _ _ (by omega) (by omega), h2 i hi]

theorem writeConsts_eq (c : Cols) (w bits : ℕ) (x : Var) (srow : ℤ) (t : Table F) :
    writeConsts (circuit c w bits x srow) t = t.set .constant (c.k 0) srow 0 := by
  have e : (circuit c w bits x srow : List (Op F)) =
    ([.gate (gate1 c w) (rowsFrom (srow + 1) (rows w bits - 1))] ++
    (if bits % 2 = 0 then [] else
      [.gate [chunkSizeExpr (c.wv ((1 + paddingSize w bits : ℕ) : ℤ)) (bits % 2)] [srow + 1]]) ++
    [.copy (zeroVar srow) (c.wa 0 srow)] ++
    ((List.range (paddingSize w bits)).map fun (i : ℕ) =>
      .copy (zeroVar srow) (c.wa ((i + 1 : ℕ) : ℤ) (srow + 1))) ++
    [.copy x (c.wa 0 (srow + rows w bits - 1))]) ++ [.constant (c.k 0) srow 0] := by
    simp [circuit]
  rw [e, writeConsts_append, writeConsts_constant, writeConsts_nil, writeConsts_noConst]
  · intro o ho col row v
    simp only [List.mem_append, List.mem_singleton, List.mem_map] at ho
    rcases ho with (((rfl | ho) | rfl) | ⟨i, _, rfl⟩) | rfl
    · simp
    · split_ifs at ho <;> simp at ho
      subst ho; simp
    · simp
    · simp
    · simp

theorem zeroVar_of_k0 (c : Cols) (w bits : ℕ) (x : Var) (srow : ℤ) (t : Table F) (hk : c.k 0 = 0)
    (h : Sat t (circuit c w bits x srow)) : (zeroVar srow).value t = 0 := by
  have := h (.constant (c.k 0) srow 0) (by simp [circuit])
  rw [holds_constant, hk] at this
  exact this

end RangeCheck
end

section
variable {p : ℕ} [Fact p.Prime]

/-- C17, soundness. With constant column 0 as the component's constant column, every accepted table has
an input below `2^bits` as an integer, for every bit count, width, field and table. -/
theorem rangeCheck_sound (c : Cols) (w bits : ℕ) (hw : 2 ≤ w) (hk : c.k 0 = 0) (x : Var) (srow : ℤ)
    (t : Table (ZMod p)) (h : Sat t (RangeCheck.circuit c w bits x srow)) : (x.value t).val < 2 ^ bits := by
  obtain ⟨n, hn, hx⟩ := RangeCheck.rangeCheck_sound c w bits hw x srow t
    (RangeCheck.zeroVar_of_k0 c w bits x srow t hk h) h
  rw [hx, ZMod.val_natCast]
  exact (Nat.mod_le _ _).trans_lt hn

/-- C17, completeness: for every input below `2^bits` the generated table is accepted. -/
theorem rangeCheck_complete (c : Cols) (w bits : ℕ) (hw : 2 ≤ w) (hc : c.OK w) (hk : c.k 0 = 0) (x : Var)
    (srow : ℤ) (t : Table (ZMod p)) (hx : x.Outside srow (RangeCheck.rows w bits))
    (hlt : (x.value (writeConsts (RangeCheck.circuit c w bits x srow) t)).val < 2 ^ bits) :
    let tc := writeConsts (RangeCheck.circuit c w bits x srow) t
    let t' := RangeCheck.assign c w bits x srow tc
    Sat t' (RangeCheck.circuit c w bits x srow) ∧ Frame c srow (RangeCheck.rows w bits) tc t' := by
  intro tc t'
  have hfr : Frame c srow (RangeCheck.rows w bits) tc t' :=
    ((RangeCheck.grid c w bits _ hw srow).own hc).frame tc
  refine ⟨?_, hfr⟩
  have htc : tc .constant 0 srow = 0 := by
    simp only [tc]; rw [RangeCheck.writeConsts_eq, hk, Table.set_same]
  have htc' : t' .constant 0 srow = 0 := by rw [hfr _ _ _ (by simp), htc]
  obtain ⟨h0, h1, h2⟩ := RangeCheck.read (F := ZMod p) c w bits (x.value tc).val hw hc srow tc
  refine RangeCheck.cells_sat c w bits hw x srow t' _ hlt ?_ ?_ ?_ h0 h1 h2
  · rw [hfr.outside hx, ZMod.natCast_zmod_val]
  · exact htc'
  · rw [hk]; exact htc'

/-- C17 as an equivalence: some table with this input and these constants is accepted iff the input is
in range. -/
theorem rangeCheck_iff (c : Cols) (w bits : ℕ) (hw : 2 ≤ w) (hc : c.OK w) (hk : c.k 0 = 0) (x : Var)
    (srow : ℤ) (hx : x.Outside srow (RangeCheck.rows w bits)) (hxk : x.type ≠ .constant) (v : ZMod p) :
    (∃ t, x.value t = v ∧ Sat t (RangeCheck.circuit c w bits x srow)) ↔ v.val < 2 ^ bits := by
  constructor
  · rintro ⟨t, rfl, h⟩; exact rangeCheck_sound c w bits hw hk x srow t h
  · intro hv
    set t : Table (ZMod p) := fun _ _ _ => v
    have hxv : x.value (writeConsts (RangeCheck.circuit c w bits x srow) t) = v := by
      rw [RangeCheck.writeConsts_eq]
      show Table.set _ _ _ _ _ _ _ _ = v
      rw [Table.set_ne _ _ (by rintro ⟨h, -⟩; exact hxk h)]
    obtain ⟨h1, h2⟩ := rangeCheck_complete c w bits hw hc hk x srow t hx (by rw [hxv]; exact hv)
    exact ⟨_, by rw [h2.outside hx, hxv], h1⟩

/-- The component reads its zero from constant column *index 0*, but writes it to `C(0)`
(range_check.hpp:380, 401). With any other constant column the check no longer bounds the input: here
`C(0) = 1`, one bit, and the accepted input is 5. -/
theorem rangeCheck_unsound_other_constant_column :
    ∃ (c : Cols) (t : Table (ZMod 7)) (x : Var), c.OK 2 ∧ c.k 0 = 1 ∧
      Sat t (RangeCheck.circuit c 2 1 x 0) ∧ ¬ (x.value t).val < 2 ^ 1 := by
  refine ⟨⟨[0, 1], [1], []⟩, fun ty i r => if ty = .constant then (if i = 0 then 1 else 0) else
    if i = 0 then (if r = 0 then 1 else 5) else if i = 1 then 1 else 5,
    ⟨2, 0, false, .witness⟩, ⟨by decide, rfl⟩, rfl, ?_, by decide⟩
  have hr : RangeCheck.rows 2 1 = 2 := by decide
  have hp : RangeCheck.paddingSize 2 1 = 0 := by decide
  simp only [RangeCheck.circuit, hr, hp]
  simp [rowsFrom, RangeCheck.gate1, RangeCheck.chunksPerRow, chunkSizeExpr_eval, RangeCheck.sumExpr,
    RangeCheck.zeroVar, Cols.w, colAt, Cols.k, Cols.wa, Cols.wv, Var.value, Var.evalAt]
  refine ⟨⟨⟨1, by decide, by decide⟩, by decide⟩, ⟨1, by decide, by decide⟩⟩

/-- The hypotheses are met by a 5-bit check in 3 columns (odd bit count, one padding chunk). -/
example : (⟨[4, 7, 2], [0], []⟩ : Cols).OK 3 ∧ (⟨[4, 7, 2], [0], []⟩ : Cols).k 0 = 0 ∧
    RangeCheck.rows 3 5 = 3 ∧ RangeCheck.paddingSize 3 5 = 1 ∧ RangeCheck.chunk 3 5 0b10110 1 = 1 ∧
    (⟨0, 0, false, .publicInput⟩ : Var).Outside 7 (RangeCheck.rows 3 5) :=
  ⟨⟨by decide, rfl⟩, rfl, by decide, by decide, by decide, by simp [Var.Outside]⟩
end
end Verif
