import Verif.Core.Table
import Mathlib.Tactic.IntervalCases

/-!
# Block layouts

Helper notions for components that fill a rectangle of rows and columns with nested loops.
-/

namespace Verif

instance : Inhabited Var := ⟨⟨0, 0, false, .witness⟩⟩

/-- Rows `srow .. srow + n - 1` (`enable_selector(sel, srow, srow + n - 1)`, see `C04`). -/
def rowsFrom (srow : ℤ) (n : ℕ) : List ℤ := (List.range n).map fun i => srow + (i : ℤ)

theorem mem_rowsFrom {srow : ℤ} {n : ℕ} {r : ℤ} :
    r ∈ rowsFrom srow n ↔ ∃ i < n, r = srow + (i : ℤ) := by
  simp [rowsFrom, eq_comm]

/-- Rows `b, b + s, b + 2s, ...` not beyond `e` (`enable_selector(sel, b, e, s)`, see `C04`). -/
def rowsBetween (b e : ℤ) (s : ℕ) : List ℤ :=
  (List.range ((e - b) / (s : ℤ) + 1).toNat).map fun (i : ℕ) => b + (s : ℤ) * (i : ℤ)

theorem mem_rowsBetween {b e r : ℤ} {s : ℕ} (hs : 0 < s) :
    r ∈ rowsBetween b e s ↔ ∃ i : ℕ, r = b + (s : ℤ) * (i : ℤ) ∧ r ≤ e := by
  simp only [rowsBetween, List.mem_map, List.mem_range]
  have hs' : (0 : ℤ) < s := by exact_mod_cast hs
  constructor
  · rintro ⟨i, hi, rfl⟩
    refine ⟨i, rfl, ?_⟩
    have h1 : (i : ℤ) ≤ (e - b) / (s : ℤ) := by omega
    have := (Int.le_ediv_iff_mul_le hs').1 h1
    rw [mul_comm] at this; omega
  · rintro ⟨i, rfl, h⟩
    refine ⟨i, ?_, rfl⟩
    have h1 : (i : ℤ) ≤ (e - b) / (s : ℤ) := by
      rw [Int.le_ediv_iff_mul_le hs', mul_comm]; omega
    omega

/-- The nested loop `for row < rows, for block < k, cur++` that visits item `cur` while `cur < n`:
the loop counter `cur` at `(row, block)` is `row * k + block`. -/
def blocks {α : Type*} (rows k n : ℕ) (f : ℕ → ℕ → α) : List α :=
  (List.range rows).flatMap fun r => ((List.range k).filter fun b => r * k + b < n).map (f r)

theorem filter_lt_range (k m : ℕ) : (List.range k).filter (fun b => decide (b < m)) = List.range (min k m) := by
  induction k with
  | zero => simp
  | succ k ih =>
    rw [List.range_succ, List.filter_append, ih]
    by_cases h : k < m
    · have h1 : min (k + 1) m = min k m + 1 := by omega
      have h2 : min k m = k := by omega
      rw [h1, List.range_succ, h2]; simp [h]
    · have h1 : min (k + 1) m = min k m := by omega
      rw [h1]; simp [h]

/-- The visited items are `0, 1, ..., n-1` in order, item `i` at row `i / k`, block `i % k`. -/
theorem blocks_eq {α : Type*} {rows k n : ℕ} (hk : 0 < k) (h : n ≤ rows * k) (f : ℕ → ℕ → α) :
    blocks rows k n f = (List.range n).map fun i => f (i / k) (i % k) := by
  have key : ∀ rows, blocks rows k n f =
      (List.range (min n (rows * k))).map fun i => f (i / k) (i % k) := by
    intro rows
    induction rows with
    | zero => simp [blocks]
    | succ r ih =>
      have h0 : blocks (r + 1) k n f = blocks r k n f ++
          ((List.range k).filter fun b => r * k + b < n).map (f r) := by
        simp [blocks, List.range_succ]
      rw [h0, ih]
      have h1 : ((List.range k).filter fun b => decide (r * k + b < n)) =
          List.range (min k (n - r * k)) := by
        rw [← filter_lt_range]
        apply List.filter_congr
        intro b _
        rw [decide_eq_decide]
        omega
      rw [h1]
      have h2 : min n ((r + 1) * k) = min n (r * k) + min k (n - r * k) := by
        rw [add_mul, one_mul]; omega
      rw [h2, List.range_add, List.map_append, List.map_map]
      congr 1
      apply List.map_congr_left
      intro b hb
      have hb' : b < min k (n - r * k) := List.mem_range.1 hb
      have h3 : min n (r * k) = r * k := by omega
      have h4 : b < k := by omega
      simp only [Function.comp, h3]
      rw [Nat.mul_comm r k, Nat.mul_add_div hk, Nat.div_eq_of_lt h4, Nat.mul_add_mod, Nat.mod_eq_of_lt h4]
      simp
  rw [key rows, min_eq_left h]

theorem mem_blocks {α : Type*} {rows k n : ℕ} {f : ℕ → ℕ → α} {a : α} :
    a ∈ blocks rows k n f ↔ ∃ r < rows, ∃ b < k, r * k + b < n ∧ a = f r b := by
  simp only [blocks, List.mem_flatMap, List.mem_range, List.mem_map, List.mem_filter, decide_eq_true_eq]
  constructor
  · rintro ⟨r, hr, b, ⟨hb, hn⟩, rfl⟩; exact ⟨r, hr, b, hb, hn, rfl⟩
  · rintro ⟨r, hr, b, hb, hn, rfl⟩; exact ⟨r, hr, b, ⟨hb, hn⟩, rfl⟩

/-- All writes go to the component's cells and the value written to row `r`, column `j` is `v r j`. -/
def GridWrites {F : Type*} (c : Cols) (srow : ℤ) (w rows : ℕ) (v : ℕ → ℕ → F) (ws : List (Write F)) : Prop :=
  ∀ x ∈ ws, ∃ r < rows, ∃ j < w, x = ⟨.witness, c.w (j : ℤ), srow + (r : ℤ), v r j⟩

section
variable {F : Type*} {c : Cols} {srow : ℤ} {w rows : ℕ} {v : ℕ → ℕ → F} {ws ws' : List (Write F)}

theorem GridWrites.own (h : GridWrites c srow w rows v ws) (hc : c.OK w) : Own c srow rows ws := by
  intro x hx
  obtain ⟨r, hr, j, hj, rfl⟩ := h x hx
  refine ⟨rfl, Cols.w_mem (by rw [hc.len]; omega) _, by simp, ?_⟩
  simpa using hr

theorem GridWrites.append (h : GridWrites c srow w rows v ws) (h' : GridWrites c srow w rows v ws') :
    GridWrites c srow w rows v (ws ++ ws') := by
  intro x hx
  rcases List.mem_append.1 hx with h1 | h1
  · exact h x h1
  · exact h' x h1

theorem GridWrites.read (h : GridWrites c srow w rows v ws) (hc : c.OK w) (t : Table F) {r j : ℕ}
    (hj : j < w) (hm : (⟨.witness, c.w (j : ℤ), srow + (r : ℤ), v r j⟩ : Write F) ∈ ws) :
    writeAll ws t .witness (c.w (j : ℤ)) (srow + (r : ℤ)) = v r j := by
  refine writeAll_of_mem ws t ⟨.witness, c.w (j : ℤ), srow + (r : ℤ), v r j⟩ hm ?_
  intro x hx h1 h2 h3
  obtain ⟨r', hr', j', hj', rfl⟩ := h x hx
  simp only at h2 h3 ⊢
  have e1 : (j' : ℤ) = j := (hc.inj ⟨by omega, by omega⟩ ⟨by omega, by omega⟩).1 h2
  have e2 : j' = j := by omega
  have e3 : r' = r := by omega
  rw [e2, e3]
end

end Verif
