import Verif.Model.Sha512Full
import Verif.Core.Sha512Hash
import Verif.Props.Sha512Complete

/-!
# The SHA-512 component: cutting the limbs into words
-/

set_option linter.unusedSimpArgs false
set_option linter.unusedSectionVars false
set_option linter.unusedVariables false

namespace Verif
namespace Sha512Full

/-! ## The cells -/

/-- Content of the cell in row `r`, column `j`. -/
def srcAt (r j : ℕ) : Option Src := (layout.find? fun q => decide (q.1 = r ∧ q.2.1 = j)).map fun q => q.2.2

theorem layout_unique : ∀ q ∈ layout, q.1 < 15 ∧ q.2.1 < 9 ∧ srcAt q.1 q.2.1 = some q.2.2 := by decide +kernel

theorem mem_of_srcAt {r j : ℕ} {s : Src} (h : srcAt r j = some s) : (r, j, s) ∈ layout := by
  unfold srcAt at h
  obtain ⟨q, hq, rfl⟩ := Option.map_eq_some_iff.1 h
  have h1 := List.find?_some hq
  have h2 := List.mem_of_find?_eq_some hq
  simp only [decide_eq_true_eq] at h1
  rw [← h1.1, ← h1.2]; exact h2

/-- The value of a sum in a gate. -/
def sumVal {F : Type*} [Field F] (f : ℤ → ℤ → F) : List (ℤ × ℤ × ℕ) → F
  | [] => 0
  | (i, r, e) :: l => f i r * ((2 ^ e : ℕ) : F) + sumVal f l

/-- The same over the contents. -/
def srcSum {R : Type*} [CommSemiring R] (v : Src → R) : List (Src × ℕ) → R
  | [] => 0
  | (s, e) :: l => v s * ((2 ^ e : ℕ) : R) + srcSum v l

/-- The content of the cell that a gate names, for the gate of rows `3 n .. 3 n + 2`. -/
def srcRel (n : ℕ) (i r : ℤ) : Src := (srcAt (1 + 3 * (n : ℤ) + r).toNat i.toNat).getD .one

/-- The constraints of the gates in terms of the contents. -/
def eqns : List (Src × List (Src × ℕ)) :=
  (List.range 5).flatMap fun n => (gates.getD n []).map fun k => (srcRel n k.col k.rot, k.terms.map fun q => (srcRel n q.1 q.2.1, q.2.2))

theorem eqns_eq : eqns = [
   (.ram 0, [(.chunk 0 0 22, 0), (.chunk 0 22 22, 22), (.chunk 0 44 20, 44), (.chunk 0 64 2, 64)]),
   (.ram 1, [(.chunk 1 0 22, 0), (.chunk 1 22 22, 22), (.chunk 1 44 18, 44), (.chunk 1 62 4, 62)]),
   (.ram 2, [(.chunk 2 0 22, 0), (.chunk 2 22 22, 22), (.chunk 2 44 16, 44), (.chunk 2 60 6, 60)]),
   (.ram 3, [(.chunk 3 0 22, 0), (.chunk 3 22 22, 22), (.chunk 3 44 13, 44)]),
   (.word 0, [(.chunk 0 0 22, 0), (.chunk 0 22 22, 22), (.chunk 0 44 20, 44)]),
   (.word 1, [(.chunk 0 64 2, 0), (.chunk 1 0 22, 2), (.chunk 1 22 22, 24), (.chunk 1 44 18, 46)]),
   (.word 2, [(.chunk 1 62 4, 0), (.chunk 2 0 22, 4), (.chunk 2 22 22, 26), (.chunk 2 44 16, 48)]),
   (.word 3, [(.chunk 2 60 6, 0), (.chunk 3 0 22, 6), (.chunk 3 22 22, 28), (.chunk 3 44 13, 50), (.chunk 4 0 1, 63)]),
   (.ram 4, [(.chunk 4 0 1, 0), (.chunk 4 1 21, 1), (.chunk 4 22 22, 22), (.chunk 4 44 21, 44), (.chunk 4 65 1, 65)]),
   (.ram 5, [(.chunk 5 0 22, 0), (.chunk 5 22 22, 22), (.chunk 5 44 19, 44), (.chunk 5 63 3, 63)]),
   (.ram 6, [(.chunk 6 0 22, 0), (.chunk 6 22 22, 22), (.chunk 6 44 17, 44), (.chunk 6 61 5, 61)]),
   (.ram 7, [(.chunk 7 0 22, 0), (.chunk 7 22 22, 22), (.chunk 7 44 13, 44)]),
   (.word 4, [(.chunk 4 1 21, 0), (.chunk 4 22 22, 21), (.chunk 4 44 21, 43)]),
   (.word 5, [(.chunk 4 65 1, 0), (.chunk 5 0 22, 1), (.chunk 5 22 22, 23), (.chunk 5 44 19, 45)]),
   (.word 6, [(.chunk 5 63 3, 0), (.chunk 6 0 22, 3), (.chunk 6 22 22, 25), (.chunk 6 44 17, 47)]),
   (.word 7, [(.chunk 6 61 5, 0), (.chunk 7 0 22, 5), (.chunk 7 22 22, 27), (.chunk 7 44 13, 49), (.chunk 8 0 2, 62)]),
   (.ram 8, [(.chunk 8 0 2, 0), (.chunk 8 2 20, 2), (.chunk 8 22 22, 22), (.chunk 8 44 22, 44)]),
   (.ram 9, [(.chunk 9 0 22, 0), (.chunk 9 22 22, 22), (.chunk 9 44 20, 44), (.chunk 9 64 2, 64)]),
   (.ram 10, [(.chunk 10 0 22, 0), (.chunk 10 22 22, 22), (.chunk 10 44 18, 44), (.chunk 10 62 4, 62)]),
   (.ram 11, [(.chunk 11 0 22, 0), (.chunk 11 22 22, 22), (.chunk 11 44 13, 44)]),
   (.word 8, [(.chunk 8 2 20, 0), (.chunk 8 22 22, 20), (.chunk 8 44 22, 42)]),
   (.word 9, [(.chunk 9 0 22, 0), (.chunk 9 22 22, 22), (.chunk 9 44 20, 44)]),
   (.word 10, [(.chunk 9 64 2, 0), (.chunk 10 0 22, 2), (.chunk 10 22 22, 24), (.chunk 10 44 18, 46)]),
   (.word 11, [(.chunk 10 62 4, 0), (.chunk 11 0 22, 4), (.chunk 11 22 22, 26), (.chunk 11 44 13, 48), (.chunk 12 0 3, 61)]),
   (.ram 12, [(.chunk 12 0 3, 0), (.chunk 12 3 19, 3), (.chunk 12 22 22, 22), (.chunk 12 44 22, 44)]),
   (.ram 13, [(.chunk 13 0 1, 0), (.chunk 13 1 21, 1), (.chunk 13 22 22, 22), (.chunk 13 44 21, 44), (.chunk 13 65 1, 65)]),
   (.ram 14, [(.chunk 14 0 22, 0), (.chunk 14 22 22, 22), (.chunk 14 44 19, 44), (.chunk 14 63 3, 63)]),
   (.ram 15, [(.chunk 15 0 22, 0), (.chunk 15 22 22, 22), (.chunk 15 44 13, 44)]),
   (.word 12, [(.chunk 12 3 19, 0), (.chunk 12 22 22, 19), (.chunk 12 44 22, 41), (.chunk 13 0 1, 63)]),
   (.word 13, [(.chunk 13 1 21, 0), (.chunk 13 22 22, 21), (.chunk 13 44 21, 43)]),
   (.word 14, [(.chunk 13 65 1, 0), (.chunk 14 0 22, 1), (.chunk 14 22 22, 23), (.chunk 14 44 19, 45)]),
   (.word 15, [(.chunk 14 63 3, 0), (.chunk 15 0 22, 3), (.chunk 15 22 22, 25), (.chunk 15 44 13, 47), (.chunk 16 0 4, 60)]),
   (.ram 16, [(.chunk 16 0 4, 0), (.chunk 16 4 18, 4), (.chunk 16 22 22, 22), (.chunk 16 44 22, 44)]),
   (.ram 17, [(.chunk 17 0 2, 0), (.chunk 17 2 20, 2), (.chunk 17 22 22, 22), (.chunk 17 44 22, 44)]),
   (.ram 18, [(.chunk 18 0 22, 0), (.chunk 18 22 22, 22), (.chunk 18 44 20, 44), (.chunk 18 64 2, 64)]),
   (.ram 19, [(.chunk 19 0 22, 0), (.chunk 19 22 22, 22), (.chunk 19 44 14, 44)]),
   (.word 16, [(.chunk 16 4 18, 0), (.chunk 16 22 22, 18), (.chunk 16 44 22, 40), (.chunk 17 0 2, 62)]),
   (.word 17, [(.chunk 17 2 20, 0), (.chunk 17 22 22, 20), (.chunk 17 44 22, 42)]),
   (.word 18, [(.chunk 18 0 22, 0), (.chunk 18 22 22, 22), (.chunk 18 44 20, 44)]),
   (.word 19, [(.chunk 18 64 2, 0), (.chunk 19 0 22, 2), (.chunk 19 22 22, 24), (.chunk 19 44 14, 46), (.one, 60)])] := by decide +kernel

/-- All cells of the gates are written. -/
theorem cells_written : ∀ n < 5, ∀ k ∈ gates.getD n [], ∀ q ∈ (k.col, k.rot, 0) :: k.terms,
    0 ≤ q.1 ∧ q.1 < 9 ∧ 0 ≤ 1 + 3 * (n : ℤ) + q.2.1 ∧ (srcAt (1 + 3 * (n : ℤ) + q.2.1).toNat q.1.toNat).isSome := by
  decide +kernel

section
variable {F : Type*} [Field F] {c : Cols} {inp : In} {srow : ℤ} {t : Table F}

theorem eval_sumExpr (row : ℤ) (l : List (ℤ × ℤ × ℕ)) :
    (sumExpr c l : Expr F).eval t row = sumVal (fun i r => t .witness (c.w i) (row + r)) l := by
  induction l with
  | nil => rfl
  | cons q l ih => simp only [sumExpr, sumVal, Expr.eval_add, Expr.eval_mul, Expr.eval_const, Cols.eval_wv, ih]

theorem sat_gateOps : Sat t (gateOps c srow) ↔ ∀ n < 5, ∀ k ∈ gates.getD n [],
    t .witness (c.w k.col) (srow + 1 + 3 * ((n : ℕ) : ℤ) + k.rot) = sumVal (fun i r => t .witness (c.w i) (srow + 1 + 3 * ((n : ℕ) : ℤ) + r)) k.terms := by
  simp only [gateOps, Sat, List.mem_map, List.mem_range, forall_exists_index, and_imp, forall_apply_eq_imp_iff₂, holds_gate, List.mem_singleton, forall_eq,
    Con.expr, Expr.eval_sub, Cols.eval_wv, eval_sumExpr, sub_eq_zero]

/-- The cells hold the contents. -/
def Holds (c : Cols) (srow : ℤ) (v : Src → F) (t : Table F) : Prop :=
  ∀ q ∈ layout, t .witness (c.w (q.2.1 : ℤ)) (srow + (q.1 : ℤ)) = v q.2.2

theorem Holds.rel {v : Src → F} (h : Holds c srow v t) {n : ℕ} {i r : ℤ} (h0 : 0 ≤ i) (h1 : 0 ≤ 1 + 3 * (n : ℤ) + r)
    (h2 : (srcAt (1 + 3 * (n : ℤ) + r).toNat i.toNat).isSome) : t .witness (c.w i) (srow + 1 + 3 * (n : ℤ) + r) = v (srcRel n i r) := by
  obtain ⟨s, hs⟩ := Option.isSome_iff_exists.1 h2
  have := h _ (mem_of_srcAt hs)
  simp only [Int.toNat_of_nonneg h0, Int.toNat_of_nonneg h1] at this
  unfold srcRel
  rw [hs, Option.getD_some, ← this]
  congr 1; ring

theorem sumVal_src {v : Src → F} (h : Holds c srow v t) (n : ℕ) (l : List (ℤ × ℤ × ℕ))
    (hl : ∀ q ∈ l, 0 ≤ q.1 ∧ q.1 < 9 ∧ 0 ≤ 1 + 3 * (n : ℤ) + q.2.1 ∧ (srcAt (1 + 3 * (n : ℤ) + q.2.1).toNat q.1.toNat).isSome) :
    sumVal (fun i r => t .witness (c.w i) (srow + 1 + 3 * (n : ℤ) + r)) l = srcSum v (l.map fun q => (srcRel n q.1 q.2.1, q.2.2)) := by
  induction l with
  | nil => rfl
  | cons q l ih =>
    obtain ⟨h0, -, h1, h2⟩ := hl q (by simp)
    simp only [sumVal, List.map_cons, srcSum, ih fun q hq => hl q (by simp [hq]), h.rel h0 h1 h2]

/-- The gates say that the contents satisfy `eqns`. -/
theorem Holds.sat {v : Src → F} (h : Holds c srow v t) : Sat t (gateOps c srow) ↔ ∀ e ∈ eqns, v e.1 = srcSum v e.2 := by
  rw [sat_gateOps]
  simp only [eqns, List.mem_flatMap, List.mem_range, List.mem_map, forall_exists_index, and_imp]
  constructor
  · intro hs e n hn k hk he
    subst he
    have hw := cells_written n hn k hk
    obtain ⟨h0, -, h1, h2⟩ := hw (k.col, k.rot, 0) (by simp)
    simp only []
    rw [← h.rel h0 h1 h2, hs n hn k hk, sumVal_src h n _ fun q hq => hw q (by simp [hq])]
  · intro hs n hn k hk
    have hw := cells_written n hn k hk
    obtain ⟨h0, -, h1, h2⟩ := hw (k.col, k.rot, 0) (by simp)
    rw [sumVal_src h n _ fun q hq => hw q (by simp [hq]), h.rel h0 h1 h2]
    exact hs _ n hn k hk rfl

theorem fill_grid (v : Src → F) : GridWrites c srow 9 15 (fun r j => ((srcAt r j).map v).getD 0)
    (layout.map fun q => (⟨.witness, c.w (q.2.1 : ℤ), srow + (q.1 : ℤ), v q.2.2⟩ : Write F)) := by
  intro x hx
  obtain ⟨q, hq, rfl⟩ := List.mem_map.1 hx
  obtain ⟨h1, h2, h3⟩ := layout_unique q hq
  exact ⟨q.1, h1, q.2.1, h2, by simp [h3]⟩

theorem fill_frame (hc : c.OK 9) (v : Src → F) : Frame c srow 15 t (fill c srow v t) := ((fill_grid v).own hc).frame t

theorem fill_holds (hc : c.OK 9) (v : Src → F) : Holds c srow v (fill c srow v t) := by
  intro q hq
  obtain ⟨h1, h2, h3⟩ := layout_unique q hq
  have := (fill_grid (srow := srow) v).read hc t (r := q.1) (j := q.2.1) h2 (List.mem_map.2 ⟨q, hq, by rw [h3]; rfl⟩)
  rw [h3] at this
  exact this

theorem Holds.get {v : Src → F} (h : Holds c srow v t) (r j : ℕ) {s : Src} (hs : srcAt r j = some s) :
    t .witness (c.w (j : ℤ)) (srow + (r : ℤ)) = v s := h _ (mem_of_srcAt hs)

theorem sat_copies : Sat t (copies c inp srow) ↔
    (∀ i < 4, ∀ n < 5, t .witness (c.w (2 * ((i : ℕ) : ℤ))) (srow + 3 * ((n : ℕ) : ℤ)) = (inp.limb (4 * n + i)).value t) ∧
    t .witness (c.w 6) (srow + 2) = t .witness (c.w 8) (srow + 3) ∧
    ∀ i < 3, t .witness (c.w 6) (srow + 5 + 3 * ((i : ℕ) : ℤ)) = t .witness (c.w 1) (srow + 6 + 3 * ((i : ℕ) : ℤ)) := by
  unfold copies
  simp only [sat_append, sat_cons, sat_nil, and_true, holds_copy, Cols.value_wa, and_assoc]
  refine and_congr ?_ (and_congr ?_ ?_)
  · simp only [Sat, List.mem_flatMap, List.mem_map, List.mem_range, forall_exists_index, and_imp]
    constructor
    · intro h i hi n hn; exact h _ i hi n hn rfl
    · rintro h _ i hi n hn rfl; exact h i hi n hn
  · rw [show srow + 4 - 3 + 1 = srow + 2 by ring, show srow + 4 - 1 = srow + 3 by ring]
  · simp only [Sat, List.mem_map, List.mem_range, forall_exists_index, and_imp, forall_apply_eq_imp_iff₂, holds_copy, Cols.value_wa]
    refine forall₂_congr fun i hi => ?_
    rw [show srow + 1 + 6 + 3 * (i : ℤ) - 3 + 1 = srow + 5 + 3 * (i : ℤ) by ring, show srow + 1 + 6 + 3 * (i : ℤ) - 1 = srow + 6 + 3 * (i : ℤ) by ring]

/-- The copies inside the component hold for a table with the contents. -/
theorem Holds.copies {v : Src → F} (h : Holds c srow v t) (hl : ∀ i < 20, (inp.limb i).value t = v (.ram i)) : Sat t (copies c inp srow) := by
  refine sat_copies.2 ⟨fun i hi n hn => ?_, ?_, fun i hi => ?_⟩
  · rw [hl _ (by omega)]
    have := h.get (3 * n) (2 * i) (s := .ram (4 * n + i)) (by interval_cases i <;> interval_cases n <;> decide +kernel)
    push_cast at this; exact this
  · exact (h.get 2 6 (s := .chunk 4 0 1) (by decide +kernel)).trans (h.get 3 8 (s := .chunk 4 0 1) (by decide +kernel)).symm
  · have e1 : srcAt (5 + 3 * i) 6 = srcAt (6 + 3 * i) 1 ∧ (srcAt (5 + 3 * i) 6).isSome := by interval_cases i <;> decide +kernel
    obtain ⟨s, hs⟩ := Option.isSome_iff_exists.1 e1.2
    have h1 := h.get _ _ hs
    have h2 := h.get _ _ (e1.1 ▸ hs)
    push_cast at h1 h2
    rw [← add_assoc] at h1 h2
    rw [h1]; exact h2.symm
end

/-! ## The numbers -/

/-- The ranges of the limbs: 66, 66, 66 and 57 bits (58 for the last one). -/
def InRange (x : ℕ → ℕ) : Prop := ∀ i < 20, x i < 2 ^ (if i = 19 then 58 else if i % 4 = 3 then 57 else 66)

/-- The number with four limbs of 66 bits. -/
def coord (x : ℕ → ℕ) (i : ℕ) : ℕ := x i + 2 ^ 66 * x (i + 1) + 2 ^ 132 * x (i + 2) + 2 ^ 198 * x (i + 3)

/-- The string hashed, as a number: 255 bits each of `R.x`, `R.y`, `A.x`, `A.y`, 256 bits of `M`, each least significant bit first, then a one;
the length 1276 in the last word. -/
def padded (x : ℕ → ℕ) : ℕ :=
  coord x 0 + 2 ^ 255 * coord x 4 + 2 ^ 510 * coord x 8 + 2 ^ 765 * coord x 12 + 2 ^ 1020 * coord x 16 + 2 ^ 1276 + 1276 * 2 ^ (64 * 31)

theorem InRange.bounds {x : ℕ → ℕ} (h : InRange x) :
    x 0 < 2 ^ 66 ∧ x 1 < 2 ^ 66 ∧ x 2 < 2 ^ 66 ∧ x 3 < 2 ^ 57 ∧ x 4 < 2 ^ 66 ∧ x 5 < 2 ^ 66 ∧ x 6 < 2 ^ 66 ∧ x 7 < 2 ^ 57 ∧ x 8 < 2 ^ 66 ∧ x 9 < 2 ^ 66 ∧ x 10 < 2 ^ 66 ∧ x 11 < 2 ^ 57 ∧ x 12 < 2 ^ 66 ∧ x 13 < 2 ^ 66 ∧ x 14 < 2 ^ 66 ∧ x 15 < 2 ^ 57 ∧ x 16 < 2 ^ 66 ∧ x 17 < 2 ^ 66 ∧ x 18 < 2 ^ 66 ∧ x 19 < 2 ^ 58 := by
  refine ⟨h 0 (by norm_num), h 1 (by norm_num), h 2 (by norm_num), h 3 (by norm_num), h 4 (by norm_num), h 5 (by norm_num), h 6 (by norm_num), h 7 (by norm_num), h 8 (by norm_num), h 9 (by norm_num), h 10 (by norm_num), h 11 (by norm_num), h 12 (by norm_num), h 13 (by norm_num), h 14 (by norm_num), h 15 (by norm_num), h 16 (by norm_num), h 17 (by norm_num), h 18 (by norm_num), h 19 (by norm_num)⟩

theorem eq0 (x : ℕ → ℕ) (h0 : x 0 < 2 ^ 66) : x 0 = x 0 / 2 ^ 0 % 2 ^ 22 * 2 ^ 0 + (x 0 / 2 ^ 22 % 2 ^ 22 * 2 ^ 22 + (x 0 / 2 ^ 44 % 2 ^ 20 * 2 ^ 44 + (x 0 / 2 ^ 64 % 2 ^ 2 * 2 ^ 64 + 0))) := by omega
theorem eq1 (x : ℕ → ℕ) (h1 : x 1 < 2 ^ 66) : x 1 = x 1 / 2 ^ 0 % 2 ^ 22 * 2 ^ 0 + (x 1 / 2 ^ 22 % 2 ^ 22 * 2 ^ 22 + (x 1 / 2 ^ 44 % 2 ^ 18 * 2 ^ 44 + (x 1 / 2 ^ 62 % 2 ^ 4 * 2 ^ 62 + 0))) := by omega
theorem eq2 (x : ℕ → ℕ) (h2 : x 2 < 2 ^ 66) : x 2 = x 2 / 2 ^ 0 % 2 ^ 22 * 2 ^ 0 + (x 2 / 2 ^ 22 % 2 ^ 22 * 2 ^ 22 + (x 2 / 2 ^ 44 % 2 ^ 16 * 2 ^ 44 + (x 2 / 2 ^ 60 % 2 ^ 6 * 2 ^ 60 + 0))) := by omega
theorem eq3 (x : ℕ → ℕ) (h3 : x 3 < 2 ^ 57) : x 3 = x 3 / 2 ^ 0 % 2 ^ 22 * 2 ^ 0 + (x 3 / 2 ^ 22 % 2 ^ 22 * 2 ^ 22 + (x 3 / 2 ^ 44 % 2 ^ 13 * 2 ^ 44 + 0)) := by omega
theorem eq4 (x : ℕ → ℕ) (h0 : x 0 < 2 ^ 66) : x 0 % 2 ^ 64 = x 0 / 2 ^ 0 % 2 ^ 22 * 2 ^ 0 + (x 0 / 2 ^ 22 % 2 ^ 22 * 2 ^ 22 + (x 0 / 2 ^ 44 % 2 ^ 20 * 2 ^ 44 + 0)) := by omega
theorem eq5 (x : ℕ → ℕ) (h0 : x 0 < 2 ^ 66) (h1 : x 1 < 2 ^ 66) : (x 0 / 2 ^ 64 + x 1 * 2 ^ 2) % 2 ^ 64 = x 0 / 2 ^ 64 % 2 ^ 2 * 2 ^ 0 + (x 1 / 2 ^ 0 % 2 ^ 22 * 2 ^ 2 + (x 1 / 2 ^ 22 % 2 ^ 22 * 2 ^ 24 + (x 1 / 2 ^ 44 % 2 ^ 18 * 2 ^ 46 + 0))) := by omega
theorem eq6 (x : ℕ → ℕ) (h1 : x 1 < 2 ^ 66) (h2 : x 2 < 2 ^ 66) : (x 1 / 2 ^ 62 + x 2 * 2 ^ 4) % 2 ^ 64 = x 1 / 2 ^ 62 % 2 ^ 4 * 2 ^ 0 + (x 2 / 2 ^ 0 % 2 ^ 22 * 2 ^ 4 + (x 2 / 2 ^ 22 % 2 ^ 22 * 2 ^ 26 + (x 2 / 2 ^ 44 % 2 ^ 16 * 2 ^ 48 + 0))) := by omega
theorem eq7 (x : ℕ → ℕ) (h2 : x 2 < 2 ^ 66) (h3 : x 3 < 2 ^ 57) (h4 : x 4 < 2 ^ 66) : (x 2 / 2 ^ 60 + x 3 * 2 ^ 6 + x 4 * 2 ^ 63) % 2 ^ 64 = x 2 / 2 ^ 60 % 2 ^ 6 * 2 ^ 0 + (x 3 / 2 ^ 0 % 2 ^ 22 * 2 ^ 6 + (x 3 / 2 ^ 22 % 2 ^ 22 * 2 ^ 28 + (x 3 / 2 ^ 44 % 2 ^ 13 * 2 ^ 50 + (x 4 / 2 ^ 0 % 2 ^ 1 * 2 ^ 63 + 0)))) := by omega
theorem eq8 (x : ℕ → ℕ) (h4 : x 4 < 2 ^ 66) : x 4 = x 4 / 2 ^ 0 % 2 ^ 1 * 2 ^ 0 + (x 4 / 2 ^ 1 % 2 ^ 21 * 2 ^ 1 + (x 4 / 2 ^ 22 % 2 ^ 22 * 2 ^ 22 + (x 4 / 2 ^ 44 % 2 ^ 21 * 2 ^ 44 + (x 4 / 2 ^ 65 % 2 ^ 1 * 2 ^ 65 + 0)))) := by omega
theorem eq9 (x : ℕ → ℕ) (h5 : x 5 < 2 ^ 66) : x 5 = x 5 / 2 ^ 0 % 2 ^ 22 * 2 ^ 0 + (x 5 / 2 ^ 22 % 2 ^ 22 * 2 ^ 22 + (x 5 / 2 ^ 44 % 2 ^ 19 * 2 ^ 44 + (x 5 / 2 ^ 63 % 2 ^ 3 * 2 ^ 63 + 0))) := by omega
theorem eq10 (x : ℕ → ℕ) (h6 : x 6 < 2 ^ 66) : x 6 = x 6 / 2 ^ 0 % 2 ^ 22 * 2 ^ 0 + (x 6 / 2 ^ 22 % 2 ^ 22 * 2 ^ 22 + (x 6 / 2 ^ 44 % 2 ^ 17 * 2 ^ 44 + (x 6 / 2 ^ 61 % 2 ^ 5 * 2 ^ 61 + 0))) := by omega
theorem eq11 (x : ℕ → ℕ) (h7 : x 7 < 2 ^ 57) : x 7 = x 7 / 2 ^ 0 % 2 ^ 22 * 2 ^ 0 + (x 7 / 2 ^ 22 % 2 ^ 22 * 2 ^ 22 + (x 7 / 2 ^ 44 % 2 ^ 13 * 2 ^ 44 + 0)) := by omega
theorem eq12 (x : ℕ → ℕ) (h4 : x 4 < 2 ^ 66) : x 4 / 2 ^ 1 % 2 ^ 64 = x 4 / 2 ^ 1 % 2 ^ 21 * 2 ^ 0 + (x 4 / 2 ^ 22 % 2 ^ 22 * 2 ^ 21 + (x 4 / 2 ^ 44 % 2 ^ 21 * 2 ^ 43 + 0)) := by omega
theorem eq13 (x : ℕ → ℕ) (h4 : x 4 < 2 ^ 66) (h5 : x 5 < 2 ^ 66) : (x 4 / 2 ^ 65 + x 5 * 2 ^ 1) % 2 ^ 64 = x 4 / 2 ^ 65 % 2 ^ 1 * 2 ^ 0 + (x 5 / 2 ^ 0 % 2 ^ 22 * 2 ^ 1 + (x 5 / 2 ^ 22 % 2 ^ 22 * 2 ^ 23 + (x 5 / 2 ^ 44 % 2 ^ 19 * 2 ^ 45 + 0))) := by omega
theorem eq14 (x : ℕ → ℕ) (h5 : x 5 < 2 ^ 66) (h6 : x 6 < 2 ^ 66) : (x 5 / 2 ^ 63 + x 6 * 2 ^ 3) % 2 ^ 64 = x 5 / 2 ^ 63 % 2 ^ 3 * 2 ^ 0 + (x 6 / 2 ^ 0 % 2 ^ 22 * 2 ^ 3 + (x 6 / 2 ^ 22 % 2 ^ 22 * 2 ^ 25 + (x 6 / 2 ^ 44 % 2 ^ 17 * 2 ^ 47 + 0))) := by omega
theorem eq15 (x : ℕ → ℕ) (h6 : x 6 < 2 ^ 66) (h7 : x 7 < 2 ^ 57) (h8 : x 8 < 2 ^ 66) : (x 6 / 2 ^ 61 + x 7 * 2 ^ 5 + x 8 * 2 ^ 62) % 2 ^ 64 = x 6 / 2 ^ 61 % 2 ^ 5 * 2 ^ 0 + (x 7 / 2 ^ 0 % 2 ^ 22 * 2 ^ 5 + (x 7 / 2 ^ 22 % 2 ^ 22 * 2 ^ 27 + (x 7 / 2 ^ 44 % 2 ^ 13 * 2 ^ 49 + (x 8 / 2 ^ 0 % 2 ^ 2 * 2 ^ 62 + 0)))) := by omega
theorem eq16 (x : ℕ → ℕ) (h8 : x 8 < 2 ^ 66) : x 8 = x 8 / 2 ^ 0 % 2 ^ 2 * 2 ^ 0 + (x 8 / 2 ^ 2 % 2 ^ 20 * 2 ^ 2 + (x 8 / 2 ^ 22 % 2 ^ 22 * 2 ^ 22 + (x 8 / 2 ^ 44 % 2 ^ 22 * 2 ^ 44 + 0))) := by omega
theorem eq17 (x : ℕ → ℕ) (h9 : x 9 < 2 ^ 66) : x 9 = x 9 / 2 ^ 0 % 2 ^ 22 * 2 ^ 0 + (x 9 / 2 ^ 22 % 2 ^ 22 * 2 ^ 22 + (x 9 / 2 ^ 44 % 2 ^ 20 * 2 ^ 44 + (x 9 / 2 ^ 64 % 2 ^ 2 * 2 ^ 64 + 0))) := by omega
theorem eq18 (x : ℕ → ℕ) (h10 : x 10 < 2 ^ 66) : x 10 = x 10 / 2 ^ 0 % 2 ^ 22 * 2 ^ 0 + (x 10 / 2 ^ 22 % 2 ^ 22 * 2 ^ 22 + (x 10 / 2 ^ 44 % 2 ^ 18 * 2 ^ 44 + (x 10 / 2 ^ 62 % 2 ^ 4 * 2 ^ 62 + 0))) := by omega
theorem eq19 (x : ℕ → ℕ) (h11 : x 11 < 2 ^ 57) : x 11 = x 11 / 2 ^ 0 % 2 ^ 22 * 2 ^ 0 + (x 11 / 2 ^ 22 % 2 ^ 22 * 2 ^ 22 + (x 11 / 2 ^ 44 % 2 ^ 13 * 2 ^ 44 + 0)) := by omega
theorem eq20 (x : ℕ → ℕ) (h8 : x 8 < 2 ^ 66) : x 8 / 2 ^ 2 % 2 ^ 64 = x 8 / 2 ^ 2 % 2 ^ 20 * 2 ^ 0 + (x 8 / 2 ^ 22 % 2 ^ 22 * 2 ^ 20 + (x 8 / 2 ^ 44 % 2 ^ 22 * 2 ^ 42 + 0)) := by omega
theorem eq21 (x : ℕ → ℕ) (h9 : x 9 < 2 ^ 66) : x 9 % 2 ^ 64 = x 9 / 2 ^ 0 % 2 ^ 22 * 2 ^ 0 + (x 9 / 2 ^ 22 % 2 ^ 22 * 2 ^ 22 + (x 9 / 2 ^ 44 % 2 ^ 20 * 2 ^ 44 + 0)) := by omega
theorem eq22 (x : ℕ → ℕ) (h9 : x 9 < 2 ^ 66) (h10 : x 10 < 2 ^ 66) : (x 9 / 2 ^ 64 + x 10 * 2 ^ 2) % 2 ^ 64 = x 9 / 2 ^ 64 % 2 ^ 2 * 2 ^ 0 + (x 10 / 2 ^ 0 % 2 ^ 22 * 2 ^ 2 + (x 10 / 2 ^ 22 % 2 ^ 22 * 2 ^ 24 + (x 10 / 2 ^ 44 % 2 ^ 18 * 2 ^ 46 + 0))) := by omega
theorem eq23 (x : ℕ → ℕ) (h10 : x 10 < 2 ^ 66) (h11 : x 11 < 2 ^ 57) (h12 : x 12 < 2 ^ 66) : (x 10 / 2 ^ 62 + x 11 * 2 ^ 4 + x 12 * 2 ^ 61) % 2 ^ 64 = x 10 / 2 ^ 62 % 2 ^ 4 * 2 ^ 0 + (x 11 / 2 ^ 0 % 2 ^ 22 * 2 ^ 4 + (x 11 / 2 ^ 22 % 2 ^ 22 * 2 ^ 26 + (x 11 / 2 ^ 44 % 2 ^ 13 * 2 ^ 48 + (x 12 / 2 ^ 0 % 2 ^ 3 * 2 ^ 61 + 0)))) := by omega
theorem eq24 (x : ℕ → ℕ) (h12 : x 12 < 2 ^ 66) : x 12 = x 12 / 2 ^ 0 % 2 ^ 3 * 2 ^ 0 + (x 12 / 2 ^ 3 % 2 ^ 19 * 2 ^ 3 + (x 12 / 2 ^ 22 % 2 ^ 22 * 2 ^ 22 + (x 12 / 2 ^ 44 % 2 ^ 22 * 2 ^ 44 + 0))) := by omega
theorem eq25 (x : ℕ → ℕ) (h13 : x 13 < 2 ^ 66) : x 13 = x 13 / 2 ^ 0 % 2 ^ 1 * 2 ^ 0 + (x 13 / 2 ^ 1 % 2 ^ 21 * 2 ^ 1 + (x 13 / 2 ^ 22 % 2 ^ 22 * 2 ^ 22 + (x 13 / 2 ^ 44 % 2 ^ 21 * 2 ^ 44 + (x 13 / 2 ^ 65 % 2 ^ 1 * 2 ^ 65 + 0)))) := by omega
theorem eq26 (x : ℕ → ℕ) (h14 : x 14 < 2 ^ 66) : x 14 = x 14 / 2 ^ 0 % 2 ^ 22 * 2 ^ 0 + (x 14 / 2 ^ 22 % 2 ^ 22 * 2 ^ 22 + (x 14 / 2 ^ 44 % 2 ^ 19 * 2 ^ 44 + (x 14 / 2 ^ 63 % 2 ^ 3 * 2 ^ 63 + 0))) := by omega
theorem eq27 (x : ℕ → ℕ) (h15 : x 15 < 2 ^ 57) : x 15 = x 15 / 2 ^ 0 % 2 ^ 22 * 2 ^ 0 + (x 15 / 2 ^ 22 % 2 ^ 22 * 2 ^ 22 + (x 15 / 2 ^ 44 % 2 ^ 13 * 2 ^ 44 + 0)) := by omega
theorem eq28 (x : ℕ → ℕ) (h12 : x 12 < 2 ^ 66) (h13 : x 13 < 2 ^ 66) : (x 12 / 2 ^ 3 + x 13 * 2 ^ 63) % 2 ^ 64 = x 12 / 2 ^ 3 % 2 ^ 19 * 2 ^ 0 + (x 12 / 2 ^ 22 % 2 ^ 22 * 2 ^ 19 + (x 12 / 2 ^ 44 % 2 ^ 22 * 2 ^ 41 + (x 13 / 2 ^ 0 % 2 ^ 1 * 2 ^ 63 + 0))) := by omega
theorem eq29 (x : ℕ → ℕ) (h13 : x 13 < 2 ^ 66) : x 13 / 2 ^ 1 % 2 ^ 64 = x 13 / 2 ^ 1 % 2 ^ 21 * 2 ^ 0 + (x 13 / 2 ^ 22 % 2 ^ 22 * 2 ^ 21 + (x 13 / 2 ^ 44 % 2 ^ 21 * 2 ^ 43 + 0)) := by omega
theorem eq30 (x : ℕ → ℕ) (h13 : x 13 < 2 ^ 66) (h14 : x 14 < 2 ^ 66) : (x 13 / 2 ^ 65 + x 14 * 2 ^ 1) % 2 ^ 64 = x 13 / 2 ^ 65 % 2 ^ 1 * 2 ^ 0 + (x 14 / 2 ^ 0 % 2 ^ 22 * 2 ^ 1 + (x 14 / 2 ^ 22 % 2 ^ 22 * 2 ^ 23 + (x 14 / 2 ^ 44 % 2 ^ 19 * 2 ^ 45 + 0))) := by omega
theorem eq31 (x : ℕ → ℕ) (h14 : x 14 < 2 ^ 66) (h15 : x 15 < 2 ^ 57) (h16 : x 16 < 2 ^ 66) : (x 14 / 2 ^ 63 + x 15 * 2 ^ 3 + x 16 * 2 ^ 60) % 2 ^ 64 = x 14 / 2 ^ 63 % 2 ^ 3 * 2 ^ 0 + (x 15 / 2 ^ 0 % 2 ^ 22 * 2 ^ 3 + (x 15 / 2 ^ 22 % 2 ^ 22 * 2 ^ 25 + (x 15 / 2 ^ 44 % 2 ^ 13 * 2 ^ 47 + (x 16 / 2 ^ 0 % 2 ^ 4 * 2 ^ 60 + 0)))) := by omega
theorem eq32 (x : ℕ → ℕ) (h16 : x 16 < 2 ^ 66) : x 16 = x 16 / 2 ^ 0 % 2 ^ 4 * 2 ^ 0 + (x 16 / 2 ^ 4 % 2 ^ 18 * 2 ^ 4 + (x 16 / 2 ^ 22 % 2 ^ 22 * 2 ^ 22 + (x 16 / 2 ^ 44 % 2 ^ 22 * 2 ^ 44 + 0))) := by omega
theorem eq33 (x : ℕ → ℕ) (h17 : x 17 < 2 ^ 66) : x 17 = x 17 / 2 ^ 0 % 2 ^ 2 * 2 ^ 0 + (x 17 / 2 ^ 2 % 2 ^ 20 * 2 ^ 2 + (x 17 / 2 ^ 22 % 2 ^ 22 * 2 ^ 22 + (x 17 / 2 ^ 44 % 2 ^ 22 * 2 ^ 44 + 0))) := by omega
theorem eq34 (x : ℕ → ℕ) (h18 : x 18 < 2 ^ 66) : x 18 = x 18 / 2 ^ 0 % 2 ^ 22 * 2 ^ 0 + (x 18 / 2 ^ 22 % 2 ^ 22 * 2 ^ 22 + (x 18 / 2 ^ 44 % 2 ^ 20 * 2 ^ 44 + (x 18 / 2 ^ 64 % 2 ^ 2 * 2 ^ 64 + 0))) := by omega
theorem eq35 (x : ℕ → ℕ) (h19 : x 19 < 2 ^ 58) : x 19 = x 19 / 2 ^ 0 % 2 ^ 22 * 2 ^ 0 + (x 19 / 2 ^ 22 % 2 ^ 22 * 2 ^ 22 + (x 19 / 2 ^ 44 % 2 ^ 14 * 2 ^ 44 + 0)) := by omega
theorem eq36 (x : ℕ → ℕ) (h16 : x 16 < 2 ^ 66) (h17 : x 17 < 2 ^ 66) : (x 16 / 2 ^ 4 + x 17 * 2 ^ 62) % 2 ^ 64 = x 16 / 2 ^ 4 % 2 ^ 18 * 2 ^ 0 + (x 16 / 2 ^ 22 % 2 ^ 22 * 2 ^ 18 + (x 16 / 2 ^ 44 % 2 ^ 22 * 2 ^ 40 + (x 17 / 2 ^ 0 % 2 ^ 2 * 2 ^ 62 + 0))) := by omega
theorem eq37 (x : ℕ → ℕ) (h17 : x 17 < 2 ^ 66) : x 17 / 2 ^ 2 % 2 ^ 64 = x 17 / 2 ^ 2 % 2 ^ 20 * 2 ^ 0 + (x 17 / 2 ^ 22 % 2 ^ 22 * 2 ^ 20 + (x 17 / 2 ^ 44 % 2 ^ 22 * 2 ^ 42 + 0)) := by omega
theorem eq38 (x : ℕ → ℕ) (h18 : x 18 < 2 ^ 66) : x 18 % 2 ^ 64 = x 18 / 2 ^ 0 % 2 ^ 22 * 2 ^ 0 + (x 18 / 2 ^ 22 % 2 ^ 22 * 2 ^ 22 + (x 18 / 2 ^ 44 % 2 ^ 20 * 2 ^ 44 + 0)) := by omega
theorem eq39 (x : ℕ → ℕ) (h18 : x 18 < 2 ^ 66) (h19 : x 19 < 2 ^ 58) : x 18 / 2 ^ 64 + x 19 * 2 ^ 2 + 2 ^ 60 = x 18 / 2 ^ 64 % 2 ^ 2 * 2 ^ 0 + (x 19 / 2 ^ 0 % 2 ^ 22 * 2 ^ 2 + (x 19 / 2 ^ 22 % 2 ^ 22 * 2 ^ 24 + (x 19 / 2 ^ 44 % 2 ^ 14 * 2 ^ 46 + (1 * 2 ^ 60 + 0)))) := by omega

theorem word0 (x : ℕ → ℕ) : srcValue x (.word 0) = x 0 % 2 ^ 64 := by
  simp only [srcValue, wordValue, wordList, List.getD_cons_succ, List.getD_cons_zero, Nat.reduceEqDiff, if_false]
theorem word1 (x : ℕ → ℕ) : srcValue x (.word 1) = (x 0 / 2 ^ 64 + x 1 * 2 ^ 2) % 2 ^ 64 := by
  simp only [srcValue, wordValue, wordList, List.getD_cons_succ, List.getD_cons_zero, Nat.reduceEqDiff, if_false]
theorem word2 (x : ℕ → ℕ) : srcValue x (.word 2) = (x 1 / 2 ^ 62 + x 2 * 2 ^ 4) % 2 ^ 64 := by
  simp only [srcValue, wordValue, wordList, List.getD_cons_succ, List.getD_cons_zero, Nat.reduceEqDiff, if_false]
theorem word3 (x : ℕ → ℕ) : srcValue x (.word 3) = (x 2 / 2 ^ 60 + x 3 * 2 ^ 6 + x 4 * 2 ^ 63) % 2 ^ 64 := by
  simp only [srcValue, wordValue, wordList, List.getD_cons_succ, List.getD_cons_zero, Nat.reduceEqDiff, if_false]
theorem word4 (x : ℕ → ℕ) : srcValue x (.word 4) = x 4 / 2 ^ 1 % 2 ^ 64 := by
  simp only [srcValue, wordValue, wordList, List.getD_cons_succ, List.getD_cons_zero, Nat.reduceEqDiff, if_false]
theorem word5 (x : ℕ → ℕ) : srcValue x (.word 5) = (x 4 / 2 ^ 65 + x 5 * 2 ^ 1) % 2 ^ 64 := by
  simp only [srcValue, wordValue, wordList, List.getD_cons_succ, List.getD_cons_zero, Nat.reduceEqDiff, if_false]
theorem word6 (x : ℕ → ℕ) : srcValue x (.word 6) = (x 5 / 2 ^ 63 + x 6 * 2 ^ 3) % 2 ^ 64 := by
  simp only [srcValue, wordValue, wordList, List.getD_cons_succ, List.getD_cons_zero, Nat.reduceEqDiff, if_false]
theorem word7 (x : ℕ → ℕ) : srcValue x (.word 7) = (x 6 / 2 ^ 61 + x 7 * 2 ^ 5 + x 8 * 2 ^ 62) % 2 ^ 64 := by
  simp only [srcValue, wordValue, wordList, List.getD_cons_succ, List.getD_cons_zero, Nat.reduceEqDiff, if_false]
theorem word8 (x : ℕ → ℕ) : srcValue x (.word 8) = x 8 / 2 ^ 2 % 2 ^ 64 := by
  simp only [srcValue, wordValue, wordList, List.getD_cons_succ, List.getD_cons_zero, Nat.reduceEqDiff, if_false]
theorem word9 (x : ℕ → ℕ) : srcValue x (.word 9) = x 9 % 2 ^ 64 := by
  simp only [srcValue, wordValue, wordList, List.getD_cons_succ, List.getD_cons_zero, Nat.reduceEqDiff, if_false]
theorem word10 (x : ℕ → ℕ) : srcValue x (.word 10) = (x 9 / 2 ^ 64 + x 10 * 2 ^ 2) % 2 ^ 64 := by
  simp only [srcValue, wordValue, wordList, List.getD_cons_succ, List.getD_cons_zero, Nat.reduceEqDiff, if_false]
theorem word11 (x : ℕ → ℕ) : srcValue x (.word 11) = (x 10 / 2 ^ 62 + x 11 * 2 ^ 4 + x 12 * 2 ^ 61) % 2 ^ 64 := by
  simp only [srcValue, wordValue, wordList, List.getD_cons_succ, List.getD_cons_zero, Nat.reduceEqDiff, if_false]
theorem word12 (x : ℕ → ℕ) : srcValue x (.word 12) = (x 12 / 2 ^ 3 + x 13 * 2 ^ 63) % 2 ^ 64 := by
  simp only [srcValue, wordValue, wordList, List.getD_cons_succ, List.getD_cons_zero, Nat.reduceEqDiff, if_false]
theorem word13 (x : ℕ → ℕ) : srcValue x (.word 13) = x 13 / 2 ^ 1 % 2 ^ 64 := by
  simp only [srcValue, wordValue, wordList, List.getD_cons_succ, List.getD_cons_zero, Nat.reduceEqDiff, if_false]
theorem word14 (x : ℕ → ℕ) : srcValue x (.word 14) = (x 13 / 2 ^ 65 + x 14 * 2 ^ 1) % 2 ^ 64 := by
  simp only [srcValue, wordValue, wordList, List.getD_cons_succ, List.getD_cons_zero, Nat.reduceEqDiff, if_false]
theorem word15 (x : ℕ → ℕ) : srcValue x (.word 15) = (x 14 / 2 ^ 63 + x 15 * 2 ^ 3 + x 16 * 2 ^ 60) % 2 ^ 64 := by
  simp only [srcValue, wordValue, wordList, List.getD_cons_succ, List.getD_cons_zero, Nat.reduceEqDiff, if_false]
theorem word16 (x : ℕ → ℕ) : srcValue x (.word 16) = (x 16 / 2 ^ 4 + x 17 * 2 ^ 62) % 2 ^ 64 := by
  simp only [srcValue, wordValue, wordList, List.getD_cons_succ, List.getD_cons_zero, Nat.reduceEqDiff, if_false]
theorem word17 (x : ℕ → ℕ) : srcValue x (.word 17) = x 17 / 2 ^ 2 % 2 ^ 64 := by
  simp only [srcValue, wordValue, wordList, List.getD_cons_succ, List.getD_cons_zero, Nat.reduceEqDiff, if_false]
theorem word18 (x : ℕ → ℕ) : srcValue x (.word 18) = x 18 % 2 ^ 64 := by
  simp only [srcValue, wordValue, wordList, List.getD_cons_succ, List.getD_cons_zero, Nat.reduceEqDiff, if_false]
theorem word19 (x : ℕ → ℕ) : srcValue x (.word 19) = x 18 / 2 ^ 64 + x 19 * 2 ^ 2 + 2 ^ 60 := by
  simp only [srcValue, wordValue, wordList, List.getD_cons_succ, List.getD_cons_zero, Nat.reduceEqDiff, if_false]

theorem srcSum_nil (v : Src → ℕ) : srcSum v [] = 0 := rfl
theorem srcSum_cons (v : Src → ℕ) (s : Src) (e : ℕ) (l : List (Src × ℕ)) : srcSum v ((s, e) :: l) = v s * 2 ^ e + srcSum v l := by
  rw [srcSum, Nat.cast_id]

/-- The contents computed by `generate_assignments` satisfy the constraints. -/
theorem eqns_nat {x : ℕ → ℕ} (h : InRange x) : ∀ e ∈ eqns, srcValue x e.1 = srcSum (srcValue x) e.2 := by
  obtain ⟨h0, h1, h2, h3, h4, h5, h6, h7, h8, h9, h10, h11, h12, h13, h14, h15, h16, h17, h18, h19⟩ := h.bounds
  rw [eqns_eq]
  simp only [List.forall_mem_cons, srcSum_cons, srcSum_nil, word0, word1, word2, word3, word4, word5, word6, word7, word8, word9, word10, word11, word12, word13, word14, word15, word16, word17, word18, word19]
  exact ⟨eq0 x h0, eq1 x h1, eq2 x h2, eq3 x h3, eq4 x h0, eq5 x h0 h1, eq6 x h1 h2, eq7 x h2 h3 h4, eq8 x h4, eq9 x h5, eq10 x h6, eq11 x h7, eq12 x h4, eq13 x h4 h5, eq14 x h5 h6, eq15 x h6 h7 h8, eq16 x h8, eq17 x h9, eq18 x h10, eq19 x h11, eq20 x h8, eq21 x h9, eq22 x h9 h10, eq23 x h10 h11 h12, eq24 x h12, eq25 x h13, eq26 x h14, eq27 x h15, eq28 x h12 h13, eq29 x h13, eq30 x h13 h14, eq31 x h14 h15 h16, eq32 x h16, eq33 x h17, eq34 x h18, eq35 x h19, eq36 x h16 h17, eq37 x h17, eq38 x h18, eq39 x h18 h19, fun _ hx => absurd hx List.not_mem_nil⟩

theorem word_zero (x : ℕ → ℕ) (i : ℕ) (h1 : 20 ≤ i) (h2 : i < 31) : wordValue x i = 0 := by
  unfold wordValue
  rw [if_neg (by omega), List.getD_eq_default _ _ (by simpa [wordList] using h1)]

theorem word_last (x : ℕ → ℕ) : wordValue x 31 = 1276 := by
  unfold wordValue; rw [if_pos rfl]

theorem word_nineteen (x : ℕ → ℕ) : wordValue x 19 = x 18 / 2 ^ 64 + x 19 * 2 ^ 2 + 2 ^ 60 := (rfl : wordValue x 19 = srcValue x (.word 19)).trans (word19 x)

theorem word_lt {x : ℕ → ℕ} (h : InRange x) (i : ℕ) (hi : i < 32) : wordValue x i < 2 ^ 64 := by
  have h18 : x 18 < 2 ^ 66 := h 18 (by norm_num)
  have h19 : x 19 < 2 ^ 58 := h 19 (by norm_num)
  rcases Nat.lt_or_ge i 19 with h1 | h1
  · have hm : ∃ v, wordValue x i = v % 2 ^ 64 := by
      unfold wordValue
      rw [if_neg (by omega)]
      interval_cases i
      · exact ⟨_, word0 x⟩
      · exact ⟨_, word1 x⟩
      · exact ⟨_, word2 x⟩
      · exact ⟨_, word3 x⟩
      · exact ⟨_, word4 x⟩
      · exact ⟨_, word5 x⟩
      · exact ⟨_, word6 x⟩
      · exact ⟨_, word7 x⟩
      · exact ⟨_, word8 x⟩
      · exact ⟨_, word9 x⟩
      · exact ⟨_, word10 x⟩
      · exact ⟨_, word11 x⟩
      · exact ⟨_, word12 x⟩
      · exact ⟨_, word13 x⟩
      · exact ⟨_, word14 x⟩
      · exact ⟨_, word15 x⟩
      · exact ⟨_, word16 x⟩
      · exact ⟨_, word17 x⟩
      · exact ⟨_, word18 x⟩
    obtain ⟨v, hv⟩ := hm
    rw [hv]; exact Nat.mod_lt _ (by norm_num)
  · rcases Nat.lt_or_ge i 20 with h2 | h2
    · obtain rfl : i = 19 := by omega
      rw [word_nineteen]; omega
    · rcases Nat.lt_or_ge i 31 with h3 | h3
      · rw [word_zero x i h2 h3]; norm_num
      · obtain rfl : i = 31 := by omega
        rw [word_last]; norm_num

set_option exponentiation.threshold 3000 in
set_option maxHeartbeats 4000000 in
theorem pack_ring (x0 x1 x2 x3 x4 x5 x6 x7 x8 x9 x10 x11 x12 x13 x14 x15 x16 x17 x18 x19 w0 w1 w2 w3 w4 w5 w6 w7 w8 w9 w10 w11 w12 w13 w14 w15 w16 w17 w18 w19 c0 c1 c2 c3 c4 c5 c6 c7 c8 c9 c10 c11 c12 c13 c14 c15 c16 c17 c18 c19 c20 c21 c22 c23 c24 c25 c26 c27 c28 c29 c30 c31 c32 c33 c34 c35 c36 c37 c38 c39 c40 c41 c42 c43 c44 c45 c46 c47 c48 c49 c50 c51 c52 c53 c54 c55 c56 c57 c58 c59 c60 c61 c62 c63 c64 c65 c66 c67 c68 c69 c70 c71 c72 c73 c74 c75 c76 : ℕ)
    (a0 : x0 = c0 * 2 ^ 0 + (c1 * 2 ^ 22 + (c2 * 2 ^ 44 + (c3 * 2 ^ 64 + 0))))
    (a1 : x1 = c4 * 2 ^ 0 + (c5 * 2 ^ 22 + (c6 * 2 ^ 44 + (c7 * 2 ^ 62 + 0))))
    (a2 : x2 = c8 * 2 ^ 0 + (c9 * 2 ^ 22 + (c10 * 2 ^ 44 + (c11 * 2 ^ 60 + 0))))
    (a3 : x3 = c12 * 2 ^ 0 + (c13 * 2 ^ 22 + (c14 * 2 ^ 44 + 0)))
    (a4 : x4 = c15 * 2 ^ 0 + (c16 * 2 ^ 1 + (c17 * 2 ^ 22 + (c18 * 2 ^ 44 + (c19 * 2 ^ 65 + 0)))))
    (a5 : x5 = c20 * 2 ^ 0 + (c21 * 2 ^ 22 + (c22 * 2 ^ 44 + (c23 * 2 ^ 63 + 0))))
    (a6 : x6 = c24 * 2 ^ 0 + (c25 * 2 ^ 22 + (c26 * 2 ^ 44 + (c27 * 2 ^ 61 + 0))))
    (a7 : x7 = c28 * 2 ^ 0 + (c29 * 2 ^ 22 + (c30 * 2 ^ 44 + 0)))
    (a8 : x8 = c31 * 2 ^ 0 + (c32 * 2 ^ 2 + (c33 * 2 ^ 22 + (c34 * 2 ^ 44 + 0))))
    (a9 : x9 = c35 * 2 ^ 0 + (c36 * 2 ^ 22 + (c37 * 2 ^ 44 + (c38 * 2 ^ 64 + 0))))
    (a10 : x10 = c39 * 2 ^ 0 + (c40 * 2 ^ 22 + (c41 * 2 ^ 44 + (c42 * 2 ^ 62 + 0))))
    (a11 : x11 = c43 * 2 ^ 0 + (c44 * 2 ^ 22 + (c45 * 2 ^ 44 + 0)))
    (a12 : x12 = c46 * 2 ^ 0 + (c47 * 2 ^ 3 + (c48 * 2 ^ 22 + (c49 * 2 ^ 44 + 0))))
    (a13 : x13 = c50 * 2 ^ 0 + (c51 * 2 ^ 1 + (c52 * 2 ^ 22 + (c53 * 2 ^ 44 + (c54 * 2 ^ 65 + 0)))))
    (a14 : x14 = c55 * 2 ^ 0 + (c56 * 2 ^ 22 + (c57 * 2 ^ 44 + (c58 * 2 ^ 63 + 0))))
    (a15 : x15 = c59 * 2 ^ 0 + (c60 * 2 ^ 22 + (c61 * 2 ^ 44 + 0)))
    (a16 : x16 = c62 * 2 ^ 0 + (c63 * 2 ^ 4 + (c64 * 2 ^ 22 + (c65 * 2 ^ 44 + 0))))
    (a17 : x17 = c66 * 2 ^ 0 + (c67 * 2 ^ 2 + (c68 * 2 ^ 22 + (c69 * 2 ^ 44 + 0))))
    (a18 : x18 = c70 * 2 ^ 0 + (c71 * 2 ^ 22 + (c72 * 2 ^ 44 + (c73 * 2 ^ 64 + 0))))
    (a19 : x19 = c74 * 2 ^ 0 + (c75 * 2 ^ 22 + (c76 * 2 ^ 44 + 0)))
    (b0 : w0 = c0 * 2 ^ 0 + (c1 * 2 ^ 22 + (c2 * 2 ^ 44 + 0)))
    (b1 : w1 = c3 * 2 ^ 0 + (c4 * 2 ^ 2 + (c5 * 2 ^ 24 + (c6 * 2 ^ 46 + 0))))
    (b2 : w2 = c7 * 2 ^ 0 + (c8 * 2 ^ 4 + (c9 * 2 ^ 26 + (c10 * 2 ^ 48 + 0))))
    (b3 : w3 = c11 * 2 ^ 0 + (c12 * 2 ^ 6 + (c13 * 2 ^ 28 + (c14 * 2 ^ 50 + (c15 * 2 ^ 63 + 0)))))
    (b4 : w4 = c16 * 2 ^ 0 + (c17 * 2 ^ 21 + (c18 * 2 ^ 43 + 0)))
    (b5 : w5 = c19 * 2 ^ 0 + (c20 * 2 ^ 1 + (c21 * 2 ^ 23 + (c22 * 2 ^ 45 + 0))))
    (b6 : w6 = c23 * 2 ^ 0 + (c24 * 2 ^ 3 + (c25 * 2 ^ 25 + (c26 * 2 ^ 47 + 0))))
    (b7 : w7 = c27 * 2 ^ 0 + (c28 * 2 ^ 5 + (c29 * 2 ^ 27 + (c30 * 2 ^ 49 + (c31 * 2 ^ 62 + 0)))))
    (b8 : w8 = c32 * 2 ^ 0 + (c33 * 2 ^ 20 + (c34 * 2 ^ 42 + 0)))
    (b9 : w9 = c35 * 2 ^ 0 + (c36 * 2 ^ 22 + (c37 * 2 ^ 44 + 0)))
    (b10 : w10 = c38 * 2 ^ 0 + (c39 * 2 ^ 2 + (c40 * 2 ^ 24 + (c41 * 2 ^ 46 + 0))))
    (b11 : w11 = c42 * 2 ^ 0 + (c43 * 2 ^ 4 + (c44 * 2 ^ 26 + (c45 * 2 ^ 48 + (c46 * 2 ^ 61 + 0)))))
    (b12 : w12 = c47 * 2 ^ 0 + (c48 * 2 ^ 19 + (c49 * 2 ^ 41 + (c50 * 2 ^ 63 + 0))))
    (b13 : w13 = c51 * 2 ^ 0 + (c52 * 2 ^ 21 + (c53 * 2 ^ 43 + 0)))
    (b14 : w14 = c54 * 2 ^ 0 + (c55 * 2 ^ 1 + (c56 * 2 ^ 23 + (c57 * 2 ^ 45 + 0))))
    (b15 : w15 = c58 * 2 ^ 0 + (c59 * 2 ^ 3 + (c60 * 2 ^ 25 + (c61 * 2 ^ 47 + (c62 * 2 ^ 60 + 0)))))
    (b16 : w16 = c63 * 2 ^ 0 + (c64 * 2 ^ 18 + (c65 * 2 ^ 40 + (c66 * 2 ^ 62 + 0))))
    (b17 : w17 = c67 * 2 ^ 0 + (c68 * 2 ^ 20 + (c69 * 2 ^ 42 + 0)))
    (b18 : w18 = c70 * 2 ^ 0 + (c71 * 2 ^ 22 + (c72 * 2 ^ 44 + 0)))
    (b19 : w19 = c73 * 2 ^ 0 + (c74 * 2 ^ 2 + (c75 * 2 ^ 24 + (c76 * 2 ^ 46 + (1 * 2 ^ 60 + 0)))))
    : (x0 + 2 ^ 66 * x1 + 2 ^ 132 * x2 + 2 ^ 198 * x3) + 2 ^ 255 * (x4 + 2 ^ 66 * x5 + 2 ^ 132 * x6 + 2 ^ 198 * x7) + 2 ^ 510 * (x8 + 2 ^ 66 * x9 + 2 ^ 132 * x10 + 2 ^ 198 * x11) + 2 ^ 765 * (x12 + 2 ^ 66 * x13 + 2 ^ 132 * x14 + 2 ^ 198 * x15) + 2 ^ 1020 * (x16 + 2 ^ 66 * x17 + 2 ^ 132 * x18 + 2 ^ 198 * x19) + 2 ^ 1276 + 1276 * 2 ^ (64 * 31) =
      w0 + 2 ^ 64 * (w1 + 2 ^ 64 * (w2 + 2 ^ 64 * (w3 + 2 ^ 64 * (w4 + 2 ^ 64 * (w5 + 2 ^ 64 * (w6 + 2 ^ 64 * (w7 + 2 ^ 64 * (w8 + 2 ^ 64 * (w9 + 2 ^ 64 * (w10 + 2 ^ 64 * (w11 + 2 ^ 64 * (w12 + 2 ^ 64 * (w13 + 2 ^ 64 * (w14 + 2 ^ 64 * (w15 + 2 ^ 64 * (w16 + 2 ^ 64 * (w17 + 2 ^ 64 * (w18 + 2 ^ 64 * (w19 + 2 ^ 64 * (0 + 2 ^ 64 * (0 + 2 ^ 64 * (0 + 2 ^ 64 * (0 + 2 ^ 64 * (0 + 2 ^ 64 * (0 + 2 ^ 64 * (0 + 2 ^ 64 * (0 + 2 ^ 64 * (0 + 2 ^ 64 * (0 + 2 ^ 64 * (0 + 2 ^ 64 * (1276 + 2 ^ 64 * (0)))))))))))))))))))))))))))))))) := by
  subst a0 a1 a2 a3 a4 a5 a6 a7 a8 a9 a10 a11 a12 a13 a14 a15 a16 a17 a18 a19 b0 b1 b2 b3 b4 b5 b6 b7 b8 b9 b10 b11 b12 b13 b14 b15 b16 b17 b18 b19
  ring

theorem padded_leNat {x : ℕ → ℕ} (h : InRange x) : padded x = Sha512Spec.leNat ((List.range 32).map (wordValue x)) := by
  obtain ⟨h0, h1, h2, h3, h4, h5, h6, h7, h8, h9, h10, h11, h12, h13, h14, h15, h16, h17, h18, h19⟩ := h.bounds
  simp only [show List.range 32 = [0, 1, 2, 3, 4, 5, 6, 7, 8, 9, 10, 11, 12, 13, 14, 15, 16, 17, 18, 19, 20, 21, 22, 23, 24, 25, 26, 27, 28, 29, 30, 31] from rfl, List.map_cons, List.map_nil, Sha512Spec.leNat, word_last]
  rw [word_zero x 20 (by norm_num) (by norm_num), word_zero x 21 (by norm_num) (by norm_num), word_zero x 22 (by norm_num) (by norm_num), word_zero x 23 (by norm_num) (by norm_num), word_zero x 24 (by norm_num) (by norm_num), word_zero x 25 (by norm_num) (by norm_num), word_zero x 26 (by norm_num) (by norm_num), word_zero x 27 (by norm_num) (by norm_num), word_zero x 28 (by norm_num) (by norm_num), word_zero x 29 (by norm_num) (by norm_num), word_zero x 30 (by norm_num) (by norm_num)]
  unfold padded coord
  simp only [Nat.reduceAdd]
  refine pack_ring _ _ _ _ _ _ _ _ _ _ _ _ _ _ _ _ _ _ _ _ _ _ _ _ _ _ _ _ _ _ _ _ _ _ _ _ _ _ _ _ _ _ _ _ _ _ _ _ _ _ _ _ _ _ _ _ _ _ _ _ _ _ _ _ _ _ _ _ _ _ _ _ _ _ _ _ _ _ _ _ _ _ _ _ _ _ _ _ _ _ _ _ _ _ _ _ _ _ _ _ _ _ _ _ _ _ _ _ _ _ _ _ _ _ _ _ _
    (eq0 x h0) (eq1 x h1) (eq2 x h2) (eq3 x h3) (eq8 x h4) (eq9 x h5) (eq10 x h6) (eq11 x h7) (eq16 x h8) (eq17 x h9) (eq18 x h10) (eq19 x h11) (eq24 x h12) (eq25 x h13) (eq26 x h14) (eq27 x h15) (eq32 x h16) (eq33 x h17) (eq34 x h18) (eq35 x h19)
    ((word0 x).trans (eq4 x h0)) ((word1 x).trans (eq5 x h0 h1)) ((word2 x).trans (eq6 x h1 h2)) ((word3 x).trans (eq7 x h2 h3 h4)) ((word4 x).trans (eq12 x h4)) ((word5 x).trans (eq13 x h4 h5)) ((word6 x).trans (eq14 x h5 h6)) ((word7 x).trans (eq15 x h6 h7 h8)) ((word8 x).trans (eq20 x h8)) ((word9 x).trans (eq21 x h9)) ((word10 x).trans (eq22 x h9 h10)) ((word11 x).trans (eq23 x h10 h11 h12)) ((word12 x).trans (eq28 x h12 h13)) ((word13 x).trans (eq29 x h13)) ((word14 x).trans (eq30 x h13 h14)) ((word15 x).trans (eq31 x h14 h15 h16)) ((word16 x).trans (eq36 x h16 h17)) ((word17 x).trans (eq37 x h17)) ((word18 x).trans (eq38 x h18)) ((word19 x).trans (eq39 x h18 h19))

/-- The words are those of the string. -/
theorem word_eq {x : ℕ → ℕ} (h : InRange x) (i : ℕ) (hi : i < 32) : wordValue x i = padded x / 2 ^ (64 * i) % 2 ^ 64 := by
  rw [padded_leNat h, Sha512Spec.leNat_digit _ _ i, List.getD_eq_getElem _ _ (by simpa using hi)]
  · simp
  · intro w hw
    obtain ⟨j, hj, rfl⟩ := List.mem_map.1 hw
    exact word_lt h j (List.mem_range.1 hj)

end Sha512Full
end Verif
