import Verif.Model.Colinear
import Mathlib.Algebra.Field.ZMod
import Mathlib.Tactic.NormNum.Prime

/-!
# C73: colinearity of the folding steps
-/

set_option linter.unusedSimpArgs false
set_option linter.unusedVariables false
set_option linter.unusedSectionVars false

namespace Verif
namespace Colinear

variable {F : Type*} [Field F] [DecidableEq F]

/-! ### Specification -/

/-- The line through `(s, y0)` and `(-s, y1)` takes the value `y` at `alpha`. -/
def OnLine (s y0 y1 alpha y : F) : Prop := ∃ k d : F, k * s + d = y0 ∧ k * (-s) + d = y1 ∧ k * alpha + d = y

/-- Step `q` of the folding is right: `x^(2^q)` with the sign `b q` gives `s`, and the next value is on the line. -/
def Good (t : Table F) (inp : Inputs) (q : ℕ) : Prop :=
  ∀ s, s = (if (inp.bs q).value t = 1 then 1 else -1) * inp.x.value t ^ 2 ^ q →
  OnLine s ((inp.ys (2 * q)).value t) ((inp.ys (2 * q + 1)).value t) ((inp.alphas q).value t)
    (if (inp.bs (q + 1)).value t = 1 then (inp.ys (2 * (q + 1))).value t else (inp.ys (2 * (q + 1) + 1)).value t)

theorem onLine_iff (h2 : (2 : F) ≠ 0) {s : F} (hs : s ≠ 0) (y0 y1 alpha y : F) :
    OnLine s y0 y1 alpha y ↔ (alpha + s) * y0 - (alpha - s) * y1 = y * 2 * s := by
  constructor
  · rintro ⟨k, d, rfl, rfl, rfl⟩; ring
  · intro h
    have h3 : 2 * s ≠ 0 := mul_ne_zero h2 hs
    refine ⟨(y0 - y1) / (2 * s), (y0 + y1) / 2, ?_, ?_, ?_⟩
    · field_simp; ring
    · field_simp; ring
    · field_simp
      linear_combination h

theorem sign_eq {b x : F} (hb : b = 0 ∨ b = 1) : (if b = 1 then (1 : F) else -1) * x = 2 * b * x - x := by
  rcases hb with rfl | rfl
  · rw [if_neg (by simp)]; ring
  · rw [if_pos rfl]; ring

theorem pick_eq {b y y' : F} (hb : b = 0 ∨ b = 1) : (if b = 1 then y else y') = b * y + (1 - b) * y' := by
  rcases hb with rfl | rfl
  · rw [if_neg (by simp)]; ring
  · rw [if_pos rfl]; ring

/-! ### The constraints -/

theorem per_pos {w : ℕ} (hw : 9 ≤ w) : 0 < per w := by unfold per; omega

/-- The relation checked in block `k` of row `R`. -/
def Rel (t : Table F) (c : Cols) (srow : ℤ) (R k : ℕ) : Prop :=
  let v := fun j : ℕ => t .witness (c.w ((k * 5 + j : ℕ) : ℤ)) (srow + (R : ℤ))
  (v 4 + (2 * v 1 * v 0 - v 0)) * v 2 - (v 4 - (2 * v 1 * v 0 - v 0)) * v 3 = (v 6 * v 7 + (1 - v 6) * v 8) * 2 * (2 * v 1 * v 0 - v 0)

theorem circuit_iff (c : Cols) (w r : ℕ) (inp : Inputs) (srow : ℤ) (t : Table F) :
    Sat t (circuit c w r inp srow) ↔ ∀ R < rows w r, ∀ k < per w, 0 < k → Rel t c srow R k := by
  unfold circuit
  rw [sat_cons, holds_gate]
  have key : ∀ R k : ℕ, (blockExpr c k : Expr F).eval t (srow + (R : ℤ)) = 0 ↔ Rel t c srow R k := by
    intro R k
    simp only [blockExpr, Rel, Expr.eval_sub, Expr.eval_mul, Expr.eval_add, Expr.eval_two, Expr.eval_one, Cols.eval_wv, add_zero, sub_eq_zero]
  constructor
  · rintro ⟨h, -⟩ R hR k hk h0
    exact (key R k).1 (h _ (mem_rowsFrom.2 ⟨R, hR, rfl⟩) _
      (List.mem_map.2 ⟨k, List.mem_filter.2 ⟨List.mem_range.2 hk, by simpa using Nat.pos_iff_ne_zero.1 h0⟩, rfl⟩))
  · intro h
    refine ⟨fun r hr e he => ?_, by simp⟩
    obtain ⟨R, hR, rfl⟩ := mem_rowsFrom.1 hr
    obtain ⟨k, hk, rfl⟩ := List.mem_map.1 he
    obtain ⟨hk1, hk2⟩ := List.mem_filter.1 hk
    exact (key R k).2 (h R hR k (List.mem_range.1 hk1) (Nat.pos_of_ne_zero (by simpa using hk2)))

theorem rel_zero {t : Table F} {c : Cols} {srow : ℤ} {R k : ℕ}
    (h : ∀ j : ℕ, t .witness (c.w ((k * 5 + j : ℕ) : ℤ)) (srow + (R : ℤ)) = 0) : Rel t c srow R k := by
  unfold Rel
  intro v
  have hv : ∀ j, v j = 0 := h
  simp [hv]

/-- **C73 (refuted): nothing is checked.** Whatever the inputs are, filling the component's rows with zeros satisfies all its
constraints. -/
theorem colinear_vacuous (c : Cols) (w r : ℕ) (hw : 9 ≤ w) (hc : c.OK w) (inp : Inputs) (srow : ℤ) (t : Table F) :
    ∃ t', Sat t' (circuit c w r inp srow) ∧ Frame c srow (rows w r) t t' := by
  refine ⟨fun ty i q => if ty = .witness ∧ i ∈ c.W ∧ srow ≤ q ∧ q < srow + (rows w r : ℕ) then 0 else t ty i q, ?_, ?_⟩
  · rw [circuit_iff]
    intro R hR k hk h0
    apply rel_zero
    intro j
    exact if_pos ⟨rfl, Cols.w_mem (by rw [hc.len]; omega) _, by omega, by omega⟩
  · intro ty i q h
    exact if_neg h

/-- **C73 (partial): what the gate would give** if the cells of step `q` were tied to the inputs, as the copy constraints left out
should do: then every step that is not the first of its row is right. -/
theorem colinear_sound_partial (c : Cols) (w r : ℕ) (hw : 9 ≤ w) (h2 : (2 : F) ≠ 0) (inp : Inputs) (srow : ℤ) (t : Table F)
    (h : Sat t (circuit c w r inp srow)) (q : ℕ) (hq : q < r) (hm : q % per w ≠ 0)
    (hb : ∀ i, (inp.bs i).value t = 0 ∨ (inp.bs i).value t = 1) (hx : inp.x.value t ≠ 0)
    (hv : ∀ j < 9, t .witness (c.w ((q % per w * 5 + j : ℕ) : ℤ)) (srow + ((q / per w : ℕ) : ℤ)) =
      [inp.x.value t ^ 2 ^ q, (inp.bs q).value t, (inp.ys (2 * q)).value t, (inp.ys (2 * q + 1)).value t, (inp.alphas q).value t,
       inp.x.value t ^ 2 ^ (q + 1), (inp.bs (q + 1)).value t, (inp.ys (2 * (q + 1))).value t, (inp.ys (2 * (q + 1) + 1)).value t].getD j 0) :
    Good t inp q := by
  have hp := per_pos hw
  have hR : q / per w < rows w r := by
    rw [Nat.div_lt_iff_lt_mul hp]
    unfold rows
    simp only [Nat.add_sub_cancel]
    rw [show (w - 4) / 5 = per w from rfl]
    have hd := Nat.div_add_mod (5 * r) (per w)
    have hl := Nat.mod_lt (5 * r) hp
    split_ifs with h0
    · rw [Nat.mul_comm]; omega
    · rw [Nat.add_mul, Nat.mul_comm (5 * r / per w)]; omega
  have hr := (circuit_iff c w r inp srow t).1 h _ hR _ (Nat.mod_lt q hp) (Nat.pos_of_ne_zero hm)
  unfold Rel at hr
  simp only [hv 0 (by omega), hv 1 (by omega), hv 2 (by omega), hv 3 (by omega), hv 4 (by omega), hv 6 (by omega), hv 7 (by omega),
    hv 8 (by omega), List.getD_cons_zero, List.getD_cons_succ] at hr
  rintro s rfl
  have hne := pow_ne_zero (2 ^ q) hx
  have hs : (if (inp.bs q).value t = 1 then (1 : F) else -1) * inp.x.value t ^ 2 ^ q ≠ 0 := by
    apply mul_ne_zero _ hne
    split_ifs <;> simp
  rw [onLine_iff h2 hs]
  rw [sign_eq (hb q), pick_eq (hb (q + 1))]
  exact hr

/-! ### Completeness -/

def Four.at (f : Four F) (d : ℕ) : F := if d = 0 then f.x else if d = 1 then f.b else if d = 2 then f.y0 else f.y1

/-- The value of column `j` in row `R`. -/
def cell (c : Cols) (w r : ℕ) (inp : Inputs) (srow : ℤ) (t : Table F) (R j : ℕ) : F :=
  if j % 5 = 4 then (if R * per w + j / 5 < r then (inp.alphas (R * per w + j / 5)).value t else 0)
  else (start c w r inp srow t R (j / 5)).at (j % 5)

theorem start_step (c : Cols) (w r : ℕ) (inp : Inputs) (srow : ℤ) (t : Table F) (R k : ℕ) (h : R * per w + k < r) :
    start c w r inp srow t R k = step t inp (R * per w + k) := by
  cases k with
  | zero => rw [start, if_pos (by simpa using h)]; rfl
  | succ k => rw [start, if_pos (by omega)]; rfl

theorem mem_put {c : Cols} {srow : ℤ} {R j : ℕ} {f : Four F} {x : Write F} :
    x ∈ put c srow R j f ↔ ∃ d < 4, x = ⟨.witness, c.w ((j + d : ℕ) : ℤ), srow + (R : ℤ), f.at d⟩ := by
  simp only [put, List.mem_cons, List.not_mem_nil, or_false]
  constructor
  · rintro (rfl | rfl | rfl | rfl)
    · exact ⟨0, by omega, rfl⟩
    · exact ⟨1, by omega, rfl⟩
    · exact ⟨2, by omega, rfl⟩
    · exact ⟨3, by omega, rfl⟩
  · rintro ⟨d, hd, rfl⟩
    interval_cases d
    · exact Or.inl rfl
    · exact Or.inr (Or.inl rfl)
    · exact Or.inr (Or.inr (Or.inl rfl))
    · exact Or.inr (Or.inr (Or.inr rfl))

theorem cell_four (c : Cols) (w r : ℕ) (inp : Inputs) (srow : ℤ) (t : Table F) (R k d : ℕ) (hd : d < 4) :
    cell c w r inp srow t R (k * 5 + d) = (start c w r inp srow t R k).at d := by
  unfold cell
  rw [show (k * 5 + d) % 5 = d by omega, show (k * 5 + d) / 5 = k by omega, if_neg (by omega)]

theorem cell_alpha (c : Cols) (w r : ℕ) (inp : Inputs) (srow : ℤ) (t : Table F) (R k : ℕ) :
    cell c w r inp srow t R (k * 5 + 4) = if R * per w + k < r then (inp.alphas (R * per w + k)).value t else 0 := by
  unfold cell
  rw [show (k * 5 + 4) % 5 = 4 by omega, show (k * 5 + 4) / 5 = k by omega, if_pos rfl]

theorem start_succ (c : Cols) (w r : ℕ) (inp : Inputs) (srow : ℤ) (t : Table F) (R k : ℕ) :
    start c w r inp srow t R (k + 1) = if R * per w + k < r then step t inp (R * per w + k + 1) else pad (start c w r inp srow t R k) := rfl

theorem writes_grid (c : Cols) (w r : ℕ) (hw : 9 ≤ w) (inp : Inputs) (srow : ℤ) (t : Table F) :
    GridWrites c srow w (rows w r) (cell c w r inp srow t) (writes c w r inp srow t) := by
  have hpw : per w * 5 + 4 ≤ w := by unfold per; omega
  intro x hx
  simp only [writes, List.mem_flatMap, List.mem_range] at hx
  obtain ⟨R, hR, k, hk, hx⟩ := hx
  have hnext : ∀ f, f = start c w r inp srow t R (k + 1) → x ∈ put c srow R (k * 5 + 5) f →
      ∃ r' < rows w r, ∃ j < w, x = ⟨.witness, c.w (j : ℤ), srow + (r' : ℤ), cell c w r inp srow t r' j⟩ := by
    rintro f rfl h
    obtain ⟨d, hd, rfl⟩ := mem_put.1 h
    refine ⟨R, hR, (k + 1) * 5 + d, by omega, ?_⟩
    rw [cell_four _ _ _ _ _ _ _ _ _ hd, show k * 5 + 5 + d = (k + 1) * 5 + d by omega]
  unfold blockWrites at hx
  split_ifs at hx with h
  · rcases List.mem_append.1 hx with h1 | h1
    · rcases List.mem_append.1 h1 with h3 | h3
      · obtain ⟨d, hd, rfl⟩ := mem_put.1 h3
        exact ⟨R, hR, k * 5 + d, by omega, by rw [cell_four _ _ _ _ _ _ _ _ _ hd, start_step _ _ _ _ _ _ _ _ h]⟩
      · rw [List.mem_singleton] at h3; subst h3
        exact ⟨R, hR, k * 5 + 4, by omega, by rw [cell_alpha, if_pos h]⟩
    · exact hnext _ (by rw [start_succ, if_pos h]) h1
  · rcases List.mem_cons.1 hx with h1 | h1
    · subst h1
      exact ⟨R, hR, k * 5 + 4, by omega, by rw [cell_alpha, if_neg h]⟩
    · exact hnext _ (by rw [start_succ, if_neg h]) h1

theorem writes_next (c : Cols) (w r : ℕ) (hw : 9 ≤ w) (hc : c.OK w) (inp : Inputs) (srow : ℤ) (t : Table F) (R k d : ℕ) (hR : R < rows w r)
    (hk : k < per w) (hd : d < 5) (hd' : d = 4 → k + 1 < per w) :
    assign c w r inp srow t .witness (c.w (((k + 1) * 5 + d : ℕ) : ℤ)) (srow + (R : ℤ)) = cell c w r inp srow t R ((k + 1) * 5 + d) := by
  have hpw : per w * 5 + 4 ≤ w := by unfold per; omega
  refine (writes_grid c w r hw inp srow t).read hc t (by omega) ?_
  simp only [writes, List.mem_flatMap, List.mem_range]
  by_cases h4 : d = 4
  · subst h4
    refine ⟨R, hR, k + 1, hd' rfl, ?_⟩
    rw [cell_alpha]
    unfold blockWrites
    split_ifs with h
    · exact List.mem_append_left _ (List.mem_append_right _ (List.mem_singleton.2 rfl))
    · exact List.mem_cons.2 (Or.inl rfl)
  · refine ⟨R, hR, k, hk, ?_⟩
    rw [cell_four _ _ _ _ _ _ _ _ _ (by omega), start_succ, show (k + 1) * 5 + d = k * 5 + 5 + d by omega]
    unfold blockWrites
    split_ifs with h
    · exact List.mem_append_right _ (mem_put.2 ⟨d, by omega, rfl⟩)
    · exact List.mem_cons.2 (Or.inr (mem_put.2 ⟨d, by omega, rfl⟩))

/-- **C73 (completeness).** The generated rows satisfy the constraints when the steps are right. -/
theorem colinear_complete (c : Cols) (w r : ℕ) (hw : 9 ≤ w) (hc : c.OK w) (h2 : (2 : F) ≠ 0) (inp : Inputs) (srow : ℤ) (t : Table F)
    (hb : ∀ i ≤ r, (inp.bs i).value t = 0 ∨ (inp.bs i).value t = 1) (hx : inp.x.value t ≠ 0) (hg : ∀ q < r, Good t inp q) :
    Sat (assign c w r inp srow t) (circuit c w r inp srow) ∧ Frame c srow (rows w r) t (assign c w r inp srow t) := by
  refine ⟨(circuit_iff c w r inp srow _).2 ?_, ((writes_grid c w r hw inp srow t).own hc).frame t⟩
  intro R hR k hk h0
  obtain ⟨k, rfl⟩ : ∃ k', k = k' + 1 := ⟨k - 1, by omega⟩
  have v : ∀ d < 5, assign c w r inp srow t .witness (c.w (((k + 1) * 5 + d : ℕ) : ℤ)) (srow + (R : ℤ)) = cell c w r inp srow t R ((k + 1) * 5 + d) :=
    fun d hd => writes_next c w r hw hc inp srow t R k d hR (by omega) hd (fun _ => hk)
  have v' : ∀ d < 4, assign c w r inp srow t .witness (c.w (((k + 1) * 5 + (5 + d) : ℕ) : ℤ)) (srow + (R : ℤ)) =
      cell c w r inp srow t R ((k + 2) * 5 + d) := by
    intro d hd
    have := writes_next c w r hw hc inp srow t R (k + 1) d hR hk (by omega) (by omega)
    rw [show (k + 1) * 5 + (5 + d) = (k + 1 + 1) * 5 + d by omega]
    exact this
  have v6 : assign c w r inp srow t .witness (c.w (((k + 1) * 5 + 6 : ℕ) : ℤ)) (srow + (R : ℤ)) = _ := v' 1 (by omega)
  have v7 : assign c w r inp srow t .witness (c.w (((k + 1) * 5 + 7 : ℕ) : ℤ)) (srow + (R : ℤ)) = _ := v' 2 (by omega)
  have v8 : assign c w r inp srow t .witness (c.w (((k + 1) * 5 + 8 : ℕ) : ℤ)) (srow + (R : ℤ)) = _ := v' 3 (by omega)
  unfold Rel
  simp only [v 0 (by omega), v 1 (by omega), v 2 (by omega), v 3 (by omega), v 4 (by omega), v6, v7, v8]
  rw [cell_alpha, cell_four _ _ _ _ _ _ _ _ _ (by omega), cell_four _ _ _ _ _ _ _ _ _ (by omega), cell_four _ _ _ _ _ _ _ _ _ (by omega),
    cell_four _ _ _ _ _ _ _ _ _ (by omega), cell_four _ _ _ _ _ _ _ _ _ (by omega), cell_four _ _ _ _ _ _ _ _ _ (by omega),
    cell_four _ _ _ _ _ _ _ _ _ (by omega), start_succ c w r inp srow t R (k + 1)]
  by_cases h : R * per w + (k + 1) < r
  · rw [if_pos h, if_pos h, start_step _ _ _ _ _ _ _ _ h]
    have := hg _ h _ rfl
    simp only [Four.at, step, if_true, one_ne_zero, if_false, OfNat.ofNat_ne_zero, OfNat.ofNat_ne_one, show ¬ (3 : ℕ) = 2 by norm_num]
    generalize R * per w + (k + 1) = q at *
    have hs : (if (inp.bs q).value t = 1 then (1 : F) else -1) * inp.x.value t ^ 2 ^ q ≠ 0 := by
      apply mul_ne_zero _ (pow_ne_zero (2 ^ q) hx)
      split_ifs <;> simp
    rw [onLine_iff h2 hs, sign_eq (hb q (by omega)), pick_eq (hb (q + 1) (by omega))] at this
    exact this
  · rw [if_neg h, if_neg h]
    generalize start c w r inp srow t R (k + 1) = f
    simp only [Four.at, pad, if_true, one_ne_zero, if_false, OfNat.ofNat_ne_zero, OfNat.ofNat_ne_one, show ¬ (3 : ℕ) = 2 by norm_num]
    by_cases hs : 2 * f.b * f.x - f.x = 0
    · simp [hs]
    · rw [if_neg hs]
      have h3 := mul_ne_zero h2 hs
      generalize 2 * f.b * f.x - f.x = s at *
      have hi : (2 * s)⁻¹ * (2 * s) = 1 := inv_mul_cancel₀ h3
      linear_combination (-(s * f.y0 + s * f.y1)) * hi

/-! ### Instance -/

instance : Fact (Nat.Prime 97) := ⟨by norm_num⟩

def exIn : Inputs := ⟨⟨0, 0, false, .publicInput⟩, fun i => ⟨1, i, false, .publicInput⟩, fun i => ⟨2, i, false, .publicInput⟩,
  fun i => ⟨3, i, false, .publicInput⟩⟩

def exCols : Cols := ⟨List.range 14, [], [0, 1, 2, 3]⟩

/-- Two steps modulo 97: `x = 3`, signs 1, 0, 1. -/
def exT : Table (ZMod 97) := fun ty i r =>
  match ty with
  | .publicInput => ((match i with
    | 0 => [3]
    | 1 => [5, 7, 11, 37, 65, 20]
    | 2 => [1, 0, 1]
    | _ => [4, 6] : List (ZMod 97))).getD r.toNat 0
  | _ => 0

theorem ex_good : ∀ q < 2, Good exT exIn q := by
  intro q hq s hs
  rw [onLine_iff (by decide)]
  · subst hs; interval_cases q <;> decide
  · subst hs; interval_cases q <;> decide

/-- The generated rows of these steps are accepted, and a table with other values in the inputs is accepted too. -/
example : Sat (assign exCols 14 2 exIn 10 exT) (circuit exCols 14 2 exIn 10) ∧
    ¬ Good (exT.set .publicInput 1 4 0) exIn 1 ∧ ∃ t' : Table (ZMod 97), Sat t' (circuit exCols 14 2 exIn 10) ∧ ¬ Good t' exIn 1 := by
  have hc : exCols.OK 14 := ⟨List.nodup_range, rfl⟩
  have hn : ∀ t' : Table (ZMod 97), (∀ i r, t' .publicInput i r = (exT.set .publicInput 1 4 0) .publicInput i r) → ¬ Good t' exIn 1 := by
    intro t' ht h
    have := h _ rfl
    rw [onLine_iff (by decide)] at this
    · simp only [Var.value, exIn, ht] at this
      revert this; decide
    · simp only [Var.value, exIn, ht]; decide
  refine ⟨(colinear_complete exCols 14 2 (by norm_num) hc (by decide) exIn 10 exT ?_ (by decide) ex_good).1, hn _ (fun _ _ => rfl), ?_⟩
  · intro i hi; interval_cases i <;> decide
  · obtain ⟨t', h1, h2⟩ := colinear_vacuous exCols 14 2 (by norm_num) hc exIn 10 (exT.set .publicInput 1 4 0)
    exact ⟨t', h1, hn t' (fun i r => h2 _ _ _ (by rintro ⟨h, -⟩; cases h))⟩

end Colinear
end Verif
