import Mathlib.Algebra.Field.Basic
import Mathlib.Algebra.BigOperators.Group.List.Basic
import Mathlib.Algebra.BigOperators.Ring.List
import Mathlib.Tactic.Ring
import Mathlib.Tactic.LinearCombination

/-!
# Rank-1 constraint systems

The blueprint of `blueprint/r1cs/circuit.hpp` as far as the r1cs components use it: variables are numbered from 1, number 0 stands for the
constant 1, a linear combination is a list of terms, and a constraint is `a * b = c` for three linear combinations.

A `blueprint_linear_combination` that is not a variable has a cached value, which `evaluate` recomputes from the terms
(`blueprint_linear_combination.hpp:78-89`). Here the value is always computed from the terms, as if every component called `evaluate` before
reading; the sha256 components read a cached value that their caller must have evaluated.
-/

set_option linter.unusedSectionVars false

namespace Verif
namespace R1cs

/-- The values of the variables (`values`, `circuit.hpp:52-54`); number 0 is not used. -/
abbrev Asg (F : Type*) := ℕ → F

/-- A linear combination: variable number and coefficient (`math::linear_combination`). -/
abbrev Lc (F : Type*) := List (ℕ × F)

section
variable {F : Type*} [Field F]

/-- `val` (`circuit.hpp:78-86`). -/
def val (a : Asg F) (i : ℕ) : F := if i = 0 then 1 else a i

/-- Assignment through the reference that `val` returns. For number 0 the C++ would change the constant term; the components never do. -/
def Asg.set (a : Asg F) (i : ℕ) (v : F) : Asg F := fun j => if j = i then v else a j

/-- Several assignments in order. -/
def Asg.setAll (a : Asg F) : List (ℕ × F) → Asg F
  | [] => a
  | (i, v) :: l => (a.set i v).setAll l

/-- `evaluate` (`blueprint_linear_combination.hpp:78-89`). -/
def Lc.eval (a : Asg F) (l : Lc F) : F := (l.map fun t => t.2 * val a t.1).sum

/-- The linear combination that is one variable (`blueprint_linear_combination.hpp:66-70`). -/
def Lc.var (i : ℕ) : Lc F := [(i, 1)]
/-- A constant. -/
def Lc.const (v : F) : Lc F := [(0, v)]
/-- Sum, difference and scalar multiple of linear combinations. -/
def Lc.add (l m : Lc F) : Lc F := l ++ m
/-- `k * l`. -/
def Lc.smul (k : F) (l : Lc F) : Lc F := l.map fun t => (t.1, k * t.2)
/-- `l - m`. -/
def Lc.sub (l m : Lc F) : Lc F := l ++ Lc.smul (-1) m

/-- `r1cs_constraint`. -/
structure Constraint (F : Type*) where
  a : Lc F
  b : Lc F
  c : Lc F

/-- A constraint holds. -/
def Constraint.Holds (s : Asg F) (k : Constraint F) : Prop := k.a.eval s * k.b.eval s = k.c.eval s

/-- `is_satisfied` (`circuit.hpp:112-114`). -/
def Sat (s : Asg F) (l : List (Constraint F)) : Prop := ∀ k ∈ l, k.Holds s

@[simp] theorem sat_nil (s : Asg F) : Sat s [] ↔ True := by simp [Sat]
@[simp] theorem sat_cons (s : Asg F) (k : Constraint F) (l) : Sat s (k :: l) ↔ k.Holds s ∧ Sat s l := by simp [Sat]
@[simp] theorem sat_append (s : Asg F) (l m : List (Constraint F)) : Sat s (l ++ m) ↔ Sat s l ∧ Sat s m := by
  simp [Sat, or_imp, forall_and]
theorem sat_map {α : Type*} (s : Asg F) (l : List α) (f : α → Constraint F) : Sat s (l.map f) ↔ ∀ x ∈ l, (f x).Holds s := by
  simp [Sat]

@[simp] theorem val_zero (s : Asg F) : val s 0 = 1 := rfl
theorem val_pos (s : Asg F) {i : ℕ} (h : i ≠ 0) : val s i = s i := by simp [val, h]

@[simp] theorem eval_nil (s : Asg F) : Lc.eval s [] = 0 := rfl
@[simp] theorem eval_cons (s : Asg F) (t : ℕ × F) (l : Lc F) : Lc.eval s (t :: l) = t.2 * val s t.1 + Lc.eval s l := by simp [Lc.eval]
@[simp] theorem eval_append (s : Asg F) (l m : Lc F) : Lc.eval s (l ++ m) = Lc.eval s l + Lc.eval s m := by simp [Lc.eval]
@[simp] theorem eval_var (s : Asg F) (i : ℕ) : (Lc.var i : Lc F).eval s = val s i := by simp [Lc.var]
@[simp] theorem eval_const (s : Asg F) (v : F) : (Lc.const v : Lc F).eval s = v := by simp [Lc.const]
@[simp] theorem eval_add (s : Asg F) (l m : Lc F) : (l.add m).eval s = l.eval s + m.eval s := by simp [Lc.add]
@[simp] theorem eval_smul (s : Asg F) (k : F) (l : Lc F) : (Lc.smul k l).eval s = k * l.eval s := by
  induction l with
  | nil => simp [Lc.smul]
  | cons t l ih =>
    rw [show Lc.smul k (t :: l) = (t.1, k * t.2) :: Lc.smul k l from rfl, eval_cons, eval_cons, ih]; ring
@[simp] theorem eval_sub (s : Asg F) (l m : Lc F) : (l.sub m).eval s = l.eval s - m.eval s := by
  rw [Lc.sub, eval_append, eval_smul]; ring

theorem eval_map_const (s : Asg F) (l : List ℕ) (k : F) : Lc.eval s (l.map fun i => (i, k)) = k * (l.map (val s)).sum := by
  induction l with
  | nil => simp
  | cons i l ih => simp only [List.map_cons, eval_cons, List.sum_cons, ih]; ring

theorem Asg.set_same (s : Asg F) (i : ℕ) (v : F) : s.set i v i = v := by simp [Asg.set]
theorem Asg.set_ne (s : Asg F) {i j : ℕ} (v : F) (h : j ≠ i) : s.set i v j = s j := by simp [Asg.set, h]

theorem val_set_same (s : Asg F) {i : ℕ} (v : F) (h : i ≠ 0) : val (s.set i v) i = v := by rw [val_pos _ h, Asg.set_same]
theorem val_set_ne (s : Asg F) {i j : ℕ} (v : F) (h : j ≠ i) : val (s.set i v) j = val s j := by
  unfold val; split_ifs
  · rfl
  · exact Asg.set_ne s v h

theorem Asg.setAll_append (s : Asg F) (l m : List (ℕ × F)) : s.setAll (l ++ m) = (s.setAll l).setAll m := by
  induction l generalizing s with
  | nil => rfl
  | cons t l ih => exact ih _

theorem Asg.setAll_ne (s : Asg F) (l : List (ℕ × F)) {j : ℕ} (h : ∀ t ∈ l, t.1 ≠ j) : s.setAll l j = s j := by
  induction l generalizing s with
  | nil => rfl
  | cons t l ih =>
    rw [show s.setAll (t :: l) = (s.set t.1 t.2).setAll l from rfl, ih _ fun u hu => h u (List.mem_cons_of_mem _ hu)]
    exact Asg.set_ne s _ (h t List.mem_cons_self).symm

/-- If a variable is written with one value only, it has that value afterwards. -/
theorem Asg.setAll_mem (s : Asg F) (l : List (ℕ × F)) {j : ℕ} {v : F} (h : (j, v) ∈ l) (hu : ∀ t ∈ l, t.1 = j → t.2 = v) : s.setAll l j = v := by
  induction l generalizing s with
  | nil => cases h
  | cons t l ih =>
    rw [show s.setAll (t :: l) = (s.set t.1 t.2).setAll l from rfl]
    by_cases hm : (j, v) ∈ l
    · exact ih _ hm fun u hu' => hu u (List.mem_cons_of_mem _ hu')
    · rcases List.mem_cons.1 h with h | h
      · subst h
        rw [Asg.setAll_ne, Asg.set_same]
        intro u hu' e
        have := hu u (List.mem_cons_of_mem _ hu') e
        exact hm (by rw [← e, ← this]; exact hu')
      · exact absurd h hm

theorem val_congr {s s' : Asg F} {i : ℕ} (h : s i = s' i) : val s i = val s' i := by unfold val; rw [h]

/-- The linear combination only uses variables with property `P`. -/
def Lc.Uses (l : Lc F) (P : ℕ → Prop) : Prop := ∀ t ∈ l, t.1 = 0 ∨ P t.1

theorem Lc.eval_congr {s s' : Asg F} {l : Lc F} {P : ℕ → Prop} (hl : l.Uses P) (h : ∀ i, P i → s i = s' i) : l.eval s = l.eval s' := by
  induction l with
  | nil => rfl
  | cons t l ih =>
    rw [eval_cons, eval_cons, ih fun u hu => hl u (List.mem_cons_of_mem _ hu)]
    rcases hl t List.mem_cons_self with h0 | h0
    · rw [h0]; rfl
    · rw [val_congr (h _ h0)]

end
end R1cs
end Verif
