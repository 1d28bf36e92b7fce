import Verif.Model.GateMover

/-!
# Gate relocation: C42
-/

namespace Verif
namespace GateMover
variable {F : Type*}

theorem foldl_mul_congr [Field F] (f : Var → Var) (t t' : Table F) (row row' : ℤ) (vs : List Var) (k : F)
    (h : ∀ v ∈ vs, (f v).evalAt t row = v.evalAt t' row') :
    (vs.map f).foldl (fun a v => a * v.evalAt t row) k = vs.foldl (fun a v => a * v.evalAt t' row') k := by
  induction vs generalizing k with
  | nil => rfl
  | cons v vs ih =>
    simp only [List.map_cons, List.foldl_cons]
    rw [h v (List.mem_cons_self), ih _ fun u hu => h u (List.mem_cons_of_mem _ hu)]

end GateMover

open GateMover

/-- C42: a moved constraint evaluated on one table and row equals the original evaluated on another, as soon as
every variable's image reads the same value there as the variable reads in the other; any renaming. -/
theorem gateMover_eval {F : Type*} [Field F] (f : Var → Var) (t t' : Table F) (row row' : ℤ) (e : GExpr F)
    (h : ∀ v ∈ e.vars, (f v).evalAt t row = v.evalAt t' row') : (move f e).eval t row = e.eval t' row' := by
  induction e with
  | term vs k => exact foldl_mul_congr f t t' row row' vs k h
  | pow b n ih => simp only [move, GExpr.eval]; rw [ih h]
  | bin op l r ihl ihr =>
    have h1 := ihl fun v hv => h v (List.mem_append_left _ hv)
    have h2 := ihr fun v hv => h v (List.mem_append_right _ hv)
    cases op <;> simp only [move, GExpr.eval, h1, h2]

/-- C42: the variables of the moved constraint are exactly the renamed ones, in the same places; relocation is
compositional. -/
theorem gateMover_vars {F : Type*} (f g : Var → Var) (e : GExpr F) :
    (move f e).vars = e.vars.map f ∧ move g (move f e) = move (g ∘ f) e ∧ move id e = e := by
  induction e with
  | term vs k => simp [move, GExpr.vars]
  | pow b n ih => simpa [move, GExpr.vars] using ih
  | bin op l r ihl ihr =>
    obtain ⟨a1, a2, a3⟩ := ihl
    obtain ⟨b1, b2, b3⟩ := ihr
    simp [move, GExpr.vars, a1, a2, a3, b1, b2, b3]

/-- C42 for the column shift used by batches: the moved constraint on `t` is the original on `t` with its columns
shifted. -/
theorem gateMover_shift {F : Type*} [Field F] (off : ℕ) (t : Table F) (row : ℤ) (e : GExpr F) :
    (move (shiftVar off) e).eval t row = e.eval (fun ty i r => t ty (i + off) r) row :=
  gateMover_eval _ _ _ _ _ _ fun _ _ => rfl

/-- C42: a batch gate holds on a row iff the component's gate holds on each block of `w` columns. -/
theorem batchGate_iff {F : Type*} [Field F] (cs : List (GExpr F)) (n w : ℕ) (hn : 0 < n / w) (t : Table F) (row : ℤ) :
    (∀ e ∈ batchGate cs n w, e.eval t row = 0) ↔
      ∀ k < n / w, ∀ e ∈ cs, e.eval (fun ty i r => t ty (i + k * w) r) row = 0 := by
  simp only [batchGate, List.mem_append, List.mem_flatMap, List.mem_range, moveConstraints, List.mem_map]
  constructor
  · intro h k hk e he
    cases k with
    | zero => simpa using h e (Or.inl he)
    | succ k =>
      rw [← gateMover_shift]
      exact h _ (Or.inr ⟨k, by omega, e, he, rfl⟩)
  · rintro h e (he | ⟨k, hk, e, he, rfl⟩)
    · simpa using h 0 hn e he
    · rw [gateMover_shift]
      exact h (k + 1) (by omega) e he

/-- Non-vacuity: a batch of two 3-column addition gates on a row computing `1 + 2 = 3` and `4 + 5 = 9`. -/
example : ∀ e ∈ batchGate [GExpr.bin .sub (.bin .add (.term [⟨0, 0, true, .witness⟩] (1 : ℚ)) (.term [⟨1, 0, true, .witness⟩] 1))
    (.term [⟨2, 0, true, .witness⟩] 1)] 7 3, e.eval (fun _ i _ => [1, 2, 3, 4, 5, 9, 77].getD i 0) 0 = 0 := by
  rw [batchGate_iff _ _ _ (by decide)]
  intro k hk e he
  simp only [List.mem_singleton] at he
  subst he
  have : k = 0 ∨ k = 1 := by omega
  rcases this with rfl | rfl <;> norm_num [GExpr.eval, Var.evalAt]

end Verif
