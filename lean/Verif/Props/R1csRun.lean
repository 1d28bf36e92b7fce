import Verif.Props.R1csPack
import Verif.Model.R1csSha256

/-!
# Straight-line assignments

If no step reads a variable that it or a later step writes, and no variable is written twice, then after the assignment every written variable has the
value of its step computed from the final values.
-/

set_option linter.unusedSectionVars false

namespace Verif
namespace R1cs

section
variable {F : Type*} [Field F]

/-- The function only reads variables with property `U`. -/
def Reads (f : Asg F → F) (U : ℕ → Prop) : Prop := ∀ s s' : Asg F, (∀ i, U i → val s i = val s' i) → f s = f s'

/-- All variables that the steps write or read have property `U`. -/
def Within (l : List (Step F)) (U : ℕ → Prop) : Prop := ∀ t ∈ l, U t.1 ∧ Reads t.2 U

/-- All variables that are written have property `T`. -/
def Writes (l : List (Step F)) (T : ℕ → Prop) : Prop := ∀ t ∈ l, T t.1

/-- Static single assignment. -/
def Ssa : List (Step F) → Prop
  | [] => True
  | t :: l => t.1 ≠ 0 ∧ Reads t.2 (fun i => i ≠ t.1 ∧ ∀ u ∈ l, i ≠ u.1) ∧ (∀ u ∈ l, u.1 ≠ t.1) ∧ Ssa l

theorem Reads.mono {f : Asg F → F} {U V : ℕ → Prop} (h : Reads f U) (hUV : ∀ i, U i → V i) : Reads f V :=
  fun s s' hs => h s s' fun i hi => hs i (hUV i hi)

theorem Within.mono {l : List (Step F)} {U V : ℕ → Prop} (h : Within l U) (hUV : ∀ i, U i → V i) : Within l V :=
  fun t ht => ⟨hUV _ (h t ht).1, (h t ht).2.mono hUV⟩

theorem Writes.mono {l : List (Step F)} {U V : ℕ → Prop} (h : Writes l U) (hUV : ∀ i, U i → V i) : Writes l V := fun t ht => hUV _ (h t ht)

theorem Within.append {l m : List (Step F)} {U : ℕ → Prop} (h1 : Within l U) (h2 : Within m U) : Within (l ++ m) U := by
  intro t ht
  rcases List.mem_append.1 ht with h | h
  · exact h1 t h
  · exact h2 t h

theorem Writes.append {l m : List (Step F)} {U : ℕ → Prop} (h1 : Writes l U) (h2 : Writes m U) : Writes (l ++ m) U := by
  intro t ht
  rcases List.mem_append.1 ht with h | h
  · exact h1 t h
  · exact h2 t h

theorem Within.flatMap {l : List ℕ} {f : ℕ → List (Step F)} {U : ℕ → Prop} (h : ∀ i ∈ l, Within (f i) U) : Within (l.flatMap f) U := by
  intro t ht
  obtain ⟨i, hi, ht⟩ := List.mem_flatMap.1 ht
  exact h i hi t ht

theorem Writes.flatMap {l : List ℕ} {f : ℕ → List (Step F)} {U : ℕ → Prop} (h : ∀ i ∈ l, Writes (f i) U) : Writes (l.flatMap f) U := by
  intro t ht
  obtain ⟨i, hi, ht⟩ := List.mem_flatMap.1 ht
  exact h i hi t ht

theorem Within.map {α : Type*} {l : List α} {f : α → Step F} {U : ℕ → Prop} (h : ∀ i ∈ l, U (f i).1 ∧ Reads (f i).2 U) : Within (l.map f) U := by
  intro t ht
  obtain ⟨i, hi, rfl⟩ := List.mem_map.1 ht
  exact h i hi

theorem Writes.map {α : Type*} {l : List α} {f : α → Step F} {U : ℕ → Prop} (h : ∀ i ∈ l, U (f i).1) : Writes (l.map f) U := by
  intro t ht
  obtain ⟨i, hi, rfl⟩ := List.mem_map.1 ht
  exact h i hi

theorem Ssa.append {l m : List (Step F)} {U T : ℕ → Prop} (h1 : Ssa l) (h2 : Ssa m) (hU : Within l U) (hT : Writes m T) (hd : ∀ i, U i → ¬ T i) :
    Ssa (l ++ m) := by
  induction l with
  | nil => exact h2
  | cons t l ih =>
    obtain ⟨a, b, c, d⟩ := h1
    refine ⟨a, ?_, ?_, ih d fun u hu => hU u (List.mem_cons_of_mem _ hu)⟩
    · intro s s' hs
      -- on variables in `U` and outside the rest of the first list the states agree; mask the others
      have hr := (hU t List.mem_cons_self).2
      classical
      let s2 : Asg F := fun i => if U i then s i else s' i
      have e1 : t.2 s = t.2 s2 := by
        apply hr
        intro i hi
        exact val_congr (by simp [s2, hi])
      rw [e1]
      apply b
      rintro i ⟨hi, hl⟩
      by_cases hUi : U i
      · have := hs i ⟨hi, ?_⟩
        · rw [← this]; exact val_congr (by simp [s2, hUi])
        · intro u hu
          rcases List.mem_append.1 hu with h | h
          · exact hl u h
          · intro e; exact hd i hUi (e ▸ hT u h)
      · exact val_congr (by simp [s2, hUi])
    · intro u hu
      rcases List.mem_append.1 hu with h | h
      · exact c u h
      · intro e
        exact hd _ (hU t List.mem_cons_self).1 (e ▸ hT u h)

/-- A loop. -/
theorem Ssa.loop {f : ℕ → List (Step F)} (n : ℕ) (U T : ℕ → ℕ → Prop) (h : ∀ i < n, Ssa (f i)) (hU : ∀ i < n, Within (f i) (U i))
    (hT : ∀ i < n, Writes (f i) (T i)) (hd : ∀ i j, i < j → j < n → ∀ v, U i v → ¬ T j v) : Ssa ((List.range n).flatMap f) := by
  induction n with
  | zero => exact trivial
  | succ n ih =>
    rw [List.range_succ, List.flatMap_append]
    refine Ssa.append (U := fun v => ∃ i < n, U i v) (T := T n)
      (ih (fun i hi => h i (by omega)) (fun i hi => hU i (by omega)) (fun i hi => hT i (by omega)) fun i j h1 h2 => hd i j h1 (by omega)) ?_ ?_ ?_ ?_
    · simpa using h n (by omega)
    · apply Within.flatMap
      intro i hi
      have hi := List.mem_range.1 hi
      exact (hU i (by omega)).mono fun v hv => ⟨i, hi, hv⟩
    · simpa using hT n (by omega)
    · rintro v ⟨i, hi, hv⟩
      exact hd i n hi (by omega) v hv

/-- A loop of single steps that read nothing that the loop writes. -/
theorem Ssa.mapLoop {f : ℕ → Step F} (n : ℕ) (R : ℕ → Prop) (h0 : ∀ i < n, (f i).1 ≠ 0) (hi : ∀ i < n, ∀ j < n, (f i).1 = (f j).1 → i = j)
    (hR : ∀ i < n, Reads (f i).2 R) (hd : ∀ i < n, ¬ R (f i).1) : Ssa ((List.range n).map f) := by
  have key : (List.range n).map f = (List.range n).flatMap fun i => [f i] := by
    induction (List.range n) with
    | nil => rfl
    | cons a l ih => simpa using ih
  rw [key]
  refine Ssa.loop n (fun i v => R v ∨ v = (f i).1) (fun j v => v = (f j).1) ?_ ?_ ?_ ?_
  · intro i hi'
    exact ⟨h0 i hi', (hR i hi').mono fun v hv => ⟨fun e => hd i hi' (e ▸ hv), by simp⟩, by simp, trivial⟩
  · intro i hi' t ht
    rw [List.mem_singleton.1 ht]
    exact ⟨Or.inr rfl, (hR i hi').mono fun v hv => Or.inl hv⟩
  · intro i _ t ht
    rw [List.mem_singleton.1 ht]
  · rintro i j hij hj v (hv | hv) e
    · exact hd j hj (e ▸ hv)
    · have := hi i (by omega) j hj (hv.symm.trans e)
      omega

theorem run_append (l m : List (Step F)) (s : Asg F) : run (l ++ m) s = run m (run l s) := by
  induction l generalizing s with
  | nil => rfl
  | cons t l ih => exact ih _

theorem run_ne (l : List (Step F)) (s : Asg F) {i : ℕ} (h : ∀ t ∈ l, i ≠ t.1) : run l s i = s i := by
  induction l generalizing s with
  | nil => rfl
  | cons t l ih =>
    rw [run, ih _ fun u hu => h u (List.mem_cons_of_mem _ hu)]
    exact Asg.set_ne _ _ (h t List.mem_cons_self)

/-- After the assignment every step's equation holds. -/
theorem run_eq (l : List (Step F)) (h : Ssa l) (s : Asg F) : ∀ t ∈ l, val (run l s) t.1 = t.2 (run l s) := by
  induction l generalizing s with
  | nil => intro t ht; cases ht
  | cons u l ih =>
    obtain ⟨a, b, c, d⟩ := h
    intro t ht
    rcases List.mem_cons.1 ht with rfl | ht
    · rw [run]
      have e1 : run l (s.set t.1 (t.2 s)) t.1 = t.2 s := by
        rw [run_ne _ _ fun u hu => (c u hu).symm]; exact Asg.set_same _ _ _
      rw [val_pos _ a, e1]
      apply b
      rintro i ⟨hi, hl⟩
      apply val_congr
      rw [run_ne _ _ hl]; exact (Asg.set_ne _ _ hi).symm
    · exact ih d _ t ht

/-- Variables that are not written keep their value. -/
theorem run_keep (l : List (Step F)) (s : Asg F) {T : ℕ → Prop} (hT : Writes l T) {i : ℕ} (h : ¬ T i) : val (run l s) i = val s i :=
  val_congr (run_ne l s fun t ht e => h (e ▸ hT t ht))

theorem sat_flatMap {α : Type*} (s : Asg F) (l : List α) (f : α → List (Constraint F)) : Sat s (l.flatMap f) ↔ ∀ x ∈ l, Sat s (f x) := by
  constructor
  · intro h x hx k hk; exact h k (List.mem_flatMap.2 ⟨x, hx, hk⟩)
  · intro h k hk
    obtain ⟨x, hx, hk⟩ := List.mem_flatMap.1 hk
    exact h x hx k hk

theorem reads_eval (l : Lc F) {U : ℕ → Prop} (h : l.Uses U) : Reads (fun s => l.eval s) U := by
  intro s s' hs
  show l.eval s = l.eval s'
  induction l with
  | nil => rfl
  | cons t l ih =>
    rw [eval_cons, eval_cons, ih fun u hu => h u (List.mem_cons_of_mem _ hu)]
    rcases h t List.mem_cons_self with h0 | h0
    · rw [h0]; rfl
    · rw [hs _ h0]

theorem reads_val {v : ℕ} {U : ℕ → Prop} (h : U v) : Reads (F := F) (fun s => val s v) U := fun _ _ hs => hs v h

end
end R1cs
end Verif
