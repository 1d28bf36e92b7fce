import Verif.Core.Table
import Mathlib.Algebra.BigOperators.Group.List.Basic
import Mathlib.Tactic.Ring

/-!
# Components placed one after the other

A component that calls other components generates their circuits on consecutive rows and runs their assignments in
the same order. A block is one such call; if each block is complete on its own, so is the sequence.
-/

set_option linter.unusedSectionVars false

namespace Verif
variable {F : Type*} [Field F]

/-- One call of a sub-component. -/
structure Block (F : Type*) where
  start : ℤ
  rows : ℕ
  /-- Obligations generated. -/
  ops : List (Op F)
  /-- Assignment. -/
  run : Table F → Table F
  /-- Variables read. -/
  needs : Var → Prop
  /-- What the call expects of the constant and public input columns and of its own rows before it runs. -/
  pre : Table F → Prop

/-- Same contents outside the witness columns. -/
def SameConst (t t' : Table F) : Prop := ∀ ty i r, ty ≠ .witness → t' ty i r = t ty i r

/-- Same contents as far as a block can see. -/
structure Agree (b : Block F) (t t' : Table F) : Prop where
  const : SameConst t t'
  own : ∀ i r, b.start ≤ r → r < b.start + b.rows → t' .witness i r = t .witness i r
  input : ∀ v, b.needs v → v.value t' = v.value t

/-- A block is complete, stays in its rows, and its obligations concern its rows and inputs only. -/
structure Block.Good (c : Cols) (b : Block F) : Prop where
  frame : ∀ t, Frame c b.start b.rows t (b.run t)
  sat : ∀ t, b.pre t → (∀ v, b.needs v → v.Outside b.start b.rows) → Sat (b.run t) b.ops
  stable : ∀ t t', Agree b t t' → Sat t b.ops → Sat t' b.ops
  pre_stable : ∀ t t', SameConst t t' → (∀ i r, b.start ≤ r → r < b.start + b.rows → t' .witness i r = t .witness i r) →
    b.pre t → b.pre t'

def totalRows (bs : List (Block F)) : ℕ := (bs.map Block.rows).sum

def runAll (bs : List (Block F)) (t : Table F) : Table F := bs.foldl (fun t b => b.run t) t

/-- Consecutive placement from row `s`; every block reads outside the rows of itself and of its successors. -/
def Laid (s : ℤ) : List (Block F) → Prop
  | [] => True
  | b :: bs => b.start = s ∧ (∀ v, b.needs v → v.Outside s (totalRows (b :: bs))) ∧ Laid (s + b.rows) bs

/-- Consecutive placement from row `s`; every block reads outside the rows from itself up to `e`. -/
def Placed (e : ℤ) : ℤ → List (Block F) → Prop
  | _, [] => True
  | s, b :: bs => b.start = s ∧ (∀ v, b.needs v → v.type = .witness → v.rotation < s ∨ e ≤ v.rotation) ∧
      Placed e (s + b.rows) bs

theorem Frame.sameConst {c : Cols} {s : ℤ} {n : ℕ} {t t' : Table F} (h : Frame c s n t t') : SameConst t t' :=
  fun ty i r hty => h ty i r fun hh => hty hh.1

theorem Var.Outside.mono {v : Var} {s s' : ℤ} {n n' : ℕ} (h : v.Outside s n) (h1 : s ≤ s') (h2 : s' + n' ≤ s + n) :
    v.Outside s' n' := by
  intro hv
  rcases h hv with h | h <;> [left; right] <;> omega

theorem laid_start {bs : List (Block F)} {s : ℤ} (hl : Laid s bs) : ∀ b ∈ bs, s ≤ b.start := by
  induction bs generalizing s with
  | nil => simp
  | cons b bs ih =>
    intro x hx
    rcases List.mem_cons.1 hx with rfl | hx
    · rw [hl.1]
    · have := ih hl.2.2 x hx; omega

/-- The sequence is complete. -/
theorem seq_complete {c : Cols} {bs : List (Block F)} (hg : ∀ b ∈ bs, b.Good c) {s : ℤ} (hl : Laid s bs) (t : Table F)
    (hp : ∀ b ∈ bs, b.pre t) :
    Sat (runAll bs t) (bs.flatMap Block.ops) ∧ Frame c s (totalRows bs) t (runAll bs t) := by
  induction bs generalizing s t with
  | nil => exact ⟨by simp, Frame.refl _ _ _ _⟩
  | cons b bs ih =>
    obtain ⟨rfl, ho, hl⟩ := hl
    have gb := hg b (by simp)
    have tot : totalRows (b :: bs) = b.rows + totalRows bs := by simp [totalRows]
    have fb := gb.frame t
    obtain ⟨i1, i2⟩ := ih (fun x hx => hg x (by simp [hx])) hl (b.run t)
      (fun x hx => (hg x (by simp [hx])).pre_stable _ _ fb.sameConst
        (fun i r h1 _ => fb.row (by have := laid_start hl x hx; omega) _ _) (hp x (by simp [hx])))
    have e : runAll (b :: bs) t = runAll bs (b.run t) := rfl
    rw [e, List.flatMap_cons, sat_append]
    refine ⟨⟨?_, i1⟩, ?_⟩
    · refine gb.stable (b.run t) _ ⟨i2.sameConst, fun i r h1 h2 => i2.row (by omega) _ _, fun v hv => ?_⟩ ?_
      · exact i2.outside ((ho v hv).mono (by omega) (by rw [tot]; push_cast; omega))
      · exact gb.sat t (hp b (by simp)) fun v hv => (ho v hv).mono (by omega) (by rw [tot]; push_cast; omega)
    · exact (fb.mono (by omega) (by rw [tot]; push_cast; omega)).trans (i2.mono (by omega) (by rw [tot]; push_cast; omega))

/-- Placement by index. -/
theorem laid_of_get {bs : List (Block F)} {s : ℤ}
    (h : ∀ i (hi : i < bs.length), bs[i].start = s + totalRows (bs.take i) ∧
      ∀ v, bs[i].needs v → v.Outside (s + totalRows (bs.take i)) (totalRows (bs.drop i))) : Laid s bs := by
  induction bs generalizing s with
  | nil => trivial
  | cons b bs ih =>
    obtain ⟨h1, h2⟩ := h 0 (by simp)
    refine ⟨by simpa [totalRows] using h1, by simpa [totalRows] using h2, ih fun i hi => ?_⟩
    obtain ⟨h3, h4⟩ := h (i + 1) (by simpa using hi)
    have e : (s + b.rows : ℤ) + totalRows (bs.take i) = s + totalRows ((b :: bs).take (i + 1)) := by
      simp [totalRows]; ring
    rw [e]
    exact ⟨h3, h4⟩

theorem totalRows_append (l l' : List (Block F)) : totalRows (l ++ l') = totalRows l + totalRows l' := by
  simp [totalRows]

theorem runAll_append (l l' : List (Block F)) (t : Table F) : runAll (l ++ l') t = runAll l' (runAll l t) := by
  simp [runAll]

theorem placed_append {e s : ℤ} {l l' : List (Block F)} :
    Placed e s (l ++ l') ↔ Placed e s l ∧ Placed e (s + totalRows l) l' := by
  induction l generalizing s with
  | nil => simp [Placed, totalRows]
  | cons b l ih =>
    have : s + (b.rows : ℤ) + totalRows l = s + totalRows (b :: l) := by simp [totalRows]; ring
    simp only [List.cons_append, Placed, ih, this, and_assoc]

theorem laid_of_placed {e s : ℤ} {bs : List (Block F)} (h : Placed e s bs) (he : s + totalRows bs ≤ e) : Laid s bs := by
  induction bs generalizing s with
  | nil => trivial
  | cons b bs ih =>
    have tot : totalRows (b :: bs) = b.rows + totalRows bs := by simp [totalRows]
    rw [tot] at he
    push_cast at he
    refine ⟨h.1, fun v hv hw => ?_, ih h.2.2 (by omega)⟩
    rcases h.2.1 v hv hw with h | h
    · exact Or.inl h
    · right; rw [tot]; push_cast; omega

/-- A loop: turn `i` starts `f i` rows down. -/
theorem placed_range {e s : ℤ} {g : ℕ → List (Block F)} {f : ℕ → ℕ} (h0 : f 0 = 0) {n : ℕ}
    (hs : ∀ i < n, f (i + 1) = f i + totalRows (g i)) (h : ∀ i < n, Placed e (s + f i) (g i)) :
    Placed e s ((List.range n).flatMap g) ∧ totalRows ((List.range n).flatMap g) = f n := by
  induction n with
  | zero => simp [Placed, totalRows, h0]
  | succ n ih =>
    obtain ⟨i1, i2⟩ := ih (fun i hi => hs i (by omega)) (fun i hi => h i (by omega))
    rw [List.range_succ, List.flatMap_append, placed_append, totalRows_append, i2]
    simp only [List.flatMap_cons, List.flatMap_nil, List.append_nil]
    exact ⟨⟨i1, h n (by omega)⟩, (hs n (by omega)).symm⟩

end Verif
