import Mathlib.Logic.Relation
import Mathlib.Tactic.SplitIfs
import Mathlib.Data.Nat.Basic

/-!
# Disjoint sets

`boost::disjoint_sets_with_storage<>` (external) is represented by its `find_set` function: uniting two elements
redirects the class of the first to the representative of the second. Which representative boost picks is irrelevant
to every user of it in the library (only equality of representatives is used).
-/

namespace Verif

/-- `union_set(p.1, p.2)`. -/
def unite (f : ℕ → ℕ) (p : ℕ × ℕ) : ℕ → ℕ := fun x => if f x = f p.1 then f p.2 else f x

/-- `find_set` after a sequence of `union_set` calls on singletons. -/
def ufOf (ps : List (ℕ × ℕ)) : ℕ → ℕ := ps.foldl unite id

theorem unite_iff (f : ℕ → ℕ) (p : ℕ × ℕ) (r : ℕ → ℕ → Prop) (h : ∀ x y, f x = f y ↔ Relation.EqvGen r x y) (x y : ℕ) :
    unite f p x = unite f p y ↔ Relation.EqvGen (fun a b => r a b ∨ (a, b) = p) x y := by
  have mono : ∀ {a b}, f a = f b → Relation.EqvGen (fun a b => r a b ∨ (a, b) = p) a b := fun {a b} hab => by
    exact ((h a b).1 hab).mono fun _ _ => Or.inl
  have hp : Relation.EqvGen (fun a b => r a b ∨ (a, b) = p) p.1 p.2 := .rel _ _ (Or.inr rfl)
  constructor
  · intro he
    unfold unite at he
    split_ifs at he with h1 h2 h2
    · exact mono (h1.trans h2.symm)
    · exact ((mono h1).trans _ _ _ hp).trans _ _ _ (mono he)
    · exact (mono he).trans _ _ _ ((hp.symm).trans _ _ _ (mono h2.symm))
    · exact mono he
  · intro he
    induction he with
    | rel a b hab =>
      rcases hab with hab | hab
      · have := (h a b).2 (.rel _ _ hab)
        unfold unite
        rw [this]
      · subst hab
        unfold unite
        simp
    | refl => rfl
    | symm a b _ ih => exact ih.symm
    | trans a b c _ _ ih1 ih2 => exact ih1.trans ih2

/-- Two elements have the same representative iff a chain of united pairs links them. -/
theorem ufOf_iff (ps : List (ℕ × ℕ)) (x y : ℕ) : ufOf ps x = ufOf ps y ↔ Relation.EqvGen (fun a b => (a, b) ∈ ps) x y := by
  have key : ∀ (ps : List (ℕ × ℕ)) (f : ℕ → ℕ) (r : ℕ → ℕ → Prop), (∀ x y, f x = f y ↔ Relation.EqvGen r x y) →
      ∀ x y, ps.foldl unite f x = ps.foldl unite f y ↔ Relation.EqvGen (fun a b => r a b ∨ (a, b) ∈ ps) x y := by
    intro ps
    induction ps with
    | nil => intro f r h x y; simpa using h x y
    | cons p ps ih =>
      intro f r h x y
      rw [List.foldl_cons, ih _ _ (unite_iff f p r h)]
      simp only [List.mem_cons, or_assoc]
  have := key ps id (fun _ _ => False) (fun x y => by
    constructor
    · rintro rfl; exact .refl _
    · intro h
      induction h with
      | rel a b h => exact h.elim
      | refl => rfl
      | symm a b _ ih => exact ih.symm
      | trans a b c _ _ ih1 ih2 => exact ih1.trans ih2) x y
  simpa [ufOf] using this

theorem ufOf_of_mem {ps : List (ℕ × ℕ)} {a b : ℕ} (h : (a, b) ∈ ps) : ufOf ps a = ufOf ps b :=
  (ufOf_iff ps a b).2 (.rel _ _ h)

end Verif
