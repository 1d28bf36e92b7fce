import Verif.Core.Grid

/-!
# Filling a rectangle of cells

Tables built by a dishonest prover: every cell of some rows of the columns of a component gets a chosen value.
-/

namespace Verif

theorem paint {F : Type*} {c : Cols} {w : ℕ} (hc : c.OK w) (row : ℤ) (rows : ℕ) (g : ℕ → ℕ → F) (t : Table F) :
    ∃ t', Frame c row rows t t' ∧ ∀ r j : ℕ, r < rows → j < w → t' .witness (c.w j) (row + r) = g r j := by
  have hg : GridWrites c row w rows g ((List.range rows).flatMap fun r : ℕ => (List.range w).map fun j : ℕ =>
      (⟨.witness, c.w j, row + r, g r j⟩ : Write F)) := by
    intro x hx
    simp only [List.mem_flatMap, List.mem_range, List.mem_map] at hx
    obtain ⟨r, hr, j, hj, rfl⟩ := hx
    exact ⟨r, hr, j, hj, rfl⟩
  refine ⟨_, (hg.own hc).frame t, fun r j hr hj => hg.read hc t hj ?_⟩
  simp only [List.mem_flatMap, List.mem_range, List.mem_map]
  exact ⟨r, hr, j, hj, rfl⟩

end Verif
