import Verif.Model.Assignment

/-!
# C03, C04, C06: the assignment table and column indexing
-/

set_option linter.unusedSimpArgs false

namespace Verif
open Asg

section
variable {F : Type*} [Field F]

/-! ## Helper lemmas -/

theorem grow_length (l : List F) (r : ℕ) : (grow l r).length = max l.length (r + 1) := by
  unfold grow; split <;> simp <;> omega

theorem grow_getElem? (l : List F) (r q : ℕ) :
    (grow l r)[q]? = if q < l.length then l[q]? else if q < r + 1 then some 0 else none := by
  unfold grow
  split
  · next h =>
    by_cases hq : q < l.length
    · simp [hq, List.getElem?_append_left]
    · rw [List.getElem?_append_right (by omega), List.getElem?_replicate]
      simp [hq]
      by_cases h2 : q < r + 1
      · simp [h2]; omega
      · simp [h2]; omega
  · next h =>
    by_cases hq : q < l.length
    · simp [hq]
    · simp [hq]; omega

theorem write_read? (a : Asg F) (ty : ColType) (i r : ℕ) (v : F) (ty' : ColType) (i' r' : ℕ) :
    (a.write ty i r v).read? ty' i' r' =
      if ty' = ty ∧ i' = i then
        if r' = r then some v
        else if r' < (a.cols ty i).length then a.read? ty' i' r'
        else if r' < r + 1 then some 0 else none
      else a.read? ty' i' r' := by
  unfold Asg.read? Asg.write
  by_cases h : ty' = ty ∧ i' = i
  · obtain ⟨rfl, rfl⟩ := h
    simp only [and_self, if_true, List.getElem?_set, grow_length]
    by_cases hr : r' = r
    · subst hr; simp
    · have : r ≠ r' := fun h => hr h.symm
      simp [hr, this, grow_getElem?]
  · simp [h]

/-! ## C03: cells behave like independent variables -/

/-- A write event. -/
abbrev Ev (F : Type*) := ColType × ℕ × ℕ × F

/-- Replaying a history of writes (in order). -/
def replay (evs : List (Ev F)) : Asg F :=
  evs.foldl (fun a e => a.write e.1 e.2.1 e.2.2.1 e.2.2.2) Asg.init

/-- Specification: the most recent value written to a cell, the history being given newest first. -/
def lastWritten : List (Ev F) → ColType → ℕ → ℕ → Option F
  | [], _, _, _ => none
  | e :: es, ty, i, r =>
    if e.1 = ty ∧ e.2.1 = i ∧ e.2.2.1 = r then some e.2.2.2 else lastWritten es ty i r

/-- Specification: some write went to this column at row `r` or later. -/
def Reached (evs : List (Ev F)) (ty : ColType) (i r : ℕ) : Prop :=
  ∃ e ∈ evs, e.1 = ty ∧ e.2.1 = i ∧ r ≤ e.2.2.1

/-- Replay of a newest-first history. -/
theorem replay_reverse_cons (es : List (Ev F)) (e : Ev F) :
    replay (es.reverse ++ [e]) = (replay es.reverse).write e.1 e.2.1 e.2.2.1 e.2.2.2 := by
  simp [replay]

theorem reached_snoc (es : List (Ev F)) (e : Ev F) (ty : ColType) (i r : ℕ) :
    Reached (es ++ [e]) ty i r ↔ Reached es ty i r ∨ (e.1 = ty ∧ e.2.1 = i ∧ r ≤ e.2.2.1) := by
  simp only [Reached, List.mem_append, List.mem_singleton]
  constructor
  · rintro ⟨x, hx | rfl, h⟩
    · exact .inl ⟨x, hx, h⟩
    · exact .inr h
  · rintro (⟨x, hx, h⟩ | h)
    · exact ⟨x, .inl hx, h⟩
    · exact ⟨e, .inr rfl, h⟩

theorem col_length_iff (es : List (Ev F)) (ty : ColType) (i r : ℕ) :
    r < ((replay es.reverse).cols ty i).length ↔ Reached es.reverse ty i r := by
  induction es with
  | nil => simp [Reached, replay, Asg.init]
  | cons e es ih =>
    rw [List.reverse_cons, replay_reverse_cons, reached_snoc, ← ih]
    by_cases hc : ty = e.1 ∧ i = e.2.1
    · obtain ⟨rfl, rfl⟩ := hc
      simp [Asg.write, grow_length]
      omega
    · have : ¬ (e.1 = ty ∧ e.2.1 = i ∧ r ≤ e.2.2.1) := fun h => hc ⟨h.1.symm, h.2.1.symm⟩
      simp only [this, or_false]
      simp [Asg.write, hc]

theorem lastWritten_reached (es : List (Ev F)) (ty : ColType) (i r : ℕ)
    (h : ¬ Reached es.reverse ty i r) : lastWritten es ty i r = none := by
  induction es with
  | nil => rfl
  | cons e es ih =>
    rw [List.reverse_cons, reached_snoc, not_or] at h
    have h2 : ¬ (e.1 = ty ∧ e.2.1 = i ∧ e.2.2.1 = r) := fun h' =>
      h.2 ⟨h'.1, h'.2.1, h'.2.2.ge⟩
    simp only [lastWritten, h2, if_false, ih h.1]

/-- C03, reading: after any history of writes, a cell within reach of some write of its column reads as
the last value written to it, or zero if that cell was never written; any other access is out of range. -/
theorem read_after_history (evs : List (Ev F)) (ty : ColType) (i r : ℕ) :
    (Reached evs ty i r → (replay evs).read? ty i r = some ((lastWritten evs.reverse ty i r).getD 0)) ∧
    (¬ Reached evs ty i r → (replay evs).read? ty i r = none) := by
  obtain ⟨es, rfl⟩ : ∃ es, evs = es.reverse := ⟨evs.reverse, by simp⟩
  rw [List.reverse_reverse]
  constructor
  · induction es with
    | nil => simp [Reached]
    | cons e es ih =>
      intro h
      rw [List.reverse_cons, reached_snoc] at h
      rw [List.reverse_cons, replay_reverse_cons, write_read?]
      by_cases hc : ty = e.1 ∧ i = e.2.1
      · obtain ⟨rfl, rfl⟩ := hc
        by_cases hr : r = e.2.2.1
        · subst hr; simp [lastWritten]
        · have hr' : ¬ e.2.2.1 = r := fun h => hr h.symm
          simp only [and_self, if_true, hr, if_false, lastWritten, true_and, hr']
          by_cases hl : r < ((replay es.reverse).cols e.1 e.2.1).length
          · rw [if_pos hl]
            exact ih ((col_length_iff _ _ _ _).1 hl)
          · rw [if_neg hl]
            rw [col_length_iff] at hl
            have : r < e.2.2.1 + 1 := by
              rcases h with h | h
              · exact absurd h hl
              · omega
            rw [if_pos this, lastWritten_reached _ _ _ _ hl]; rfl
      · have hc' : ¬ (e.1 = ty ∧ e.2.1 = i ∧ e.2.2.1 = r) := fun h => hc ⟨h.1.symm, h.2.1.symm⟩
        have hc2 : ¬ (e.1 = ty ∧ e.2.1 = i ∧ r ≤ e.2.2.1) := fun h => hc ⟨h.1.symm, h.2.1.symm⟩
        simp only [hc, if_false, lastWritten, hc']
        exact ih (by simpa [hc2] using h)
  · intro h
    rw [← col_length_iff] at h
    exact List.getElem?_eq_none (by omega)

/-- C03, row accounting: every written witness or constant row lies below the number of allocated rows,
and the number of allocated rows is never larger than needed for that. -/
theorem alloc_after_history (evs : List (Ev F)) (n : ℕ) :
    (replay evs).alloc ≤ n ↔
      ∀ e ∈ evs, (e.1 = .witness ∨ e.1 = .constant) → e.2.2.1 < n := by
  obtain ⟨es, rfl⟩ : ∃ es, evs = es.reverse := ⟨evs.reverse, by simp⟩
  induction es with
  | nil => simp [replay, Asg.init]
  | cons e es ih =>
    rw [List.reverse_cons, replay_reverse_cons]
    have h1 : (∀ x ∈ es.reverse ++ [e], (x.1 = .witness ∨ x.1 = .constant) → x.2.2.1 < n) ↔
        (∀ x ∈ es.reverse, (x.1 = .witness ∨ x.1 = .constant) → x.2.2.1 < n) ∧
        ((e.1 = .witness ∨ e.1 = .constant) → e.2.2.1 < n) := by
      simp only [List.mem_append, List.mem_singleton]
      exact ⟨fun h => ⟨fun x hx => h x (.inl hx), h e (.inr rfl)⟩,
        fun h x hx => hx.elim (h.1 x) (fun hx => hx ▸ h.2)⟩
    rw [h1, ← ih]
    by_cases ht : e.1 = .witness ∨ e.1 = .constant
    · unfold Asg.write; rw [if_pos ht]; simp only [ht, true_imp_iff]; omega
    · unfold Asg.write; rw [if_neg ht]; simp only [ht, false_imp_iff, and_true]

/-- A history with an overwrite, a gap and another column: the overwritten cell reads the newest value,
the gap reads zero, the row past the end is out of range and five rows are allocated. -/
example : let evs : List (Ev ℚ) :=
      [(.witness, 0, 4, 7), (.witness, 0, 1, 3), (.witness, 0, 4, 9), (.publicInput, 0, 8, 2)]
    Reached evs .witness 0 4 ∧ (replay evs).read? .witness 0 4 = some 9 ∧
    (replay evs).read? .witness 0 2 = some 0 ∧ (replay evs).read? .witness 0 5 = none ∧
    (replay evs).alloc = 5 := by
  refine ⟨⟨(.witness, 0, 4, 9), by simp⟩, ?_, ?_, ?_, ?_⟩ <;>
  simp [replay, Asg.write, Asg.init, Asg.read?, grow, List.replicate]

/-! ## C04: enabling a selector over a range -/

theorem enable_read? (a : Asg F) (s r : ℕ) (ty : ColType) (i q : ℕ) :
    (a.enable s r).read? ty i q = (a.write .selector s r 1).read? ty i q := rfl

/-- Whether a gate with selector `s` is switched on at row `q`: the check of
`satisfiability_check.hpp:113-118` (row inside the selector column and the cell non-zero). -/
def Asg.Active (a : Asg F) (s q : ℕ) : Prop := ∃ v, a.read? .selector s q = some v ∧ v ≠ 0

theorem active_enable (a : Asg F) (s r s' q : ℕ) :
    (a.enable s r).Active s' q ↔ a.Active s' q ∨ (s' = s ∧ q = r) := by
  unfold Asg.Active
  simp only [enable_read?, write_read?, true_and]
  by_cases hs : s' = s
  · subst hs
    by_cases hq : q = r
    · subst hq; simp
    · simp only [if_true, hq, if_false, and_false, or_false]
      by_cases hl : q < (a.cols .selector s').length
      · simp [hl]
      · have hn : a.read? .selector s' q = none := List.getElem?_eq_none (by omega)
        rw [if_neg hl, hn]
        by_cases h2 : q < r + 1 <;> simp [h2]
  · simp [hs]

theorem active_enableLoop (s last step : ℕ) (hs : 0 < step) (a : Asg F) (row s' q : ℕ) :
    (enableLoop a s row last step).Active s' q ↔
      a.Active s' q ∨ (s' = s ∧ ∃ k, q = row + k * step ∧ q ≤ last) := by
  induction hn : last + 1 - row using Nat.strong_induction_on generalizing a row with
  | _ n ih =>
    by_cases h : row ≤ last ∧ 0 < step
    · rw [enableLoop, if_pos h, ih (last + 1 - (row + step)) (by omega) _ _ rfl, active_enable, or_assoc]
      refine or_congr_right ?_
      constructor
      · rintro (⟨h1, rfl⟩ | ⟨h1, k, rfl, h2⟩)
        · exact ⟨h1, 0, by simp, h.1⟩
        · exact ⟨h1, k + 1, by ring, h2⟩
      · rintro ⟨h1, k, rfl, h2⟩
        rcases k with _ | k
        · exact .inl ⟨h1, by simp⟩
        · exact .inr ⟨h1, k, by ring, h2⟩
    · rw [enableLoop, if_neg h]
      constructor
      · exact .inl
      · rintro (h1 | ⟨_, k, rfl, h2⟩)
        · exact h1
        · exact absurd ⟨le_trans (Nat.le_add_right _ _) h2, hs⟩ h

/-- C04: enabling a selector over an inclusive range switches on exactly the rows `first`,
`first + step`, ... up to `last` of that selector, and leaves every other row and selector alone. -/
theorem enableRange_active (a : Asg F) (s first last step : ℕ) (hs : 0 < step) (s' q : ℕ) :
    (a.enableRange s first last step).Active s' q ↔
      a.Active s' q ∨ (s' = s ∧ first ≤ q ∧ q ≤ last ∧ step ∣ q - first) := by
  have : (a.enableRange s first last step).Active s' q ↔
      (enableLoop a s first last step).Active s' q := Iff.rfl
  rw [this, active_enableLoop s last step hs]
  refine or_congr_right (and_congr_right fun _ => ?_)
  constructor
  · rintro ⟨k, rfl, h⟩
    exact ⟨Nat.le_add_right _ _, h, by simp⟩
  · rintro ⟨h1, h2, k, hk⟩
    exact ⟨k, by rw [Nat.mul_comm k step, ← hk]; omega, h2⟩

theorem alloc_enableLoop (s last step : ℕ) (a : Asg F) (row : ℕ) :
    a.alloc ≤ (enableLoop a s row last step).alloc := by
  induction hn : last + 1 - row using Nat.strong_induction_on generalizing a row with
  | _ n ih =>
    by_cases h : row ≤ last ∧ 0 < step
    · rw [enableLoop, if_pos h]
      refine le_trans ?_ (ih (last + 1 - (row + step)) (by omega) _ _ rfl)
      simp [Asg.enable, Asg.write]
    · rw [enableLoop, if_neg h]

theorem alloc_enableLoop_mem (s last step : ℕ) (hs : 0 < step) (a : Asg F) (row k : ℕ)
    (h : row + k * step ≤ last) :
    row + k * step < (enableLoop a s row last step).alloc := by
  induction k generalizing a row with
  | zero =>
    rw [enableLoop, if_pos ⟨by omega, hs⟩]
    refine lt_of_lt_of_le ?_ (alloc_enableLoop _ _ _ _ _)
    simp [Asg.enable, Asg.write]
  | succ k ih =>
    have h' : row + step + k * step ≤ last := by rw [Nat.succ_mul] at h; omega
    rw [enableLoop, if_pos ⟨by omega, hs⟩]
    have := ih (a.enable s row) (row + step) h'
    rw [Nat.succ_mul]; omega

/-- C04: every row switched on is counted as allocated, so the satisfiability check visits it. -/
theorem enableRange_alloc (a : Asg F) (s first last step : ℕ) (hs : 0 < step) (q : ℕ)
    (h1 : first ≤ q) (h2 : q ≤ last) (h3 : step ∣ q - first) :
    q < (a.enableRange s first last step).alloc := by
  obtain ⟨k, hk⟩ := h3
  have hq : q = first + k * step := by rw [Nat.mul_comm, ← hk]; omega
  have := alloc_enableLoop_mem s last step hs a first k (by omega)
  simp only [Asg.enableRange]
  omega

theorem alloc_enableLoop_le (s last step : ℕ) (a : Asg F) (row : ℕ) :
    (enableLoop a s row last step).alloc ≤ max a.alloc (last + 1) := by
  induction hn : last + 1 - row using Nat.strong_induction_on generalizing a row with
  | _ n ih =>
    by_cases h : row ≤ last ∧ 0 < step
    · rw [enableLoop, if_pos h]
      refine le_trans (ih (last + 1 - (row + step)) (by omega) _ _ rfl) ?_
      simp [Asg.enable, Asg.write]
      omega
    · rw [enableLoop, if_neg h]; omega

/-- C04: enabling a range allocates no row past its last one. -/
theorem enableRange_alloc_le (a : Asg F) (s first last step : ℕ) :
    (a.enableRange s first last step).alloc ≤ max a.alloc (last + 1) := by
  have := alloc_enableLoop_le s last step a first
  simp only [Asg.enableRange]
  omega

/-- Rows 1, 3, 5 for the range 1..6 with step 2; row 2 stays off. -/
example : ((Asg.init : Asg ℚ).enableRange 0 1 6 2).Active 0 5 ∧
    ¬ ((Asg.init : Asg ℚ).enableRange 0 1 6 2).Active 0 2 := by
  constructor
  · rw [enableRange_active _ _ _ _ _ (by norm_num)]; right; decide
  · rw [enableRange_active _ _ _ _ _ (by norm_num)]
    rintro (⟨v, h, _⟩ | h)
    · simp [Asg.init, Asg.read?] at h
    · revert h; decide

end

/-! ## C06: column indexing -/

/-- C06: with `n` columns (fewer than `2^31`), index `i` in `-n ≤ i < n` designates column `i`, negative
indices counting from the end (`-1` is the last). -/
theorem col64_spec (l : List ℕ) (i : ℤ) (h1 : -(l.length : ℤ) ≤ i) (h2 : i < l.length)
    (hl : l.length < 2 ^ 31) :
    col64 l i = if 0 ≤ i then l[i.toNat]? else l[l.length - i.natAbs]? := by
  have hpos : l.length ≠ 0 := by omega
  unfold col64
  rw [if_neg hpos]
  by_cases hi : 0 ≤ i
  · rw [if_pos hi]
    have e1 : i % 2 ^ 64 = i := Int.emod_eq_of_lt hi (by omega)
    have e2 : (l.length + i.toNat) % 2 ^ 64 = l.length + i.toNat := Nat.mod_eq_of_lt (by omega)
    rw [e1, e2, Nat.add_mod_left, Nat.mod_eq_of_lt (by omega)]
  · rw [if_neg hi]
    have e1 : i % 2 ^ 64 = i + 2 ^ 64 := by
      rw [← Int.add_emod_right, Int.emod_eq_of_lt (by omega) (by omega)]
    have e2 : (l.length + (i + 2 ^ 64).toNat) % 2 ^ 64 = l.length - i.natAbs := by omega
    rw [e1, e2, Nat.mod_eq_of_lt (by omega)]

/-- The machine-level indexing agrees with the `colAt` used by all component models, on the index range
the components use. -/
theorem col64_eq_colAt (l : List ℕ) (i : ℤ) (h1 : -(l.length : ℤ) ≤ i) (h2 : i < l.length)
    (hl : l.length < 2 ^ 31) : col64 l i = some (colAt l i) := by
  rw [col64_spec l i h1 h2 hl]
  unfold colAt
  by_cases hi : 0 ≤ i
  · rw [if_pos hi]
    have e : ((l.length + i) % l.length).toNat = i.toNat := by
      rw [Int.add_emod_left, Int.emod_eq_of_lt hi h2]
    rw [e, List.getD, List.getElem?_eq_getElem (by omega)]; rfl
  · rw [if_neg hi]
    have e : ((l.length + i) % l.length).toNat = l.length - i.natAbs := by
      rw [Int.emod_eq_of_lt (by omega) (by omega)]; omega
    rw [e, List.getD, List.getElem?_eq_getElem (by omega)]; rfl

example : col64 [5, 3, 8] (-1) = some 8 ∧ col64 [5, 3, 8] (-3) = some 5 ∧ col64 [5, 3, 8] 1 = some 3 := by
  refine ⟨?_, ?_, ?_⟩ <;> rw [col64_spec] <;> simp

end Verif
