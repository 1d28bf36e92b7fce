import Verif.Model.Connectedness
import Mathlib.Tactic.Linarith

/-!
# Connectedness checks: C50
-/

set_option linter.unusedSimpArgs false
set_option linter.unusedVariables false

namespace Verif
namespace Connectedness

/-- The cell a gate variable denotes on a row. -/
def cell (row : ℕ) (v : Var) : Var := ⟨v.index, row + v.rotation, false, v.type⟩

/-- Specification: two cells are directly linked when an enabled gate reads both, or a copy constraint equates them. -/
inductive Step (C : Circ) : Var → Var → Prop
  | gate (g : List Var × (ℕ → Bool)) (hg : g ∈ C.gates) (row : ℕ) (h1 : C.start ≤ row) (h2 : row < C.start + C.rows)
      (hon : g.2 row = true) (v v' : Var) (hv : v ∈ g.1) (hv' : v' ∈ g.1) : Step C (cell row v) (cell row v')
  | copy (c : Var × Var) (hc : c ∈ C.copies) : Step C c.1 c.2

/-- Specification: linked by a chain. -/
def Linked (C : Circ) : Var → Var → Prop := Relation.EqvGen (Step C)

/-- A cell of the row range: a witness, the constant column, or the public input column. -/
def Valid (C : Circ) (v : Var) : Prop :=
  v.relative = false ∧
  ((v.type = .witness ∧ v.index < C.nw ∧ (C.start : ℤ) ≤ v.rotation ∧ v.rotation < C.start + C.rows) ∨
   (v.type = .constant ∧ v.index < C.nc ∧ (C.start : ℤ) ≤ v.rotation ∧ v.rotation < C.start + C.rows) ∨
   (v.type = .publicInput ∧ v.index = 0 ∧ 0 ≤ v.rotation))

/-- The circuit only mentions cells of the range, gates only witnesses and constants; one constant column at most (the
address of a constant ignores its column). -/
structure WF (C : Circ) : Prop where
  nc : C.nc ≤ 1
  gate : ∀ g ∈ C.gates, ∀ row, C.start ≤ row → row < C.start + C.rows → g.2 row = true → ∀ v ∈ g.1,
    (v.type = .witness ∨ v.type = .constant) ∧ Valid C (cell row v)
  copy : ∀ c ∈ C.copies, Valid C c.1 ∧ Valid C c.2

theorem gateAddr_eq (C : Circ) (row : ℕ) (v : Var) (h : v.type = .witness ∨ v.type = .constant) :
    gateAddr C row v = copyAddr C (cell row v) := by
  have : (row : ℤ) - C.start + v.rotation = row + v.rotation - C.start := by ring
  rcases h with h | h <;> simp only [gateAddr, copyAddr, cell, h, this]

theorem block_lt {q n rs k : ℕ} (hq : q < n) (hk : k < rs) : q * rs + k < rs * n := by
  have : (q + 1) * rs ≤ n * rs := Nat.mul_le_mul_right _ hq
  rw [Nat.succ_mul] at this
  rw [mul_comm rs n]
  omega

theorem block_inj {W a b w v : ℕ} (hw : w < W) (hv : v < W) (h : a * W + w = b * W + v) : a = b ∧ w = v := by
  have h1 : (a * W + w) / W = a := by
    rw [mul_comm, Nat.mul_add_div (by omega), Nat.div_eq_of_lt hw, add_zero]
  have h2 : (b * W + v) / W = b := by
    rw [mul_comm, Nat.mul_add_div (by omega), Nat.div_eq_of_lt hv, add_zero]
  rw [h, h2] at h1
  subst h1
  exact ⟨rfl, by omega⟩

/-- In the row range: block number and offset of an address. -/
theorem addr_split {C : Circ} (hnc : C.nc ≤ 1) {v : Var} (hv : Valid C v) (ht : v.type = .witness ∨ v.type = .constant) :
    ∃ k < C.rowSize, (v.rotation - C.start).toNat < C.rows ∧ copyAddr C v = (v.rotation - C.start).toNat * C.rowSize + k ∧
      (v.type = .witness → k = v.index ∧ k < C.nw) ∧ (v.type = .constant → k = C.nw ∧ v.index = 0) := by
  obtain ⟨_, h | h | h⟩ := hv
  · obtain ⟨a, b, c, d⟩ := h
    refine ⟨v.index, by unfold Circ.rowSize; omega, by omega, by simp only [copyAddr, a], fun _ => ⟨rfl, b⟩, fun h => by rw [a] at h; cases h⟩
  · obtain ⟨a, b, c, d⟩ := h
    have : C.nc = 1 := by omega
    refine ⟨C.nw, by unfold Circ.rowSize; omega, by omega, ?_, fun h => (by rw [a] at h; cases h), fun _ => ⟨rfl, by omega⟩⟩
    simp only [copyAddr, a, Circ.rowSize, this]
    omega
  · rw [h.1] at ht
    rcases ht with ht | ht <;> cases ht

theorem var_ext {v w : Var} (h1 : v.index = w.index) (h2 : v.rotation = w.rotation) (h3 : v.relative = w.relative)
    (h4 : v.type = w.type) : v = w := by
  cases v; cases w
  simp only at h1 h2 h3 h4
  subst h1 h2 h3 h4
  rfl

theorem copyAddr_inj {C : Circ} (hnc : C.nc ≤ 1) {v w : Var} (hv : Valid C v) (hw : Valid C w)
    (h : copyAddr C v = copyAddr C w) : v = w := by
  have hcase : ∀ {x : Var}, Valid C x → (x.type = .witness ∨ x.type = .constant) ∨
      (x.type = .publicInput ∧ x.index = 0 ∧ 0 ≤ x.rotation) := by
    rintro x ⟨_, h | h | h⟩
    · exact Or.inl (Or.inl h.1)
    · exact Or.inl (Or.inr h.1)
    · exact Or.inr h
  have hrow : ∀ {x : Var}, Valid C x → (x.type = .witness ∨ x.type = .constant) → (C.start : ℤ) ≤ x.rotation := by
    rintro x ⟨_, h | h | h⟩ ht
    · exact h.2.2.1
    · exact h.2.2.1
    · rw [h.1] at ht; rcases ht with ht | ht <;> cases ht
  have hlt : ∀ {x : Var}, Valid C x → (x.type = .witness ∨ x.type = .constant) → copyAddr C x < C.rowSize * C.rows := by
    intro x hx ht
    obtain ⟨k, a, b, c, _⟩ := addr_split hnc hx ht
    rw [c]
    exact block_lt b a
  rcases hcase hv with tv | ⟨tv, iv, rv⟩ <;> rcases hcase hw with tw | ⟨tw, iw, rw'⟩
  · obtain ⟨k, a1, b1, c1, d1, e1⟩ := addr_split hnc hv tv
    obtain ⟨k', a2, b2, c2, d2, e2⟩ := addr_split hnc hw tw
    rw [c1, c2] at h
    obtain ⟨hq, rfl⟩ := block_inj a1 a2 h
    have r1 := hrow hv tv
    have r2 := hrow hw tw
    have hrot : v.rotation = w.rotation := by omega
    have hrel : v.relative = w.relative := by rw [hv.1, hw.1]
    rcases tv with tv | tv <;> rcases tw with tw | tw
    · exact var_ext (by rw [← (d1 tv).1, ← (d2 tw).1]) hrot hrel (by rw [tv, tw])
    · have := (d1 tv).2; have := (e2 tw).1; omega
    · have := (d2 tw).2; have := (e1 tv).1; omega
    · exact var_ext (by rw [(e1 tv).2, (e2 tw).2]) hrot hrel (by rw [tv, tw])
  · have := hlt hv tv
    rw [h] at this
    simp only [copyAddr, tw] at this
    omega
  · have := hlt hw tw
    rw [← h] at this
    simp only [copyAddr, tv] at this
    omega
  · simp only [copyAddr, tv, tw] at h
    exact var_ext (by rw [iv, iw]) (by omega) (by rw [hv.1, hw.1]) (by rw [tv, tw])

theorem mem_onRows {C : Circ} {sel : ℕ → Bool} {row : ℕ} :
    row ∈ onRows C sel ↔ (C.start ≤ row ∧ row < C.start + C.rows) ∧ sel row = true := by
  unfold onRows
  rw [List.mem_filter, List.mem_map]
  refine and_congr_left fun _ => ⟨?_, ?_⟩
  · rintro ⟨k, hk, rfl⟩
    rw [List.mem_range] at hk
    omega
  · intro h
    exact ⟨row - C.start, by rw [List.mem_range]; omega, by omega⟩

theorem step_valid {C : Circ} (h : WF C) {x y : Var} (hs : Step C x y) : Valid C x ∧ Valid C y := by
  cases hs with
  | gate g hg row h1 h2 hon v v' hv hv' => exact ⟨(h.gate g hg row h1 h2 hon v hv).2, (h.gate g hg row h1 h2 hon v' hv').2⟩
  | copy c hc => exact h.copy c hc

/-- Every `union_set` call joins two linked cells. -/
theorem unions_sound {C : Circ} (h : WF C) {p : ℕ × ℕ} (hp : p ∈ unions C) :
    ∃ x y, Step C x y ∧ p = (copyAddr C x, copyAddr C y) := by
  rcases List.mem_append.1 hp with hp | hp
  · obtain ⟨g, hg, hp⟩ := List.mem_flatMap.1 hp
    obtain ⟨row, hrow, hp⟩ := List.mem_flatMap.1 hp
    obtain ⟨⟨h1, h2⟩, hon⟩ := mem_onRows.1 hrow
    rcases hgv : g.1 with _ | ⟨v0, vs⟩
    · rw [hgv] at hp; simp at hp
    · rw [hgv] at hp
      simp only [] at hp
      rw [← hgv] at hp
      obtain ⟨v, hv, rfl⟩ := List.mem_map.1 hp
      have hv0 : v0 ∈ g.1 := by rw [hgv]; simp
      refine ⟨cell row v, cell row v0, .gate g hg row h1 h2 hon v v0 hv hv0, ?_⟩
      rw [gateAddr_eq C row v (h.gate g hg row h1 h2 hon v hv).1, gateAddr_eq C row v0 (h.gate g hg row h1 h2 hon v0 hv0).1]
  · obtain ⟨c, hc, rfl⟩ := List.mem_map.1 hp
    exact ⟨c.1, c.2, .copy c hc, rfl⟩

/-- Linked cells end up in one zone. -/
theorem find_of_step {C : Circ} (h : WF C) {x y : Var} (hs : Step C x y) : find C (copyAddr C x) = find C (copyAddr C y) := by
  cases hs with
  | gate g hg row h1 h2 hon v v' hv hv' =>
    have key : ∀ v ∈ g.1, ∀ v0 vs, g.1 = v0 :: vs → find C (copyAddr C (cell row v)) = find C (copyAddr C (cell row v0)) := by
      intro v hv v0 vs he
      have hv0 : v0 ∈ g.1 := by rw [he]; simp
      refine ufOf_of_mem (List.mem_append_left _ (List.mem_flatMap.2 ⟨g, hg, List.mem_flatMap.2
        ⟨row, mem_onRows.2 ⟨⟨h1, h2⟩, hon⟩, ?_⟩⟩))
      rw [← gateAddr_eq C row v (h.gate g hg row h1 h2 hon v hv).1, ← gateAddr_eq C row v0 (h.gate g hg row h1 h2 hon v0 hv0).1]
      rw [he]
      simp only []
      rw [← he]
      exact List.mem_map.2 ⟨v, hv, rfl⟩
    rcases hgv : g.1 with _ | ⟨v0, vs⟩
    · rw [hgv] at hv; simp at hv
    · exact (key v hv v0 vs hgv).trans (key v' hv' v0 vs hgv).symm
  | copy c hc => exact ufOf_of_mem (List.mem_append_right _ (List.mem_map.2 ⟨c, hc, rfl⟩))

/-- **C50**: two cells are in one zone iff a chain of constraints links them. -/
theorem zones_iff_partial {C : Circ} (h : WF C) {x y : Var} (hx : Valid C x) (hy : Valid C y) :
    find C (copyAddr C x) = find C (copyAddr C y) ↔ Linked C x y := by
  constructor
  · intro he
    have key : ∀ p q, Relation.EqvGen (fun a b => (a, b) ∈ unions C) p q →
        p = q ∨ ∃ a b, Valid C a ∧ Valid C b ∧ copyAddr C a = p ∧ copyAddr C b = q ∧ Linked C a b := by
      intro p q hpq
      induction hpq with
      | rel p q hp =>
        obtain ⟨a, b, hs, hab⟩ := unions_sound h hp
        obtain ⟨ha, hb⟩ := step_valid h hs
        injection hab with h1 h2
        exact Or.inr ⟨a, b, ha, hb, h1.symm, h2.symm, .rel _ _ hs⟩
      | refl => exact Or.inl rfl
      | symm p q _ ih =>
        rcases ih with ih | ⟨a, b, ha, hb, h1, h2, hl⟩
        · exact Or.inl ih.symm
        · exact Or.inr ⟨b, a, hb, ha, h2, h1, .symm _ _ hl⟩
      | trans p q r _ _ ih1 ih2 =>
        rcases ih1 with rfl | ⟨a, b, ha, hb, h1, h2, hl⟩
        · exact ih2
        · rcases ih2 with rfl | ⟨c, d, hc, hd, h3, h4, hl'⟩
          · exact Or.inr ⟨a, b, ha, hb, h1, h2, hl⟩
          · have : b = c := copyAddr_inj h.nc hb hc (h2.trans h3.symm)
            subst this
            exact Or.inr ⟨a, d, ha, hd, h1, h4, .trans _ _ _ hl hl'⟩
    rcases key _ _ ((ufOf_iff _ _ _).1 he) with h1 | ⟨a, b, ha, hb, h1, h2, hl⟩
    · rw [copyAddr_inj h.nc hx hy h1]
      exact .refl _
    · rw [← copyAddr_inj h.nc ha hx h1, ← copyAddr_inj h.nc hb hy h2]
      exact hl
  · intro hl
    have : ∀ x y, Linked C x y → find C (copyAddr C x) = find C (copyAddr C y) := by
      intro x y hl
      induction hl with
      | rel _ _ hs => exact find_of_step h hs
      | refl => rfl
      | symm _ _ _ ih => exact ih.symm
      | trans _ _ _ _ _ ih1 ih2 => exact ih1.trans ih2
    exact this x y hl

/-- **C50**: the strong check passes iff all inputs and outputs are linked to one another. -/
theorem strong_iff_partial {C : Circ} (h : WF C) (ins outs : List Var) (hne : ins ≠ []) (hv : ∀ v ∈ ins ++ outs, Valid C v) :
    strong C ins outs = true ↔ ∀ v ∈ ins ++ outs, ∀ w ∈ ins ++ outs, Linked C v w := by
  obtain ⟨v0, vs, rfl⟩ : ∃ v0 vs, ins = v0 :: vs := by
    cases ins with
    | nil => exact absurd rfl hne
    | cons a l => exact ⟨a, l, rfl⟩
  have h0 : v0 ∈ (v0 :: vs) ++ outs := by simp
  have : strong C (v0 :: vs) outs = true ↔ ∀ v ∈ (v0 :: vs) ++ outs, find C (copyAddr C v) = find C (copyAddr C v0) := by
    simp only [strong, Bool.and_eq_true, List.all_eq_true, beq_iff_eq, List.mem_append]
    constructor
    · rintro ⟨a, b⟩ v (hv | hv)
      · exact a v hv
      · exact b v hv
    · intro a
      exact ⟨fun v hv => a v (Or.inl hv), fun v hv => a v (Or.inr hv)⟩
  rw [this]
  constructor
  · intro a v h1 w h2
    exact (zones_iff_partial h (hv v h1) (hv w h2)).1 ((a v h1).trans (a w h2).symm)
  · intro a v h1
    exact (zones_iff_partial h (hv v h1) (hv v0 h0)).2 (a v h1 v0 h0)

/-- The weak check passes iff every output is linked to an input and every input to an output. -/
theorem weak_iff_partial {C : Circ} (h : WF C) (ins outs : List Var) (hv : ∀ v ∈ ins ++ outs, Valid C v) :
    weak C ins outs = true ↔ (∀ v ∈ outs, ∃ w ∈ ins, Linked C v w) ∧ ∀ v ∈ ins, ∃ w ∈ outs, Linked C v w := by
  have hi : ∀ v ∈ ins, Valid C v := fun v h => hv v (List.mem_append_left _ h)
  have ho : ∀ v ∈ outs, Valid C v := fun v h => hv v (List.mem_append_right _ h)
  simp only [weak, Bool.and_eq_true, List.all_eq_true, List.contains_iff_mem, List.mem_map]
  constructor
  · rintro ⟨a, b⟩
    exact ⟨fun v hv => let ⟨w, hw, he⟩ := a v hv; ⟨w, hw, (zones_iff_partial h (ho v hv) (hi w hw)).1 he.symm⟩,
      fun v hv => let ⟨w, hw, he⟩ := b v hv; ⟨w, hw, (zones_iff_partial h (hi v hv) (ho w hw)).1 he.symm⟩⟩
  · rintro ⟨a, b⟩
    exact ⟨fun v hv => let ⟨w, hw, he⟩ := a v hv; ⟨w, hw, ((zones_iff_partial h (ho v hv) (hi w hw)).2 he).symm⟩,
      fun v hv => let ⟨w, hw, he⟩ := b v hv; ⟨w, hw, ((zones_iff_partial h (hi v hv) (ho w hw)).2 he).symm⟩⟩

/-- Specification: the cells occurring in constraints of the range. -/
def Constrained (C : Circ) (x : Var) : Prop := ∃ y, Step C x y ∨ Step C y x

/-- The island check passes iff every constrained cell is linked to an input or output. -/
theorem islands_iff_partial {C : Circ} (h : WF C) (ins outs : List Var) (hv : ∀ v ∈ ins ++ outs, Valid C v) :
    islands C ins outs = true ↔ ∀ x, Constrained C x → ∃ w ∈ ins ++ outs, Linked C x w := by
  simp only [islands, Bool.and_eq_true, List.all_eq_true, List.contains_iff_mem, List.mem_map]
  constructor
  · rintro ⟨a, b⟩ x ⟨y, hxy⟩
    have hval : Valid C x := by rcases hxy with hxy | hxy; exacts [(step_valid h hxy).1, (step_valid h hxy).2]
    have main : ∃ w ∈ ins ++ outs, find C (copyAddr C w) = find C (copyAddr C x) := by
      rcases hxy with hxy | hxy
      · cases hxy with
        | gate g hg row h1 h2 hon v v' hv1 hv' =>
          have := a g hg row (mem_onRows.2 ⟨⟨h1, h2⟩, hon⟩) v hv1
          rwa [gateAddr_eq C row v (h.gate g hg row h1 h2 hon v hv1).1] at this
        | copy c hc => exact (b c hc).1
      · cases hxy with
        | gate g hg row h1 h2 hon v v' hv1 hv' =>
          have := a g hg row (mem_onRows.2 ⟨⟨h1, h2⟩, hon⟩) v' hv'
          rwa [gateAddr_eq C row v' (h.gate g hg row h1 h2 hon v' hv').1] at this
        | copy c hc => exact (b c hc).2
    obtain ⟨w, hw, he⟩ := main
    exact ⟨w, hw, (zones_iff_partial h hval (hv w hw)).1 he.symm⟩
  · intro a
    have use : ∀ x, Constrained C x → Valid C x → ∃ w ∈ ins ++ outs, find C (copyAddr C w) = find C (copyAddr C x) := by
      intro x hx hval
      obtain ⟨w, hw, hl⟩ := a x hx
      exact ⟨w, hw, ((zones_iff_partial h hval (hv w hw)).2 hl).symm⟩
    refine ⟨fun g hg row hrow v hv1 => ?_, fun c hc => ⟨?_, ?_⟩⟩
    · obtain ⟨⟨h1, h2⟩, hon⟩ := mem_onRows.1 hrow
      rw [gateAddr_eq C row v (h.gate g hg row h1 h2 hon v hv1).1]
      exact use _ ⟨_, Or.inl (.gate g hg row h1 h2 hon v v hv1 hv1)⟩ (h.gate g hg row h1 h2 hon v hv1).2
    · exact use _ ⟨_, Or.inl (.copy c hc)⟩ (h.copy c hc).1
    · exact use _ ⟨_, Or.inr (.copy c hc)⟩ (h.copy c hc).2

/-- With two or more constant columns the claim fails: the address of a constant ignores its column, so an input copied
to one constant and an output copied to an unrelated constant of the same row count as connected. -/
theorem zones_refuted (nw nc : ℕ) (hw : 2 ≤ nw) (hnc : 2 ≤ nc) :
    let x : Var := ⟨0, 0, false, .witness⟩
    let y : Var := ⟨1, 0, false, .witness⟩
    let C : Circ := ⟨nw, nc, 0, 1, [], [(x, ⟨0, 0, false, .constant⟩), (y, ⟨1, 0, false, .constant⟩)]⟩
    (∀ c ∈ C.copies, Valid C c.1 ∧ Valid C c.2) ∧ strong C [x] [y] = true ∧ ¬ Linked C x y := by
  intro x y C
  refine ⟨?_, ?_, ?_⟩
  · intro c hc
    simp only [C, List.mem_cons, List.not_mem_nil, or_false] at hc
    rcases hc with rfl | rfl <;> simp [Valid, C, x, y] <;> omega
  · have h1 : find C (copyAddr C x) = find C (copyAddr C ⟨0, 0, false, .constant⟩) :=
      ufOf_of_mem (by simp [unions, C])
    have h2 : find C (copyAddr C y) = find C (copyAddr C ⟨1, 0, false, .constant⟩) :=
      ufOf_of_mem (by simp [unions, C])
    have h3 : copyAddr C ⟨1, 0, false, .constant⟩ = copyAddr C ⟨0, 0, false, .constant⟩ := rfl
    simp [strong, h1, h2, h3]
  · intro hl
    -- cells of column/constant 0 are only linked to one another
    have key : ∀ a b, Linked C a b → (a.index = 0 ↔ b.index = 0) := by
      intro a b hab
      induction hab with
      | rel a b hs =>
        cases hs with
        | gate g hg => simp [C] at hg
        | copy c hc =>
          simp only [C, List.mem_cons, List.not_mem_nil, or_false] at hc
          rcases hc with rfl | rfl <;> simp [x, y]
      | refl => exact Iff.rfl
      | symm _ _ _ ih => exact ih.symm
      | trans _ _ _ _ _ ih1 ih2 => exact ih1.trans ih2
    have := (key x y hl).1 rfl
    simp [y] at this

/-- The hypotheses are satisfiable: a gate over two rows with a constant, an input and an output. -/
example : WF ⟨3, 1, 5, 2, [([⟨0, 0, true, .witness⟩, ⟨1, 1, true, .witness⟩, ⟨0, 0, true, .constant⟩], fun r => r == 5)],
    [(⟨0, 0, false, .publicInput⟩, ⟨0, 5, false, .witness⟩)]⟩ := by
  refine ⟨by decide, ?_, ?_⟩
  · intro g hg row h1 h2 hon v hv
    simp only [List.mem_cons, List.not_mem_nil, or_false] at hg
    subst hg
    have : row = 5 := by simpa using hon
    subst this
    simp only [List.mem_cons, List.not_mem_nil, or_false] at hv
    rcases hv with rfl | rfl | rfl <;> simp [Valid, cell]
  · intro c hc
    simp only [List.mem_cons, List.not_mem_nil, or_false] at hc
    subst hc
    simp [Valid]

end Connectedness
end Verif
