import Verif.Model.Circuit
import Verif.Props.Assignment
import Mathlib.Data.List.Induction

/-!
# C01, C02, C05: circuit construction and satisfiability
-/

set_option linter.unusedSimpArgs false
set_option linter.unusedSectionVars false

namespace Verif
open Circuit

section
variable {F K L : Type*} [Field F] [DecidableEq F] [DecidableEq K] [DecidableEq L]
variable (gid : GArg F → K) (lid : List (LookupC F) → L)

/-! ## Specification -/

/-- The obligation a command stands for, on the final table: this is what the circuit author meant. A copy
constraint with a private-storage variable stands for nothing. -/
def Cmd.Meaning (lk : ℕ → List F → Bool) (t : Table F) : Cmd F → Prop
  | .gate g rows => ∀ r ∈ rows, ∀ c ∈ g.cs, c.eval t (r : ℤ) = 0
  | .lookup l rows => ∀ r ∈ rows, ∀ x ∈ l, lk x.table (x.inputs.map (Expr.eval t (r : ℤ))) = true
  | .copy a b => a.index ≠ privIdx → b.index ≠ privIdx → a.value t = b.value t
  | .dyn => True
  | .write _ _ _ _ => True

/-- Gate ids are faithful on the gates of a history: gates with equal ids have the same solutions at every
row of every table. (In the code ids are evaluations at random points, so this holds up to a
Schwartz–Zippel error; `Verif.Props.GateId` looks at the ids themselves.) -/
def FaithfulG (cmds : List (Cmd F)) (gid : GArg F → K) : Prop :=
  ∀ g rows g' rows', Cmd.gate g rows ∈ cmds → Cmd.gate g' rows' ∈ cmds → gid g = gid g' →
  ∀ (t : Table F) (r : ℤ), (∀ c ∈ g.cs, c.eval t r = 0) ↔ (∀ c ∈ g'.cs, c.eval t r = 0)

/-- The same for lookup gates. -/
def FaithfulL (cmds : List (Cmd F)) (lk : ℕ → List F → Bool) (lid : List (LookupC F) → L) : Prop :=
  ∀ l rows l' rows', Cmd.lookup l rows ∈ cmds → Cmd.lookup l' rows' ∈ cmds → lid l = lid l' →
  ∀ (t : Table F) (r : ℤ),
  (∀ x ∈ l, lk x.table (x.inputs.map (Expr.eval t r)) = true) ↔
  (∀ x ∈ l', lk x.table (x.inputs.map (Expr.eval t r)) = true)

/-- Selector columns are written through `enable_selector` only. -/
def NoSelectorWrite : Cmd F → Prop
  | .write ty _ _ _ => ty ≠ .selector
  | _ => True

/-! ## Invariant -/

/-- Invariant relating a history to the state it produces. -/
structure Inv (cmds : List (Cmd F)) (st : Circuit F K L × Asg F) : Prop where
  g1 : ∀ p ∈ st.1.gates, ∃ g rows, Cmd.gate g rows ∈ cmds ∧ g.cs = p.2 ∧
    st.1.selMap (gid g) = some p.1
  g2 : ∀ k s, st.1.selMap k = some s → s < st.1.next ∧ ∃ g rows, Cmd.gate g rows ∈ cmds ∧
    gid g = k ∧ (s, g.cs) ∈ st.1.gates
  g3 : ∀ k k' s, st.1.selMap k = some s → st.1.selMap k' = some s → k = k'
  l1 : ∀ p ∈ st.1.lookups, (∃ rows, Cmd.lookup p.2 rows ∈ cmds) ∧ st.1.lookMap (lid p.2) = some p.1
  l2 : ∀ k s, st.1.lookMap k = some s → s < st.1.next ∧ ∃ l rows, Cmd.lookup l rows ∈ cmds ∧
    lid l = k ∧ (s, l) ∈ st.1.lookups
  l3 : ∀ k k' s, st.1.lookMap k = some s → st.1.lookMap k' = some s → k = k'
  gl : ∀ k k' s, st.1.selMap k = some s → st.1.lookMap k' = some s → False
  h1 : ∀ g rows, Cmd.gate g rows ∈ cmds → ∃ s, st.1.selMap (gid g) = some s ∧ ∀ r ∈ rows, st.2.Active s r
  h2 : ∀ l rows, Cmd.lookup l rows ∈ cmds → ∃ s, st.1.lookMap (lid l) = some s ∧ ∀ r ∈ rows, st.2.Active s r
  a1 : ∀ s q, st.2.Active s q →
    (∃ g rows, Cmd.gate g rows ∈ cmds ∧ q ∈ rows ∧ st.1.selMap (gid g) = some s) ∨
    (∃ l rows, Cmd.lookup l rows ∈ cmds ∧ q ∈ rows ∧ st.1.lookMap (lid l) = some s)
  al : ∀ s q, st.2.Active s q → q < st.2.alloc
  cp : ∀ a b, (a, b) ∈ st.1.copies ↔
    Cmd.copy a b ∈ cmds ∧ a ≠ b ∧ a.index ≠ privIdx ∧ b.index ≠ privIdx

theorem active_enableRows (a : Asg F) (s : ℕ) (rows : List ℕ) (s' q : ℕ) :
    (enableRows a s rows).Active s' q ↔ a.Active s' q ∨ (s' = s ∧ q ∈ rows) := by
  induction rows generalizing a with
  | nil => simp [enableRows]
  | cons r rows ih =>
    have : enableRows a s (r :: rows) = enableRows (a.enable s r) s rows := rfl
    rw [this, ih, active_enable]
    simp only [List.mem_cons]; tauto

theorem alloc_enableRows_le (a : Asg F) (s : ℕ) (rows : List ℕ) :
    a.alloc ≤ (enableRows a s rows).alloc ∧ ∀ q ∈ rows, q < (enableRows a s rows).alloc := by
  induction rows generalizing a with
  | nil => simp [enableRows]
  | cons r rows ih =>
    have : enableRows a s (r :: rows) = enableRows (a.enable s r) s rows := rfl
    rw [this]
    have h := ih (a.enable s r)
    have h2 : a.alloc ≤ (a.enable s r).alloc ∧ r < (a.enable s r).alloc := by
      simp [Asg.enable, Asg.write]
    refine ⟨h2.1.trans h.1, ?_⟩
    intro q hq
    rcases List.mem_cons.1 hq with rfl | hq
    · exact lt_of_lt_of_le h2.2 h.1
    · exact h.2 q hq

theorem active_write (a : Asg F) (ty : ColType) (i r : ℕ) (v : F) (h : ty ≠ .selector) (s q : ℕ) :
    (a.write ty i r v).Active s q ↔ a.Active s q := by
  have h' : ¬ (ColType.selector = ty ∧ s = i) := fun x => h x.1.symm
  simp [Asg.Active, write_read?, h']

theorem inv_init : Inv gid lid [] ((Circuit.init, Asg.init) : Circuit F K L × Asg F) := by
  constructor <;> simp [Circuit.init, Asg.init, Asg.Active, Asg.read?]

theorem Inv.g1' {cmds : List (Cmd F)} {st : Circuit F K L × Asg F} (h : Inv gid lid cmds st) (cmd : Cmd F) :
    ∀ p ∈ st.1.gates, ∃ g rows, Cmd.gate g rows ∈ cmds ++ [cmd] ∧ g.cs = p.2 ∧
    st.1.selMap (gid g) = some p.1 := fun p hp =>
  let ⟨g, rows, h1, h2⟩ := h.g1 p hp
  ⟨g, rows, by simp [h1], h2⟩

theorem Inv.g2' {cmds : List (Cmd F)} {st : Circuit F K L × Asg F} (h : Inv gid lid cmds st) (cmd : Cmd F) :
    ∀ k s, st.1.selMap k = some s → s < st.1.next ∧ ∃ g rows, Cmd.gate g rows ∈ cmds ++ [cmd] ∧
    gid g = k ∧ (s, g.cs) ∈ st.1.gates := fun k s hk =>
  let ⟨e, g, rows, h1, h2⟩ := h.g2 k s hk
  ⟨e, g, rows, by simp [h1], h2⟩

theorem Inv.l1' {cmds : List (Cmd F)} {st : Circuit F K L × Asg F} (h : Inv gid lid cmds st) (cmd : Cmd F) :
    ∀ p ∈ st.1.lookups, (∃ rows, Cmd.lookup p.2 rows ∈ cmds ++ [cmd]) ∧
    st.1.lookMap (lid p.2) = some p.1 := fun p hp =>
  let ⟨⟨rows, h1⟩, h2⟩ := h.l1 p hp
  ⟨⟨rows, by simp [h1]⟩, h2⟩

theorem Inv.l2' {cmds : List (Cmd F)} {st : Circuit F K L × Asg F} (h : Inv gid lid cmds st) (cmd : Cmd F) :
    ∀ k s, st.1.lookMap k = some s → s < st.1.next ∧ ∃ l rows, Cmd.lookup l rows ∈ cmds ++ [cmd] ∧
    lid l = k ∧ (s, l) ∈ st.1.lookups := fun k s hk =>
  let ⟨e, g, rows, h1, h2⟩ := h.l2 k s hk
  ⟨e, g, rows, by simp [h1], h2⟩

theorem inv_step (cmds : List (Cmd F)) (st : Circuit F K L × Asg F) (h : Inv gid lid cmds st)
    (cmd : Cmd F) (hs : NoSelectorWrite cmd) : Inv gid lid (cmds ++ [cmd]) (cmd.step gid lid st) := by
  obtain ⟨c, a⟩ := st
  cases cmd with
  | gate g rows =>
    simp only [Cmd.step]
    unfold Circuit.addGate
    cases hm : c.selMap (gid g) with
    | some s =>
      simp only
      constructor
      · exact h.g1' gid lid _
      · exact h.g2' gid lid _
      · exact h.g3
      · exact h.l1' gid lid _
      · exact h.l2' gid lid _
      · exact h.l3
      · exact h.gl
      · intro g' rows' hg
        simp only [List.mem_append, List.mem_singleton, Cmd.gate.injEq] at hg
        rcases hg with hg | ⟨rfl, rfl⟩
        · obtain ⟨s', e, hr⟩ := h.h1 _ _ hg
          exact ⟨s', e, fun r hr' => (active_enableRows _ _ _ _ _).2 (.inl (hr r hr'))⟩
        · exact ⟨s, hm, fun r hr' => (active_enableRows _ _ _ _ _).2 (.inr ⟨rfl, hr'⟩)⟩
      · intro l rows' hg
        simp only [List.mem_append, List.mem_singleton, reduceCtorEq, or_false] at hg
        obtain ⟨s', e, hr⟩ := h.h2 _ _ hg
        exact ⟨s', e, fun r hr' => (active_enableRows _ _ _ _ _).2 (.inl (hr r hr'))⟩
      · intro s' q hq
        rcases (active_enableRows _ _ _ _ _).1 hq with hq | ⟨rfl, hqq⟩
        · rcases h.a1 _ _ hq with ⟨g', r', h1, h2⟩ | ⟨g', r', h1, h2⟩
          · exact .inl ⟨g', r', by simp [h1], h2⟩
          · exact .inr ⟨g', r', by simp [h1], h2⟩
        · exact .inl ⟨g, rows, by simp, hqq, hm⟩
      · intro s' q hq
        have hal := alloc_enableRows_le a s rows
        rcases (active_enableRows _ _ _ _ _).1 hq with hq | ⟨rfl, hqq⟩
        · exact lt_of_lt_of_le (h.al _ _ hq) hal.1
        · exact hal.2 q hqq
      · intro x y
        simpa using h.cp x y
    | none =>
      simp only
      have hne : ∀ k s, c.selMap k = some s → k ≠ gid g := by
        intro k s hk e; rw [e, hm] at hk; exact absurd hk (by simp)
      have hup : ∀ k s, c.selMap k = some s → Function.update c.selMap (gid g) (some c.next) k = some s := by
        intro k s hk; rw [Function.update_of_ne (hne k s hk)]; exact hk
      have hup' : ∀ k s, Function.update c.selMap (gid g) (some c.next) k = some s →
          c.selMap k = some s ∨ (k = gid g ∧ s = c.next) := by
        intro k s hk
        by_cases e : k = gid g
        · subst e; rw [Function.update_self] at hk; exact .inr ⟨rfl, by simpa using hk.symm⟩
        · rw [Function.update_of_ne e] at hk; exact .inl hk
      constructor
      · intro p hp
        simp only [List.mem_append, List.mem_singleton] at hp
        rcases hp with hp | rfl
        · obtain ⟨g', r', hm', e1, e2⟩ := h.g1 p hp
          exact ⟨g', r', by simp [hm'], e1, hup _ _ e2⟩
        · exact ⟨g, rows, by simp, rfl, by simp⟩
      · intro k s hk
        rcases hup' k s hk with hk | ⟨rfl, rfl⟩
        · obtain ⟨e1, g', r', hm', e2, e3⟩ := h.g2 k s hk
          exact ⟨Nat.lt_succ_of_lt e1, g', r', by simp [hm'], e2, by simp [e3]⟩
        · exact ⟨Nat.lt_succ_self _, g, rows, by simp, rfl, by simp⟩
      · intro k k' s hk hk'
        rcases hup' k s hk with hk | ⟨rfl, rfl⟩ <;> rcases hup' k' _ hk' with hk' | ⟨rfl, e⟩
        · exact h.g3 _ _ _ hk hk'
        · exact absurd (h.g2 _ _ hk).1 (by simp only at e ⊢; omega)
        · exact absurd (h.g2 _ _ hk').1 (by simp)
        · rfl
      · exact h.l1' gid lid _
      · intro k s hk
        obtain ⟨e1, e2⟩ := h.l2' gid lid _ k s hk
        exact ⟨Nat.lt_succ_of_lt e1, e2⟩
      · exact h.l3
      · intro k k' s hk hk'
        rcases hup' k s hk with hk | ⟨rfl, rfl⟩
        · exact h.gl _ _ _ hk hk'
        · exact absurd (h.l2 _ _ hk').1 (by simp)
      · intro g' rows' hg
        simp only [List.mem_append, List.mem_singleton, Cmd.gate.injEq] at hg
        rcases hg with hg | ⟨rfl, rfl⟩
        · obtain ⟨s', e, hr⟩ := h.h1 _ _ hg
          exact ⟨s', hup _ _ e, fun r hr' => (active_enableRows _ _ _ _ _).2 (.inl (hr r hr'))⟩
        · exact ⟨c.next, by simp, fun r hr' => (active_enableRows _ _ _ _ _).2 (.inr ⟨rfl, hr'⟩)⟩
      · intro l rows' hg
        simp only [List.mem_append, List.mem_singleton, reduceCtorEq, or_false] at hg
        obtain ⟨s', e, hr⟩ := h.h2 _ _ hg
        exact ⟨s', e, fun r hr' => (active_enableRows _ _ _ _ _).2 (.inl (hr r hr'))⟩
      · intro s' q hq
        rcases (active_enableRows _ _ _ _ _).1 hq with hq | ⟨rfl, hqq⟩
        · rcases h.a1 _ _ hq with ⟨g', r', h1, h2, h3⟩ | ⟨g', r', h1, h2⟩
          · exact .inl ⟨g', r', by simp [h1], h2, hup _ _ h3⟩
          · exact .inr ⟨g', r', by simp [h1], h2⟩
        · exact .inl ⟨g, rows, by simp, hqq, by simp⟩
      · intro s' q hq
        have hal := alloc_enableRows_le a c.next rows
        rcases (active_enableRows _ _ _ _ _).1 hq with hq | ⟨rfl, hqq⟩
        · exact lt_of_lt_of_le (h.al _ _ hq) hal.1
        · exact hal.2 q hqq
      · intro x y
        simpa using h.cp x y
  | lookup g rows =>
    simp only [Cmd.step]
    unfold Circuit.addLookup
    cases hm : c.lookMap (lid g) with
    | some s =>
      simp only
      constructor
      · exact h.g1' gid lid _
      · exact h.g2' gid lid _
      · exact h.g3
      · exact h.l1' gid lid _
      · exact h.l2' gid lid _
      · exact h.l3
      · exact h.gl
      · intro l rows' hg
        simp only [List.mem_append, List.mem_singleton, reduceCtorEq, or_false] at hg
        obtain ⟨s', e, hr⟩ := h.h1 _ _ hg
        exact ⟨s', e, fun r hr' => (active_enableRows _ _ _ _ _).2 (.inl (hr r hr'))⟩
      · intro g' rows' hg
        simp only [List.mem_append, List.mem_singleton, Cmd.lookup.injEq] at hg
        rcases hg with hg | ⟨rfl, rfl⟩
        · obtain ⟨s', e, hr⟩ := h.h2 _ _ hg
          exact ⟨s', e, fun r hr' => (active_enableRows _ _ _ _ _).2 (.inl (hr r hr'))⟩
        · exact ⟨s, hm, fun r hr' => (active_enableRows _ _ _ _ _).2 (.inr ⟨rfl, hr'⟩)⟩
      · intro s' q hq
        rcases (active_enableRows _ _ _ _ _).1 hq with hq | ⟨rfl, hqq⟩
        · rcases h.a1 _ _ hq with ⟨g', r', h1, h2⟩ | ⟨g', r', h1, h2⟩
          · exact .inl ⟨g', r', by simp [h1], h2⟩
          · exact .inr ⟨g', r', by simp [h1], h2⟩
        · exact .inr ⟨g, rows, by simp, hqq, hm⟩
      · intro s' q hq
        have hal := alloc_enableRows_le a s rows
        rcases (active_enableRows _ _ _ _ _).1 hq with hq | ⟨rfl, hqq⟩
        · exact lt_of_lt_of_le (h.al _ _ hq) hal.1
        · exact hal.2 q hqq
      · intro x y
        simpa using h.cp x y
    | none =>
      simp only
      have hne : ∀ k s, c.lookMap k = some s → k ≠ lid g := by
        intro k s hk e; rw [e, hm] at hk; exact absurd hk (by simp)
      have hup : ∀ k s, c.lookMap k = some s → Function.update c.lookMap (lid g) (some c.next) k = some s := by
        intro k s hk; rw [Function.update_of_ne (hne k s hk)]; exact hk
      have hup' : ∀ k s, Function.update c.lookMap (lid g) (some c.next) k = some s →
          c.lookMap k = some s ∨ (k = lid g ∧ s = c.next) := by
        intro k s hk
        by_cases e : k = lid g
        · subst e; rw [Function.update_self] at hk; exact .inr ⟨rfl, by simpa using hk.symm⟩
        · rw [Function.update_of_ne e] at hk; exact .inl hk
      constructor
      · exact h.g1' gid lid _
      · intro k s hk
        obtain ⟨e1, e2⟩ := h.g2' gid lid _ k s hk
        exact ⟨Nat.lt_succ_of_lt e1, e2⟩
      · exact h.g3
      · intro p hp
        simp only [List.mem_append, List.mem_singleton] at hp
        rcases hp with hp | rfl
        · exact ⟨(h.l1' gid lid _ p hp).1, hup _ _ (h.l1 p hp).2⟩
        · exact ⟨⟨rows, by simp⟩, by simp⟩
      · intro k s hk
        rcases hup' k s hk with hk | ⟨rfl, rfl⟩
        · obtain ⟨e1, g', r', hm', e2, e3⟩ := h.l2 k s hk
          exact ⟨Nat.lt_succ_of_lt e1, g', r', by simp [hm'], e2, by simp [e3]⟩
        · exact ⟨Nat.lt_succ_self _, g, rows, by simp, rfl, by simp⟩
      · intro k k' s hk hk'
        rcases hup' k s hk with hk | ⟨rfl, rfl⟩ <;> rcases hup' k' _ hk' with hk' | ⟨rfl, e⟩
        · exact h.l3 _ _ _ hk hk'
        · exact absurd (h.l2 _ _ hk).1 (by simp only at e ⊢; omega)
        · exact absurd (h.l2 _ _ hk').1 (by simp)
        · rfl
      · intro k k' s hk hk'
        rcases hup' k' s hk' with hk' | ⟨rfl, rfl⟩
        · exact h.gl _ _ _ hk hk'
        · exact absurd (h.g2 _ _ hk).1 (by simp)
      · intro l rows' hg
        simp only [List.mem_append, List.mem_singleton, reduceCtorEq, or_false] at hg
        obtain ⟨s', e, hr⟩ := h.h1 _ _ hg
        exact ⟨s', e, fun r hr' => (active_enableRows _ _ _ _ _).2 (.inl (hr r hr'))⟩
      · intro g' rows' hg
        simp only [List.mem_append, List.mem_singleton, Cmd.lookup.injEq] at hg
        rcases hg with hg | ⟨rfl, rfl⟩
        · obtain ⟨s', e, hr⟩ := h.h2 _ _ hg
          exact ⟨s', hup _ _ e, fun r hr' => (active_enableRows _ _ _ _ _).2 (.inl (hr r hr'))⟩
        · exact ⟨c.next, by simp, fun r hr' => (active_enableRows _ _ _ _ _).2 (.inr ⟨rfl, hr'⟩)⟩
      · intro s' q hq
        rcases (active_enableRows _ _ _ _ _).1 hq with hq | ⟨rfl, hqq⟩
        · rcases h.a1 _ _ hq with ⟨g', r', h1, h2⟩ | ⟨g', r', h1, h2, h3⟩
          · exact .inl ⟨g', r', by simp [h1], h2⟩
          · exact .inr ⟨g', r', by simp [h1], h2, hup _ _ h3⟩
        · exact .inr ⟨g, rows, by simp, hqq, by simp⟩
      · intro s' q hq
        have hal := alloc_enableRows_le a c.next rows
        rcases (active_enableRows _ _ _ _ _).1 hq with hq | ⟨rfl, hqq⟩
        · exact lt_of_lt_of_le (h.al _ _ hq) hal.1
        · exact hal.2 q hqq
      · intro x y
        simpa using h.cp x y
  | copy x y =>
    have key : ∀ p q, (p, q) ∈ (c.addCopy x y).copies ↔
        (p, q) ∈ c.copies ∨ (p = x ∧ q = y ∧ x ≠ y ∧ x.index ≠ privIdx ∧ y.index ≠ privIdx) := by
      intro p q
      unfold Circuit.addCopy
      by_cases e : x = y
      · simp [e]
      · by_cases e2 : x.index = privIdx ∨ y.index = privIdx
        · rw [if_neg e, if_pos e2]; tauto
        · rw [if_neg e, if_neg e2]; simp only [List.mem_append, List.mem_singleton, Prod.mk.injEq]; tauto
    have e1 : (c.addCopy x y).gates = c.gates := by unfold Circuit.addCopy; split_ifs <;> rfl
    have e2 : (c.addCopy x y).lookups = c.lookups := by unfold Circuit.addCopy; split_ifs <;> rfl
    have e3 : (c.addCopy x y).selMap = c.selMap := by unfold Circuit.addCopy; split_ifs <;> rfl
    have e4 : (c.addCopy x y).lookMap = c.lookMap := by unfold Circuit.addCopy; split_ifs <;> rfl
    have e5 : (c.addCopy x y).next = c.next := by unfold Circuit.addCopy; split_ifs <;> rfl
    constructor <;> simp only [Cmd.step, e1, e2, e3, e4, e5]
    · exact h.g1' gid lid _
    · exact h.g2' gid lid _
    · exact h.g3
    · exact h.l1' gid lid _
    · exact h.l2' gid lid _
    · exact h.l3
    · exact h.gl
    · intro g rows hg; exact h.h1 g rows (by simpa using hg)
    · intro g rows hg; exact h.h2 g rows (by simpa using hg)
    · intro s q hq; simpa using h.a1 s q hq
    · exact h.al
    · intro p q
      rw [key, h.cp]
      simp only [List.mem_append, List.mem_singleton, Cmd.copy.injEq]
      constructor
      · rintro (h | ⟨rfl, rfl, h⟩) <;> tauto
      · rintro ⟨h | ⟨rfl, rfl⟩, h2⟩ <;> tauto
  | dyn =>
    constructor <;> simp only [Cmd.step, Circuit.dynSelector]
    · exact h.g1' gid lid _
    · intro k s hk; exact ⟨Nat.lt_succ_of_lt (h.g2 k s hk).1, (h.g2' gid lid _ k s hk).2⟩
    · exact h.g3
    · exact h.l1' gid lid _
    · intro k s hk; exact ⟨Nat.lt_succ_of_lt (h.l2 k s hk).1, (h.l2' gid lid _ k s hk).2⟩
    · exact h.l3
    · exact h.gl
    · intro g rows hg; exact h.h1 g rows (by simpa using hg)
    · intro g rows hg; exact h.h2 g rows (by simpa using hg)
    · intro s q hq; simpa using h.a1 s q hq
    · exact h.al
    · intro p q; simpa using h.cp p q
  | write ty i r v =>
    have hty : ty ≠ .selector := hs
    have hal : a.alloc ≤ (a.write ty i r v).alloc := by
      simp only [Asg.write]; split_ifs <;> simp
    constructor <;> simp only [Cmd.step, active_write _ _ _ _ _ hty]
    · exact h.g1' gid lid _
    · exact h.g2' gid lid _
    · exact h.g3
    · exact h.l1' gid lid _
    · exact h.l2' gid lid _
    · exact h.l3
    · exact h.gl
    · intro g rows hg; exact h.h1 g rows (by simpa using hg)
    · intro g rows hg; exact h.h2 g rows (by simpa using hg)
    · intro s q hq; simpa using h.a1 s q hq
    · intro s q hq; exact lt_of_lt_of_le (h.al s q hq) hal
    · intro p q; simpa using h.cp p q

theorem inv_run (cmds : List (Cmd F)) (hs : ∀ c ∈ cmds, NoSelectorWrite c) :
    Inv gid lid cmds (runCmds gid lid cmds) := by
  induction cmds using List.reverseRecOn with
  | nil => exact inv_init gid lid
  | append_singleton cmds c ih =>
    have : runCmds gid lid (cmds ++ [c]) = c.step gid lid (runCmds gid lid cmds) := by simp [runCmds]
    rw [this]
    exact inv_step gid lid cmds _ (ih fun x hx => hs x (by simp [hx])) c (hs c (by simp))

theorem selOn_iff (a : Asg F) (s q : ℕ) : selOn a s q = true ↔ a.Active s q := by
  unfold selOn Asg.Active
  cases a.read? .selector s q <;> simp

/-! ## C01 -/

/-- C01: for every history of gate registrations, selector activations, copy constraints and cell writes,
the satisfiability check on the final circuit and table accepts exactly when every obligation that was ever
recorded holds on the final table. -/
theorem isSatisfied_iff (lk : ℕ → List F → Bool) (cmds : List (Cmd F))
    (hG : FaithfulG cmds gid) (hL : FaithfulL cmds lk lid) (hs : ∀ c ∈ cmds, NoSelectorWrite c) :
    isSatisfied lk (runCmds gid lid cmds).1 (runCmds gid lid cmds).2 = true ↔
      ∀ c ∈ cmds, c.Meaning lk (runCmds gid lid cmds).2.toTable := by
  have h := inv_run gid lid cmds hs
  generalize runCmds gid lid cmds = st at h
  obtain ⟨c, a⟩ := st
  have step1 : isSatisfied lk c a = true ↔
      (∀ p ∈ c.gates, ∀ q, a.Active p.1 q → ∀ e ∈ p.2, e.eval a.toTable (q : ℤ) = 0) ∧
      (∀ p ∈ c.lookups, ∀ q, a.Active p.1 q → ∀ e ∈ p.2,
        lk e.table (e.inputs.map (Expr.eval a.toTable (q : ℤ))) = true) ∧
      (∀ p ∈ c.copies, p.1.value a.toTable = p.2.value a.toTable) := by
    unfold isSatisfied
    simp only [Bool.and_eq_true, List.all_eq_true, List.mem_range, Bool.or_eq_true, Bool.not_eq_true',
      decide_eq_true_eq, and_assoc]
    refine and_congr ?_ (and_congr ?_ Iff.rfl)
    · refine forall₂_congr fun p hp => ⟨fun H q hq => ?_, fun H q _ => ?_⟩
      · rcases H q (h.al _ _ hq) with h0 | h0
        · rw [(selOn_iff a p.1 q).2 hq] at h0; exact absurd h0 (by simp)
        · exact h0
      · by_cases hq : a.Active p.1 q
        · exact .inr (H q hq)
        · left; rw [← selOn_iff] at hq; simpa using hq
    · refine forall₂_congr fun p hp => ⟨fun H q hq => ?_, fun H q _ => ?_⟩
      · rcases H q (h.al _ _ hq) with h0 | h0
        · rw [(selOn_iff a p.1 q).2 hq] at h0; exact absurd h0 (by simp)
        · exact h0
      · by_cases hq : a.Active p.1 q
        · exact .inr (H q hq)
        · left; rw [← selOn_iff] at hq; simpa using hq
  rw [step1]
  constructor
  · rintro ⟨H1, H2, H3⟩ cmd hcmd
    cases cmd with
    | gate g rows =>
      obtain ⟨s, e, hr⟩ := h.h1 g rows hcmd
      obtain ⟨-, g', r', hgm, hg', hmem⟩ := h.g2 _ _ e
      intro r hrr
      exact (hG g _ g' _ hcmd hgm hg'.symm _ _).2 (H1 _ hmem r (hr r hrr))
    | lookup l rows =>
      obtain ⟨s, e, hr⟩ := h.h2 l rows hcmd
      obtain ⟨-, g', r', hgm, hg', hmem⟩ := h.l2 _ _ e
      intro r hrr
      exact (hL l _ g' _ hcmd hgm hg'.symm _ _).2 (H2 _ hmem r (hr r hrr))
    | copy x y =>
      intro hx hy
      by_cases e : x = y
      · rw [e]
      · exact H3 (x, y) ((h.cp x y).2 ⟨hcmd, e, hx, hy⟩)
    | dyn => trivial
    | write => trivial
  · intro H
    refine ⟨?_, ?_, ?_⟩
    · intro p hp q hq
      obtain ⟨g, r', hgmem, hgc, hgm⟩ := h.g1 p hp
      rcases h.a1 _ _ hq with ⟨g', rows, hm, hqr, hs'⟩ | ⟨l, rows, hm, hqr, hs'⟩
      · have e := h.g3 _ _ _ hgm hs'
        have := H _ hm q hqr
        rw [← hgc]
        exact (hG g _ g' _ hgmem hm e _ _).2 this
      · exact (h.gl _ _ _ hgm hs').elim
    · intro p hp q hq
      obtain ⟨⟨r', hgmem⟩, hgm⟩ := h.l1 p hp
      rcases h.a1 _ _ hq with ⟨g', rows, hm, hqr, hs'⟩ | ⟨l, rows, hm, hqr, hs'⟩
      · exact (h.gl _ _ _ hs' hgm).elim
      · have e := h.l3 _ _ _ hgm hs'
        exact (hL _ _ _ _ hgmem hm e _ _).2 (H _ hm q hqr)
    · rintro ⟨x, y⟩ hp
      obtain ⟨h1, -, h2, h3⟩ := (h.cp x y).1 hp
      exact H _ h1 h2 h3

/-! ## C02 -/

/-- Commands after a point never change an assigned selector. -/
theorem selMap_stable (cmds : List (Cmd F)) (st : Circuit F K L × Asg F) (k : K) (s : ℕ)
    (h : st.1.selMap k = some s) : (cmds.foldl (Cmd.step gid lid) st).1.selMap k = some s := by
  induction cmds generalizing st with
  | nil => exact h
  | cons c cmds ih =>
    refine ih _ ?_
    cases c with
    | gate g rows =>
      simp only [Cmd.step, Circuit.addGate]
      cases hm : st.1.selMap (gid g) with
      | some s' => exact h
      | none =>
        simp only
        rw [Function.update_of_ne, h]
        rintro rfl; rw [hm] at h; exact absurd h (by simp)
    | lookup l rows =>
      simp only [Cmd.step, Circuit.addLookup]
      cases hm : st.1.lookMap (lid l) <;> exact h
    | copy x y => simp only [Cmd.step, Circuit.addCopy]; split_ifs <;> exact h
    | dyn => exact h
    | write => exact h

theorem addGate_selMap (c : Circuit F K L) (k : K) (cs : List (Expr F)) :
    (c.addGate k cs).1.selMap k = some (c.addGate k cs).2 := by
  unfold Circuit.addGate
  cases hm : c.selMap k <;> simp [hm]

/-- C02, stability: whenever the same gate (by id) is registered again, however much has happened since,
the same selector is returned and no new gate is added. -/
theorem addGate_again (pre mid : List (Cmd F)) (g g' : GArg F) (rows : List ℕ) (h : gid g = gid g') :
    let st := runCmds gid lid pre
    let s := (st.1.addGate (gid g) g.cs).2
    let st' := runCmds gid lid (pre ++ Cmd.gate g rows :: mid)
    (st'.1.addGate (gid g') g'.cs) = (st'.1, s) := by
  intro st s st'
  have e1 : st' = mid.foldl (Cmd.step gid lid) ((Cmd.gate g rows).step gid lid st) := by
    simp [st', st, runCmds]
  have e2 : ((Cmd.gate g rows).step gid lid st).1.selMap (gid g) = some s := addGate_selMap _ _ _
  have e3 := selMap_stable gid lid mid _ _ _ e2
  rw [← e1, h] at e3
  unfold Circuit.addGate
  rw [e3]

/-- C02, separation: gates with different ids always get different selectors. -/
theorem addGate_distinct (pre mid : List (Cmd F)) (hs : ∀ c ∈ pre ++ mid, NoSelectorWrite c)
    (g g' : GArg F) (rows : List ℕ) (h : gid g ≠ gid g') :
    let s := ((runCmds gid lid pre).1.addGate (gid g) g.cs).2
    let st' := runCmds gid lid (pre ++ Cmd.gate g rows :: mid)
    (st'.1.addGate (gid g') g'.cs).2 ≠ s := by
  intro s st' he
  have e1 : st' = mid.foldl (Cmd.step gid lid) ((Cmd.gate g rows).step gid lid (runCmds gid lid pre)) := by
    simp [st', runCmds]
  have e2 : ((Cmd.gate g rows).step gid lid (runCmds gid lid pre)).1.selMap (gid g) = some s :=
    addGate_selMap _ _ _
  have e3 := selMap_stable gid lid mid _ _ _ e2
  rw [← e1] at e3
  have hinv : Inv gid lid (pre ++ Cmd.gate g rows :: mid) st' := inv_run gid lid _ (by
    intro c hc
    simp only [List.mem_append, List.mem_cons] at hc
    rcases hc with hc | rfl | hc
    · exact hs c (by simp [hc])
    · trivial
    · exact hs c (by simp [hc]))
  have hinv2 := inv_step gid lid _ _ hinv (.gate g' rows) trivial
  have e4 : ((Cmd.gate g' rows).step gid lid st').1.selMap (gid g') = some s := by
    rw [← he]; exact addGate_selMap _ _ _
  have e5 : ((Cmd.gate g' rows).step gid lid st').1.selMap (gid g) = some s := by
    have := selMap_stable gid lid [Cmd.gate g' rows] st' _ _ e3
    simpa using this
  exact h (hinv2.g3 _ _ _ e5 e4)

/-- C02: a selector is never shared between an ordinary gate and a lookup gate, every registered gate's
selector is below the number of selectors handed out, and gates sharing a selector have equal ids. -/
theorem selectors_disjoint (cmds : List (Cmd F)) (hs : ∀ c ∈ cmds, NoSelectorWrite c) :
    let c := (runCmds gid lid cmds).1
    (∀ p ∈ c.gates, ∀ p' ∈ c.lookups, p.1 ≠ p'.1) ∧
    (∀ p ∈ c.gates, p.1 < c.next) ∧ (∀ p ∈ c.lookups, p.1 < c.next) ∧
    (∀ p ∈ c.gates, ∀ p' ∈ c.gates, p.1 = p'.1 →
      ∃ g g' : GArg F, g.cs = p.2 ∧ g'.cs = p'.2 ∧ gid g = gid g') := by
  intro c
  have h := inv_run gid lid cmds hs
  refine ⟨?_, ?_, ?_, ?_⟩
  · intro p hp p' hp' e
    obtain ⟨g, -, -, -, hg⟩ := h.g1 p hp
    have hl := (h.l1 p' hp').2
    rw [← e] at hl
    exact h.gl _ _ _ hg hl
  · intro p hp
    obtain ⟨g, -, -, -, hg⟩ := h.g1 p hp
    exact (h.g2 _ _ hg).1
  · intro p hp; exact (h.l2 _ _ (h.l1 p hp).2).1
  · intro p hp p' hp' e
    obtain ⟨g, -, -, hc, hg⟩ := h.g1 p hp
    obtain ⟨g', -, -, hc', hg'⟩ := h.g1 p' hp'
    rw [← e] at hg'
    exact ⟨g, g', hc, hc', h.g3 _ _ _ hg hg'⟩

/-! ## C05 -/

/-- C02: the counter of selectors is exactly the number of selectors in use: one per registered gate, one per registered
lookup gate and one per dynamic table. Two different purposes never get one selector and none is skipped. -/
theorem selectors_count (cmds : List (Cmd F)) :
    let c := (runCmds gid lid cmds).1
    c.next = c.gates.length + c.lookups.length + (cmds.filter fun x => match x with | .dyn => true | _ => false).length := by
  induction cmds using List.reverseRecOn with
  | nil => simp [runCmds, Circuit.init]
  | append_singleton cmds x ih =>
    have e : runCmds gid lid (cmds ++ [x]) = x.step gid lid (runCmds gid lid cmds) := by simp [runCmds]
    simp only at ih ⊢
    rw [e, List.filter_append, List.length_append]
    cases x with
    | gate g rows =>
      simp only [Cmd.step, Circuit.addGate]
      split
      · simpa using ih
      · simp only [List.length_append, List.length_singleton]
        simp
        omega
    | lookup g rows =>
      simp only [Cmd.step, Circuit.addLookup]
      split
      · simpa using ih
      · simp only [List.length_append, List.length_singleton]
        simp
        omega
    | copy a b =>
      simp only [Cmd.step, Circuit.addCopy]
      split_ifs <;> simpa using ih
    | dyn =>
      simp only [Cmd.step, Circuit.dynSelector]
      simp
      omega
    | write ty i r v => simpa [Cmd.step] using ih

/-- C05: after any history the stored copy constraints are exactly the requested ones between two different
variables neither of which lives in private storage. -/
theorem copies_exact (cmds : List (Cmd F)) (hs : ∀ c ∈ cmds, NoSelectorWrite c) (a b : Var) :
    (a, b) ∈ (runCmds gid lid cmds).1.copies ↔
      Cmd.copy a b ∈ cmds ∧ a ≠ b ∧ a.index ≠ privIdx ∧ b.index ≠ privIdx :=
  (inv_run gid lid cmds hs).cp a b

end

/-! ## Non-vacuity -/

section
open Classical
/-- One gate `W0 = 3` enabled on row 2 and a copy of that cell to row 0: accepted for the right table,
rejected for a wrong one. -/
example (lk : ℕ → List ℚ → Bool) (v : ℚ) :
    let x : Var := ⟨0, 2, false, .witness⟩
    let y : Var := ⟨0, 0, false, .witness⟩
    let cmds : List (Cmd ℚ) := [.gate (.single (.sub (.var ⟨0, 0, true, .witness⟩) (.const 3))) [2],
      .copy x y, .write .witness 0 0 v, .write .witness 0 2 3]
    let st := runCmds (fun g : GArg ℚ => g.cs) (fun l : List (LookupC ℚ) => l) cmds
    isSatisfied lk st.1 st.2 = true ↔ v = 3 := by
  intro x y cmds st
  rw [show (isSatisfied lk st.1 st.2 = true ↔ _) from
    isSatisfied_iff _ _ lk cmds (fun g _ g' _ _ _ h t r => by rw [show g.cs = g'.cs from h])
      (fun l _ l' _ _ _ h t r => by rw [show l = l' from h]) (by simp [cmds, NoSelectorWrite])]
  have ht : (runCmds (fun g : GArg ℚ => g.cs) (fun l : List (LookupC ℚ) => l) cmds).2.toTable
      = st.2.toTable := rfl
  simp [cmds, Cmd.Meaning, GArg.cs, Expr.eval, Var.evalAt, Var.value, runCmds, Cmd.step, Asg.write,
    Asg.toTable, Circuit.addGate, Circuit.addCopy, Circuit.init, Asg.init, enableRows, Asg.enable,
    Asg.grow, x, y, privIdx, List.replicate]
  constructor <;> intro h <;> exact h.symm
end

end Verif
