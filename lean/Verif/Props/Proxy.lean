import Verif.Model.Proxy
import Verif.Props.Circuit
import Mathlib.Data.Finset.Lattice.Basic

/-!
# C106 - C109: several provers share a circuit through proxies
-/

set_option linter.unusedSectionVars false

namespace Verif
namespace Proxy
open Circuit

section
variable {F K L : Type*} [Field F] [DecidableEq F] [DecidableEq K] [DecidableEq L]
variable (gid : GArg F → K) (lid : List (LookupC F) → L)

/-! ### Specification -/

/-- The commands that reach the shared circuit and table. -/
def sharedCmds (h : List (ℕ × Cmd F)) : List (Cmd F) := (h.map Prod.snd).filter fun c => match c with | .dyn => false | _ => true

/-- A copy constraint that is dropped. -/
def Dropped (a b : Var) : Prop := a = b ∨ a.index = privIdx ∨ b.index = privIdx

instance (a b : Var) : Decidable (Dropped a b) := by unfold Dropped; infer_instance

/-- Contribution of a command to the copy constraints, with the prover. -/
def recorded1 (pc : ℕ × Cmd F) : Option (ℕ × Var × Var) :=
  match pc.2 with
  | .copy a b => if Dropped a b then none else some (pc.1, a, b)
  | _ => none

/-- The copy constraints of a history with their provers. -/
def recorded (h : List (ℕ × Cmd F)) : List (ℕ × Var × Var) := h.filterMap recorded1

/-- Rows at which a command accesses witnesses, constants or selectors. -/
def Touches (r : ℕ) : Cmd F → Prop
  | .gate _ rows => r ∈ rows
  | .lookup _ rows => r ∈ rows
  | .write ty _ r' _ => r' = r ∧ ty ≠ .publicInput
  | _ => False

/-- Rows at which a command accesses selectors. -/
def TouchesSel (r : ℕ) : Cmd F → Prop
  | .gate _ rows => r ∈ rows
  | .lookup _ rows => r ∈ rows
  | .write ty _ r' _ => r' = r ∧ ty = .selector
  | _ => False

/-! ### The shared state -/

theorem run_append (h : List (ℕ × Cmd F)) (pc : ℕ × Cmd F) : run gid lid (h ++ [pc]) = step gid lid (run gid lid h) pc := by
  simp [run]

theorem sharedCmds_append (h : List (ℕ × Cmd F)) (pc : ℕ × Cmd F) :
    sharedCmds (h ++ [pc]) = sharedCmds h ++ (match pc.2 with | .dyn => [] | c => [c]) := by
  obtain ⟨p, c⟩ := pc
  cases c <;> simp [sharedCmds]

theorem runCmds_append (l : List (Cmd F)) (c : Cmd F) : runCmds gid lid (l ++ [c]) = c.step gid lid (runCmds gid lid l) := by
  simp [runCmds]

/-- The shared circuit and table are what the same commands produce without proxies, whoever issued them. -/
theorem run_shared (h : List (ℕ × Cmd F)) :
    ((run gid lid h).circ, (run gid lid h).asg) = runCmds gid lid (sharedCmds h) := by
  induction h using List.reverseRecOn with
  | nil => rfl
  | append_singleton h pc ih =>
    rw [run_append, sharedCmds_append]
    obtain ⟨p, c⟩ := pc
    cases c <;> simp only [step, runCmds_append, ← ih, Cmd.step, List.append_nil]

theorem mem_sharedCmds {h : List (ℕ × Cmd F)} {c : Cmd F} : c ∈ sharedCmds h ↔ c ≠ .dyn ∧ ∃ p, (p, c) ∈ h := by
  unfold sharedCmds
  rw [List.mem_filter]
  constructor
  · rintro ⟨hm, hc⟩
    obtain ⟨pc, hpc, rfl⟩ := List.mem_map.1 hm
    exact ⟨by rintro e; simp [e] at hc, pc.1, hpc⟩
  · rintro ⟨hc, p, hp⟩
    exact ⟨List.mem_map.2 ⟨_, hp, rfl⟩, by cases c <;> simp_all⟩

/-! ### Invariant -/

/-- A container of gates with its map of ids, and the sets of positions kept by the provers: `R p k` says that prover `p` asked
for a gate with id `k`. -/
structure GInv {α κ : Type*} (l : List (ℕ × α)) (m : κ → Option ℕ) (next : ℕ) (U : ℕ → Finset ℕ) (R : ℕ → κ → Prop) : Prop where
  lt : ∀ g ∈ l, g.1 < next
  nodup : (l.map Prod.fst).Nodup
  mem : ∀ k s, m k = some s → s ∈ l.map Prod.fst
  uses : ∀ p i, i ∈ U p ↔ ∃ k, R p k ∧ ∃ s x, l[i]? = some (s, x) ∧ m k = some s
  req : ∀ p k, R p k → ∃ s, m k = some s

/-- What the proxies know after a history. -/
structure PInv (h : List (ℕ × Cmd F)) (st : State F K L) : Prop where
  g : GInv st.circ.gates st.circ.selMap st.circ.next (fun p => (st.prov p).gates) fun p k => ∃ g rows, (p, Cmd.gate g rows) ∈ h ∧ k = gid g
  l : GInv st.circ.lookups st.circ.lookMap st.circ.next (fun p => (st.prov p).lookups) fun p k =>
    ∃ l rows, (p, Cmd.lookup l rows) ∈ h ∧ k = lid l
  copies : st.circ.copies = (recorded h).map Prod.snd
  owner : ∀ p i x, (recorded h)[i]? = some (p, x) → i ∈ (st.prov p).copies
  owned : ∀ p i, i ∈ (st.prov p).copies → i < (recorded h).length ∧
    ((∃ x, (recorded h)[i]? = some (p, x)) ∨ ∃ a b, (p, Cmd.copy a b) ∈ h ∧ Dropped a b)
  rows : ∀ p r, r ∈ (st.prov p).rows ↔ ∃ c, (p, c) ∈ h ∧ Touches r c
  selRows : ∀ p r, r ∈ (st.prov p).selRows ↔ ∃ c, (p, c) ∈ h ∧ TouchesSel r c

theorem gateIndex_spec {α : Type*} {l : List (ℕ × α)} (hn : (l.map Prod.fst).Nodup) {s : ℕ} (hs : s ∈ l.map Prod.fst) (i : ℕ) :
    i = gateIndex l s ↔ ∃ x, l[i]? = some (s, x) := by
  obtain ⟨⟨s', x⟩, hm, rfl⟩ := List.mem_map.1 hs
  have hlt : gateIndex l s' < l.length := List.findIdx_lt_length_of_exists ⟨_, hm, by simp⟩
  have hget : (l[gateIndex l s']'hlt).1 = s' := by
    have := List.findIdx_getElem (p := fun g : ℕ × α => g.1 == s') (xs := l) (w := hlt)
    exact eq_of_beq this
  constructor
  · rintro rfl
    exact ⟨(l[gateIndex l s']'hlt).2, by rw [List.getElem?_eq_getElem hlt, Option.some.injEq]; exact Prod.ext hget rfl⟩
  · rintro ⟨y, hy⟩
    obtain ⟨hi, e⟩ := List.getElem?_eq_some_iff.1 hy
    have h1 : (l.map Prod.fst)[i]'(by simpa using hi) = (l.map Prod.fst)[gateIndex l s']'(by simpa using hlt) := by
      simp [e, hget]
    exact (hn.getElem_inj_iff).1 h1

theorem getElem?_append_of {α : Type*} {l l' : List α} {i : ℕ} {x : α} (h : l[i]? = some x) : (l ++ l')[i]? = some x := by
  obtain ⟨hi, e⟩ := List.getElem?_eq_some_iff.1 h
  rw [List.getElem?_append_left hi, h]

theorem pinv_init : PInv gid lid ([] : List (ℕ × Cmd F)) (State.init : State F K L) := by
  constructor
  · constructor <;> simp [State.init, Circuit.init]
  · constructor <;> simp [State.init, Circuit.init]
  all_goals simp [State.init, Circuit.init, recorded]

theorem prov_self (st : State F K L) (p : ℕ) (Q : Prover F) : Function.update st.prov p Q p = Q := Function.update_self ..

theorem recorded_append (h : List (ℕ × Cmd F)) (pc : ℕ × Cmd F) : recorded (h ++ [pc]) = recorded h ++ (recorded1 pc).toList := by
  rw [recorded, List.filterMap_append, ← recorded]
  cases hr : recorded1 pc <;> simp [hr]

theorem owned_append {h : List (ℕ × Cmd F)} {pc : ℕ × Cmd F} {p i : ℕ}
    (H : i < (recorded h).length ∧ ((∃ x, (recorded h)[i]? = some (p, x)) ∨ ∃ a b, (p, Cmd.copy a b) ∈ h ∧ Dropped a b)) :
    i < (recorded (h ++ [pc])).length ∧
      ((∃ x, (recorded (h ++ [pc]))[i]? = some (p, x)) ∨ ∃ a b, (p, Cmd.copy a b) ∈ h ++ [pc] ∧ Dropped a b) := by
  rw [recorded_append]
  refine ⟨by rw [List.length_append]; omega, ?_⟩
  rcases H.2 with ⟨x, hx⟩ | ⟨a, b, hm, hd⟩
  · exact .inl ⟨x, getElem?_append_of hx⟩
  · exact .inr ⟨a, b, List.mem_append_left _ hm, hd⟩

/-- The parts about rows. -/
theorem rows_step (h : List (ℕ × Cmd F)) (st : State F K L) (pc : ℕ × Cmd F)
    (hr : ∀ p r, r ∈ (st.prov p).rows ↔ ∃ c, (p, c) ∈ h ∧ Touches r c)
    (hs : ∀ p r, r ∈ (st.prov p).selRows ↔ ∃ c, (p, c) ∈ h ∧ TouchesSel r c) :
    (∀ p r, r ∈ ((step gid lid st pc).prov p).rows ↔ ∃ c, (p, c) ∈ h ++ [pc] ∧ Touches r c) ∧
    (∀ p r, r ∈ ((step gid lid st pc).prov p).selRows ↔ ∃ c, (p, c) ∈ h ++ [pc] ∧ TouchesSel r c) := by
  obtain ⟨q, c⟩ := pc
  have key : ∀ (T : ℕ → Cmd F → Prop) (S S' : Finset ℕ) (p r : ℕ), (r ∈ S ↔ ∃ c, (p, c) ∈ h ∧ T r c) →
      (r ∈ S' ↔ r ∈ S ∨ (p = q ∧ T r c)) → (r ∈ S' ↔ ∃ c', (p, c') ∈ h ++ [(q, c)] ∧ T r c') := by
    intro T S S' p r h1 h2
    rw [h2, h1]
    constructor
    · rintro (⟨c', hm, ht⟩ | ⟨rfl, ht⟩)
      · exact ⟨c', List.mem_append_left _ hm, ht⟩
      · exact ⟨c, by simp, ht⟩
    · rintro ⟨c', hm, ht⟩
      rcases List.mem_append.1 hm with hm | hm
      · exact .inl ⟨c', hm, ht⟩
      · simp only [List.mem_singleton, Prod.mk.injEq] at hm
        exact .inr ⟨hm.1, hm.2 ▸ ht⟩
  constructor <;> intro p r
  · refine key Touches (st.prov p).rows _ p r (hr p r) ?_
    by_cases hp : p = q
    · subst hp
      cases c <;> simp [step, Touches, touched]
      · split_ifs <;> simp
      · rename_i ty i r' v
        by_cases ht : ty = .publicInput <;> simp [ht, eq_comm]
    · cases c <;> simp [step, hp]
  · refine key TouchesSel (st.prov p).selRows _ p r (hs p r) ?_
    by_cases hp : p = q
    · subst hp
      cases c <;> simp [step, TouchesSel, touchedSel]
      · split_ifs <;> simp
      · rename_i ty i r' v
        by_cases ht : ty = .selector <;> simp [ht, eq_comm]
    · cases c <;> simp [step, hp]

section ginv
variable {α κ : Type*} [DecidableEq κ] {l : List (ℕ × α)} {m : κ → Option ℕ} {next : ℕ} {U U' : ℕ → Finset ℕ} {R R' : ℕ → κ → Prop}

/-- Nothing is registered, the counter may move. -/
theorem GInv.keep (h : GInv l m next U R) {next' : ℕ} (hn : next ≤ next') (hU : ∀ p, U' p = U p) (hR : ∀ p k, R' p k ↔ R p k) :
    GInv l m next' U' R' := by
  refine ⟨fun g hg => lt_of_lt_of_le (h.lt g hg) hn, h.nodup, h.mem, fun p i => ?_, fun p k hk => h.req p k ((hR p k).1 hk)⟩
  rw [hU, h.uses]
  simp only [hR]

/-- A known gate is asked for. -/
theorem GInv.known (h : GInv l m next U R) {q : ℕ} {k : κ} {s : ℕ} (hk : m k = some s) (hq : U' q = insert (gateIndex l s) (U q))
    (hU : ∀ p, p ≠ q → U' p = U p) (hR : ∀ p k', R' p k' ↔ R p k' ∨ (p = q ∧ k' = k)) : GInv l m next U' R' := by
  refine ⟨h.lt, h.nodup, h.mem, fun p i => ?_, fun p k' hk' => ?_⟩
  · simp only [hR]
    by_cases hp : p = q
    · subst hp
      rw [hq, Finset.mem_insert, gateIndex_spec h.nodup (h.mem k s hk), h.uses]
      constructor
      · rintro (⟨x, hx⟩ | ⟨k', hr, hx⟩)
        · exact ⟨k, .inr ⟨rfl, rfl⟩, s, x, hx, hk⟩
        · exact ⟨k', .inl hr, hx⟩
      · rintro ⟨k', hr | ⟨-, rfl⟩, s', x, hx, hs⟩
        · exact .inr ⟨k', hr, s', x, hx, hs⟩
        · rw [hk, Option.some.injEq] at hs
          exact .inl ⟨x, hs ▸ hx⟩
    · rw [hU p hp, h.uses]
      simp only [hp, false_and, or_false]
  · rcases (hR p k').1 hk' with hr | ⟨-, rfl⟩
    · exact h.req p k' hr
    · exact ⟨s, hk⟩

/-- A new gate is registered. -/
theorem GInv.fresh (h : GInv l m next U R) {q : ℕ} {k : κ} (x : α) (hk : m k = none)
    (hq : U' q = insert (gateIndex (l ++ [(next, x)]) next) (U q)) (hU : ∀ p, p ≠ q → U' p = U p)
    (hR : ∀ p k', R' p k' ↔ R p k' ∨ (p = q ∧ k' = k)) :
    GInv (l ++ [(next, x)]) (Function.update m k (some next)) (next + 1) U' R' := by
  have h0 : GInv (l ++ [(next, x)]) (Function.update m k (some next)) (next + 1) U R := by
    have hm : ∀ k' s, m k' = some s → Function.update m k (some next) k' = some s := fun k' s e => by
      rw [Function.update_of_ne (by rintro rfl; simp [hk] at e), e]
    refine ⟨?_, ?_, ?_, fun p i => ?_, fun p k' hr => ?_⟩
    · intro g hg
      rcases List.mem_append.1 hg with hg | hg
      · exact Nat.lt_succ_of_lt (h.lt g hg)
      · rw [List.mem_singleton.1 hg]; exact Nat.lt_succ_self _
    · rw [List.map_append, List.nodup_append]
      refine ⟨h.nodup, by simp, ?_⟩
      intro a ha b hb e
      obtain ⟨g, hg, rfl⟩ := List.mem_map.1 ha
      have := h.lt g hg
      simp at hb
      omega
    · intro k' s hs
      by_cases e : k' = k
      · subst e
        rw [Function.update_self, Option.some.injEq] at hs
        simp [hs]
      · rw [Function.update_of_ne e] at hs
        rw [List.map_append]
        exact List.mem_append_left _ (h.mem k' s hs)
    · rw [h.uses]
      constructor
      · rintro ⟨k', hr, s, y, hy, hs⟩
        exact ⟨k', hr, s, y, getElem?_append_of hy, hm k' s hs⟩
      · rintro ⟨k', hr, s, y, hy, hs⟩
        obtain ⟨s', hs'⟩ := h.req p k' hr
        rw [hm k' s' hs', Option.some.injEq] at hs
        subst hs
        refine ⟨k', hr, s', y, ?_, hs'⟩
        by_cases hi : i < l.length
        · rwa [List.getElem?_append_left hi] at hy
        · rw [List.getElem?_append_right (by omega)] at hy
          obtain ⟨g, hg, e⟩ := List.mem_map.1 (h.mem k' s' hs')
          have := h.lt g hg
          have h1 : (next, x) = (s', y) := by
            cases hj : i - l.length with
            | zero => rw [hj] at hy; simpa using hy
            | succ n => rw [hj] at hy; simp at hy
          have := (Prod.mk.inj h1).1
          omega
    · obtain ⟨s, hs⟩ := h.req p k' hr
      exact ⟨s, hm k' s hs⟩
  exact h0.known (Function.update_self ..) hq hU hR
end ginv

theorem upd_ne {st : State F K L} {p q : ℕ} {Q : Prover F} (h : p ≠ q) : Function.update st.prov q Q p = st.prov p :=
  Function.update_of_ne h _ _

theorem gate_req {h : List (ℕ × Cmd F)} {q : ℕ} {c : Cmd F} (p : ℕ) (k : K) :
    (∃ g rows, (p, Cmd.gate g rows) ∈ h ++ [(q, c)] ∧ k = gid g) ↔
      (∃ g rows, (p, Cmd.gate g rows) ∈ h ∧ k = gid g) ∨ (p = q ∧ ∃ g rows, c = .gate g rows ∧ k = gid g) := by
  simp only [List.mem_append, List.mem_singleton, Prod.mk.injEq]
  constructor
  · rintro ⟨g, rows, hm | ⟨rfl, hc⟩, hk⟩
    · exact .inl ⟨g, rows, hm, hk⟩
    · exact .inr ⟨rfl, g, rows, hc.symm, hk⟩
  · rintro (⟨g, rows, hm, hk⟩ | ⟨rfl, g, rows, hc, hk⟩)
    · exact ⟨g, rows, .inl hm, hk⟩
    · exact ⟨g, rows, .inr ⟨rfl, hc.symm⟩, hk⟩

theorem lookup_req {h : List (ℕ × Cmd F)} {q : ℕ} {c : Cmd F} (p : ℕ) (k : L) :
    (∃ g rows, (p, Cmd.lookup g rows) ∈ h ++ [(q, c)] ∧ k = lid g) ↔
      (∃ g rows, (p, Cmd.lookup g rows) ∈ h ∧ k = lid g) ∨ (p = q ∧ ∃ g rows, c = .lookup g rows ∧ k = lid g) := by
  simp only [List.mem_append, List.mem_singleton, Prod.mk.injEq]
  constructor
  · rintro ⟨g, rows, hm | ⟨rfl, hc⟩, hk⟩
    · exact .inl ⟨g, rows, hm, hk⟩
    · exact .inr ⟨rfl, g, rows, hc.symm, hk⟩
  · rintro (⟨g, rows, hm, hk⟩ | ⟨rfl, g, rows, hc, hk⟩)
    · exact ⟨g, rows, .inl hm, hk⟩
    · exact ⟨g, rows, .inr ⟨rfl, hc.symm⟩, hk⟩

theorem pinv_step (h : List (ℕ × Cmd F)) (st : State F K L) (H : PInv gid lid h st) (pc : ℕ × Cmd F) :
    PInv gid lid (h ++ [pc]) (step gid lid st pc) := by
  obtain ⟨hrows, hsel⟩ := rows_step gid lid h st pc H.rows H.selRows
  obtain ⟨q, c⟩ := pc
  have hcp : ∀ c' : Cmd F, recorded1 (q, c') = none → recorded (h ++ [(q, c')]) = recorded h := fun c' e => by
    rw [recorded_append, e]; simp
  cases c with
  | gate g rows =>
    have hrec := hcp (.gate g rows) rfl
    have hpc : ∀ p, ((step gid lid st (q, .gate g rows)).prov p).copies = (st.prov p).copies := by
      intro p; by_cases hp : p = q
      · subst hp; simp [step]
      · simp [step, hp]
    refine ⟨?_, ?_, ?_, ?_, ?_, hrows, hsel⟩
    · simp only [step, Circuit.addGate]
      cases hm : st.circ.selMap (gid g) with
      | some s =>
        refine H.g.known (q := q) hm (by simp) (fun p hp => by simp [hp]) fun p k => ?_
        rw [gate_req]; simp
      | none =>
        refine H.g.fresh (q := q) _ hm (by simp) (fun p hp => by simp [hp]) fun p k => ?_
        rw [gate_req]; simp
    · have e1 : (step gid lid st (q, .gate g rows)).circ.lookups = st.circ.lookups := by
        simp only [step, Circuit.addGate]; split <;> rfl
      have e2 : (step gid lid st (q, .gate g rows)).circ.lookMap = st.circ.lookMap := by
        simp only [step, Circuit.addGate]; split <;> rfl
      rw [e1, e2]
      refine H.l.keep ?_ (fun p => ?_) (fun p k => by rw [lookup_req]; simp)
      · simp only [step, Circuit.addGate]; split <;> simp
      · by_cases hp : p = q
        · subst hp; simp [step]
        · simp [step, hp]
    · rw [hrec, ← H.copies]
      simp only [step, Circuit.addGate]; split <;> rfl
    · rw [hrec]; intro p; rw [hpc]; exact H.owner p
    · intro p i; rw [hpc]; exact fun hi => owned_append (H.owned p i hi)
  | lookup g rows =>
    have hrec := hcp (.lookup g rows) rfl
    have hpc : ∀ p, ((step gid lid st (q, .lookup g rows)).prov p).copies = (st.prov p).copies := by
      intro p; by_cases hp : p = q
      · subst hp; simp [step]
      · simp [step, hp]
    refine ⟨?_, ?_, ?_, ?_, ?_, hrows, hsel⟩
    · have e1 : (step gid lid st (q, .lookup g rows)).circ.gates = st.circ.gates := by
        simp only [step, Circuit.addLookup]; split <;> rfl
      have e2 : (step gid lid st (q, .lookup g rows)).circ.selMap = st.circ.selMap := by
        simp only [step, Circuit.addLookup]; split <;> rfl
      rw [e1, e2]
      refine H.g.keep ?_ (fun p => ?_) (fun p k => by rw [gate_req]; simp)
      · simp only [step, Circuit.addLookup]; split <;> simp
      · by_cases hp : p = q
        · subst hp; simp [step]
        · simp [step, hp]
    · simp only [step, Circuit.addLookup]
      cases hm : st.circ.lookMap (lid g) with
      | some s =>
        refine H.l.known (q := q) hm (by simp) (fun p hp => by simp [hp]) fun p k => ?_
        rw [lookup_req]; simp
      | none =>
        refine H.l.fresh (q := q) _ hm (by simp) (fun p hp => by simp [hp]) fun p k => ?_
        rw [lookup_req]; simp
    · rw [hrec, ← H.copies]
      simp only [step, Circuit.addLookup]; split <;> rfl
    · rw [hrec]; intro p; rw [hpc]; exact H.owner p
    · intro p i; rw [hpc]; exact fun hi => owned_append (H.owned p i hi)
  | copy a b =>
    have e1 : (st.circ.addCopy a b).gates = st.circ.gates := by unfold Circuit.addCopy; split_ifs <;> rfl
    have e2 : (st.circ.addCopy a b).lookups = st.circ.lookups := by unfold Circuit.addCopy; split_ifs <;> rfl
    have e3 : (st.circ.addCopy a b).selMap = st.circ.selMap := by unfold Circuit.addCopy; split_ifs <;> rfl
    have e4 : (st.circ.addCopy a b).lookMap = st.circ.lookMap := by unfold Circuit.addCopy; split_ifs <;> rfl
    have e5 : (st.circ.addCopy a b).next = st.circ.next := by unfold Circuit.addCopy; split_ifs <;> rfl
    have e6 : (st.circ.addCopy a b).copies = (recorded (h ++ [(q, .copy a b)])).map Prod.snd := by
      rw [recorded_append, List.map_append, ← H.copies]
      unfold Circuit.addCopy recorded1 Dropped
      split_ifs <;> simp_all
    have hlen : (st.circ.addCopy a b).copies.length = (recorded (h ++ [(q, .copy a b)])).length := by rw [e6, List.length_map]
    have hU : ∀ p, ((step gid lid st (q, .copy a b)).prov p).copies =
        if p = q ∧ 0 < (recorded (h ++ [(q, .copy a b)])).length then
          insert ((recorded (h ++ [(q, .copy a b)])).length - 1) (st.prov p).copies else (st.prov p).copies := by
      intro p
      by_cases hp : p = q
      · subst hp
        simp only [step, Function.update_self, hlen, true_and]
        split_ifs <;> rfl
      · simp [step, hp]
    refine ⟨?_, ?_, e6, ?_, ?_, hrows, hsel⟩
    · simp only [step, e1, e3, e5]
      refine H.g.keep le_rfl (fun p => ?_) (fun p k => by rw [gate_req]; simp)
      by_cases hp : p = q
      · subst hp; simp only [Function.update_self]; split_ifs <;> rfl
      · simp [hp]
    · simp only [step, e2, e4, e5]
      refine H.l.keep le_rfl (fun p => ?_) (fun p k => by rw [lookup_req]; simp)
      by_cases hp : p = q
      · subst hp; simp only [Function.update_self]; split_ifs <;> rfl
      · simp [hp]
    · intro p i x hx
      rw [hU]
      rw [recorded_append] at hx ⊢
      by_cases hi : i < (recorded h).length
      · rw [List.getElem?_append_left hi] at hx
        have := H.owner p i x hx
        split_ifs
        · exact Finset.mem_insert_of_mem this
        · exact this
      · rw [List.getElem?_append_right (by omega)] at hx
        unfold recorded1 at hx ⊢
        by_cases hd : Dropped a b
        · simp [hd] at hx
        · simp only [hd, if_false, Option.toList_some, List.getElem?_singleton] at hx ⊢
          split_ifs at hx with h0
          simp only [Option.some.injEq, Prod.mk.injEq] at hx
          rw [if_pos ⟨hx.1.symm, by simp⟩]
          refine Finset.mem_insert.2 (.inl ?_)
          simp; omega
    · intro p i hi
      rw [hU] at hi
      split_ifs at hi with hc
      · obtain ⟨rfl, hpos⟩ := hc
        rcases Finset.mem_insert.1 hi with hi | hi
        · refine ⟨by omega, ?_⟩
          by_cases hd : Dropped a b
          · exact .inr ⟨a, b, by simp, hd⟩
          · left
            rw [recorded_append] at hi ⊢
            have e : (recorded1 (p, (.copy a b : Cmd F))) = some (p, a, b) := by simp [recorded1, hd]
            rw [e] at hi ⊢
            refine ⟨(a, b), ?_⟩
            have : i = (recorded h).length := by simpa using hi
            subst this
            simp
        · exact owned_append (H.owned p i hi)
      · exact owned_append (H.owned p i hi)
  | dyn =>
    have hrec := hcp .dyn rfl
    have hpc : ∀ p, ((step gid lid st (q, .dyn)).prov p).copies = (st.prov p).copies := by
      intro p; by_cases hp : p = q
      · subst hp; simp [step]
      · simp [step, hp]
    refine ⟨?_, ?_, by rw [hrec]; exact H.copies, ?_, ?_, hrows, hsel⟩
    · refine H.g.keep le_rfl (fun p => ?_) (fun p k => by rw [gate_req]; simp)
      by_cases hp : p = q
      · subst hp; simp [step]
      · simp [step, hp]
    · refine H.l.keep le_rfl (fun p => ?_) (fun p k => by rw [lookup_req]; simp)
      by_cases hp : p = q
      · subst hp; simp [step]
      · simp [step, hp]
    · rw [hrec]; intro p; rw [hpc]; exact H.owner p
    · intro p i; rw [hpc]; exact fun hi => owned_append (H.owned p i hi)
  | write ty j r v =>
    have hrec := hcp (.write ty j r v) rfl
    have hpc : ∀ p, ((step gid lid st (q, .write ty j r v)).prov p).copies = (st.prov p).copies := by
      intro p; by_cases hp : p = q
      · subst hp; simp [step]
      · simp [step, hp]
    refine ⟨?_, ?_, by rw [hrec]; exact H.copies, ?_, ?_, hrows, hsel⟩
    · refine H.g.keep le_rfl (fun p => ?_) (fun p k => by rw [gate_req]; simp)
      by_cases hp : p = q
      · subst hp; simp [step]
      · simp [step, hp]
    · refine H.l.keep le_rfl (fun p => ?_) (fun p k => by rw [lookup_req]; simp)
      by_cases hp : p = q
      · subst hp; simp [step]
      · simp [step, hp]
    · rw [hrec]; intro p; rw [hpc]; exact H.owner p
    · intro p i; rw [hpc]; exact fun hi => owned_append (H.owned p i hi)

theorem pinv_run (h : List (ℕ × Cmd F)) : PInv gid lid h (run gid lid h) := by
  induction h using List.reverseRecOn with
  | nil => exact pinv_init gid lid
  | append_singleton h pc ih => rw [run_append]; exact pinv_step gid lid h _ ih pc

/-! ### C106 -/

/-- **C106**, gates: after any history the gates a prover's proxy has recorded are those it asked for, itself or as a repetition of
a gate registered by another prover: position `i` is recorded iff the gate there has the selector of a gate the prover asked for. -/
theorem used_gates_iff (h : List (ℕ × Cmd F)) (p i : ℕ) :
    i ∈ ((run gid lid h).prov p).gates ↔ ∃ g rows, (p, Cmd.gate g rows) ∈ h ∧ ∃ s cs, (run gid lid h).circ.gates[i]? = some (s, cs) ∧
      (run gid lid h).circ.selMap (gid g) = some s := by
  rw [(pinv_run gid lid h).g.uses]
  constructor
  · rintro ⟨k, ⟨g, rows, hm, rfl⟩, H⟩; exact ⟨g, rows, hm, H⟩
  · rintro ⟨g, rows, hm, H⟩; exact ⟨_, ⟨g, rows, hm, rfl⟩, H⟩

/-- **C106**, gates: for every gate a prover asks for there is exactly one recorded position with its selector. -/
theorem used_gates_unique (h : List (ℕ × Cmd F)) (p : ℕ) (g : GArg F) (rows : List ℕ) (hm : (p, Cmd.gate g rows) ∈ h) :
    ∃ s, (run gid lid h).circ.selMap (gid g) = some s ∧
      ∃! i, i ∈ ((run gid lid h).prov p).gates ∧ ∃ cs, (run gid lid h).circ.gates[i]? = some (s, cs) := by
  have H := (pinv_run gid lid h).g
  obtain ⟨s, hs⟩ := H.req p (gid g) ⟨g, rows, hm, rfl⟩
  refine ⟨s, hs, gateIndex (run gid lid h).circ.gates s, ?_, ?_⟩
  · obtain ⟨cs, hcs⟩ := (gateIndex_spec H.nodup (H.mem _ s hs) _).1 rfl
    exact ⟨(used_gates_iff gid lid h p _).2 ⟨g, rows, hm, s, cs, hcs, hs⟩, cs, hcs⟩
  · rintro i ⟨-, hcs⟩
    exact (gateIndex_spec H.nodup (H.mem _ s hs) i).2 hcs

/-- **C106**, lookup gates. -/
theorem used_lookups_iff (h : List (ℕ × Cmd F)) (p i : ℕ) :
    i ∈ ((run gid lid h).prov p).lookups ↔ ∃ l rows, (p, Cmd.lookup l rows) ∈ h ∧
      ∃ s cs, (run gid lid h).circ.lookups[i]? = some (s, cs) ∧ (run gid lid h).circ.lookMap (lid l) = some s := by
  rw [(pinv_run gid lid h).l.uses]
  constructor
  · rintro ⟨k, ⟨g, rows, hm, rfl⟩, H⟩; exact ⟨g, rows, hm, H⟩
  · rintro ⟨g, rows, hm, H⟩; exact ⟨_, ⟨g, rows, hm, rfl⟩, H⟩

/-- **C106**, copy constraints: the shared list is that of all constraints that were not dropped, in order, and every prover has
recorded the positions of its own. -/
theorem used_copies_own (h : List (ℕ × Cmd F)) (p i : ℕ) (x : Var × Var) (hx : (recorded h)[i]? = some (p, x)) :
    (run gid lid h).circ.copies[i]? = some x ∧ i ∈ ((run gid lid h).prov p).copies := by
  refine ⟨?_, (pinv_run gid lid h).owner p i x hx⟩
  rw [(pinv_run gid lid h).copies, List.getElem?_map, hx]
  rfl

/-- **C106**, copy constraints: a prover none of whose constraints was dropped has recorded exactly the positions of its own.
Missing for the full claim: provers with dropped constraints, see `used_copies_of_other`. -/
theorem used_copies_partial (h : List (ℕ × Cmd F)) (p : ℕ) (hd : ∀ a b, (p, Cmd.copy a b) ∈ h → ¬ Dropped a b) (i : ℕ) :
    i ∈ ((run gid lid h).prov p).copies ↔ ∃ x, (recorded h)[i]? = some (p, x) := by
  constructor
  · intro hi
    rcases ((pinv_run gid lid h).owned p i hi).2 with H | ⟨a, b, hm, H⟩
    · exact H
    · exact absurd H (hd a b hm)
  · rintro ⟨x, hx⟩; exact (pinv_run gid lid h).owner p i x hx

/-- The full claim on copy constraints is false: prover 1 asks for a constraint that is dropped, here between a variable and itself,
and the proxy records the constraint of prover 0. -/
theorem used_copies_of_other (a b x : Var) (hab : ¬ Dropped a b) :
    let st := run gid lid [(0, Cmd.copy a b), (1, Cmd.copy x x)]
    st.circ.copies = [(a, b)] ∧ (st.prov 1).copies = {0} := by
  have h1 : a ≠ b := fun e => hab (.inl e)
  have h2 : ¬ (a.index = privIdx ∨ b.index = privIdx) := fun e => hab (.inr e)
  simp [run, step, State.init, Circuit.init, Circuit.addCopy, h1, h2]

/-! ### C107 -/

section check
variable (lk : ℕ → List F → Bool)

theorem all_range {α : Type*} (l : List α) (f : α → Bool) :
    decide (∀ i ∈ Finset.range l.length, (l[i]?).all f = true) = l.all f := by
  rw [Bool.eq_iff_iff, decide_eq_true_eq, List.all_eq_true]
  constructor
  · intro H x hx
    obtain ⟨i, hi, rfl⟩ := List.getElem_of_mem hx
    simpa [List.getElem?_eq_getElem hi] using H i (Finset.mem_range.2 hi)
  · intro H i hi
    rw [List.getElem?_eq_getElem (Finset.mem_range.1 hi)]
    exact H _ (List.getElem_mem _)

theorem option_all {α : Type*} (o : Option α) (f : α → Bool) : o.all f = true ↔ ∀ x, o = some x → f x = true := by
  cases o <;> simp

/-- The full check is the six argument check on all indices. -/
theorem isSatisfied_eq_on (c : Circuit F K L) (a : Asg F) :
    isSatisfied lk c a = isSatisfiedOn lk c a a (Finset.range c.gates.length) (Finset.range c.lookups.length)
      (Finset.range c.copies.length) (Finset.range a.alloc) := by
  unfold isSatisfied isSatisfiedOn
  rw [all_range, all_range, all_range]
  congr 2
  · congr 1; funext g; rw [Bool.eq_iff_iff]; simp [List.all_eq_true]
  · congr 1; funext g; rw [Bool.eq_iff_iff]; simp [List.all_eq_true]

/-- The check on given indices, in words. -/
theorem isSatisfiedOn_iff (c : Circuit F K L) (sel a : Asg F) (ug ul uc rows : Finset ℕ) :
    isSatisfiedOn lk c sel a ug ul uc rows = true ↔
      (∀ i ∈ ug, ∀ s cs, c.gates[i]? = some (s, cs) → ∀ q ∈ rows, sel.Active s q → ∀ e ∈ cs, e.eval a.toTable (q : ℤ) = 0) ∧
      (∀ i ∈ ul, ∀ s cs, c.lookups[i]? = some (s, cs) → ∀ q ∈ rows, sel.Active s q → ∀ l ∈ cs,
        lk l.table (l.inputs.map (Expr.eval a.toTable (q : ℤ))) = true) ∧
      (∀ i ∈ uc, ∀ x y, c.copies[i]? = some (x, y) → x.value a.toTable = y.value a.toTable) := by
  unfold isSatisfiedOn
  simp only [Bool.and_eq_true, decide_eq_true_eq, option_all, Bool.or_eq_true, Bool.not_eq_true', List.all_eq_true, ← selOn_iff, and_assoc,
    Prod.forall, ← imp_iff_not_or, ← Bool.not_eq_true]

/-- **C107**: the checks of the provers on the shared table together are the check of the whole circuit: all gates, lookups and copy
constraints recorded by any prover, at the rows of that prover, hold exactly if the whole circuit is satisfied. -/
theorem provers_check_all (h : List (ℕ × Cmd F)) (hG : FaithfulG (sharedCmds h) gid) (hL : FaithfulL (sharedCmds h) lk lid)
    (hs : ∀ c ∈ sharedCmds h, NoSelectorWrite c) :
    (∀ p, sharedCheck lk (run gid lid h) p = true) ↔ isSatisfied lk (run gid lid h).circ (run gid lid h).asg = true := by
  have P := pinv_run gid lid h
  have hrun := run_shared gid lid h
  have I := inv_run gid lid (sharedCmds h) hs
  have T := isSatisfied_iff gid lid lk (sharedCmds h) hG hL hs
  rw [← hrun] at I T
  constructor
  · intro H
    rw [T]
    intro c hc
    obtain ⟨-, p, hp⟩ := mem_sharedCmds.1 hc
    obtain ⟨Hg, Hl, Hc⟩ := (isSatisfiedOn_iff lk _ _ _ _ _ _ _).1 (H p)
    cases c with
    | gate g rows =>
      intro r hr
      obtain ⟨s, hsel, hact⟩ := I.h1 g rows hc
      obtain ⟨s', hs', i, ⟨hi, cs, hcs⟩, -⟩ := used_gates_unique gid lid h p g rows hp
      have e : s' = s := Option.some.inj (hs'.symm.trans hsel)
      subst e
      have hcs' : (s', cs) ∈ (run gid lid h).circ.gates := List.mem_of_getElem? hcs
      obtain ⟨g', rows', hg', e1, e2⟩ := I.g1 _ hcs'
      have e3 : gid g = gid g' := I.g3 _ _ _ hsel e2
      refine (hG g rows g' rows' hc hg' e3 _ _).2 ?_
      rw [e1]
      exact Hg i hi s' cs hcs r ((P.selRows p r).2 ⟨_, hp, hr⟩) (hact r hr)
    | lookup l rows =>
      intro r hr
      obtain ⟨s, hsel, hact⟩ := I.h2 l rows hc
      have hi := (gateIndex_spec P.l.nodup (P.l.mem _ s hsel) _).1 rfl
      obtain ⟨cs, hcs⟩ := hi
      have hu := (used_lookups_iff gid lid h p _).2 ⟨l, rows, hp, s, cs, hcs, hsel⟩
      have hcs' : (s, cs) ∈ (run gid lid h).circ.lookups := List.mem_of_getElem? hcs
      obtain ⟨⟨rows', hg'⟩, e2⟩ := I.l1 _ hcs'
      have e3 : lid l = lid cs := I.l3 _ _ _ hsel e2
      refine (hL l rows cs rows' hc hg' e3 _ _).2 ?_
      exact Hl _ hu s cs hcs r ((P.selRows p r).2 ⟨_, hp, hr⟩) (hact r hr)
    | copy x y =>
      intro hx hy
      by_cases e : x = y
      · rw [e]
      · have hnd : ¬ Dropped x y := by rintro (h | h | h) <;> contradiction
        have hm : (p, x, y) ∈ recorded h := List.mem_filterMap.2 ⟨_, hp, by simp [recorded1, hnd]⟩
        obtain ⟨i, hi⟩ := List.mem_iff_getElem?.1 hm
        obtain ⟨e1, e2⟩ := used_copies_own gid lid h p i (x, y) hi
        exact Hc i e2 x y e1
    | dyn => trivial
    | write => trivial
  · intro H p
    rw [isSatisfied_eq_on, isSatisfiedOn_iff] at H
    obtain ⟨Hg, Hl, Hc⟩ := H
    refine (isSatisfiedOn_iff lk _ _ _ _ _ _ _).2 ⟨fun i _ s cs hi q _ ha => ?_, fun i _ s cs hi q _ ha => ?_, fun i _ x y hi => ?_⟩
    · exact Hg i (Finset.mem_range.2 (List.getElem?_eq_some_iff.1 hi).1) s cs hi q (Finset.mem_range.2 (I.al s q ha)) ha
    · exact Hl i (Finset.mem_range.2 (List.getElem?_eq_some_iff.1 hi).1) s cs hi q (Finset.mem_range.2 (I.al s q ha)) ha
    · exact Hc i (Finset.mem_range.2 (List.getElem?_eq_some_iff.1 hi).1) x y hi

/-- `is_satisfied` on the proxies checks the recorded copy constraints and nothing else. -/
theorem proxyCheck_iff (st : State F K L) (p : ℕ) :
    proxyCheck lk st p = true ↔
      ∀ i ∈ (st.prov p).copies, ∀ x y, st.circ.copies[i]? = some (x, y) → x.value st.asg.toTable = y.value st.asg.toTable := by
  have hno : ∀ s q, ¬ (Asg.init : Asg F).Active s q := by intro s q; simp [Asg.init, Asg.Active, Asg.read?]
  rw [proxyCheck, isSatisfiedOn_iff]
  simp [hno]

/-- The full claim is false for `is_satisfied` on the proxies: prover 0 requires the cell (0, 0) to be zero, the cell is `v`; every
proxy is satisfied whatever `v` is, the circuit is not unless `v = 0`. -/
theorem proxyCheck_ignores_gates (v : F) :
    let h : List (ℕ × Cmd F) := [(0, .gate (.single (.var ⟨0, 0, true, .witness⟩)) [0]), (0, .write .witness 0 0 v)]
    (∀ p, proxyCheck lk (run gid lid h) p = true) ∧
      (isSatisfied lk (run gid lid h).circ (run gid lid h).asg = true ↔ v = 0) := by
  intro h
  have hrec : (run gid lid h).circ.copies = [] := by rw [(pinv_run gid lid h).copies]; rfl
  refine ⟨fun p => (proxyCheck_iff lk _ p).2 fun i _ x y hi => by simp [hrec] at hi, ?_⟩
  have hrun := run_shared gid lid h
  have e : sharedCmds h = [.gate (.single (.var ⟨0, 0, true, .witness⟩)) [0], .write .witness 0 0 v] := rfl
  have T := isSatisfied_iff gid lid lk (sharedCmds h) ?_ ?_ ?_
  · rw [← hrun] at T
    rw [T, e]
    have ht : (run gid lid h).asg.toTable .witness 0 0 = v := by
      simp [h, run, step, State.init, Asg.toTable, enableRows, Asg.write, Asg.grow, Asg.enable, Asg.init]
    simp [Cmd.Meaning, GArg.cs, Expr.eval, Var.evalAt, ht]
  · intro g rows g' rows' h1 h2 _ t r
    simp [e] at h1 h2
    rw [h1.1, h2.1]
  · intro l rows l' rows' h1
    simp [e] at h1
  · intro c hc
    simp [e] at hc
    rcases hc with rfl | rfl <;> simp [NoSelectorWrite]
end check

/-! ### C108 -/

/-- **C108**: selectors of gates and lookup gates are shared out consistently, whichever provers ask: equal selectors for gates with
equal ids only, and never the same selector for a gate and a lookup gate. -/
theorem selectors_partial (h : List (ℕ × Cmd F)) (hs : ∀ c ∈ sharedCmds h, NoSelectorWrite c) :
    (∀ k k' s, (run gid lid h).circ.selMap k = some s → (run gid lid h).circ.selMap k' = some s → k = k') ∧
      (∀ k k' s, (run gid lid h).circ.lookMap k = some s → (run gid lid h).circ.lookMap k' = some s → k = k') ∧
      ∀ k k' s, (run gid lid h).circ.selMap k = some s → (run gid lid h).circ.lookMap k' ≠ some s := by
  have hrun := run_shared gid lid h
  have I := inv_run gid lid (sharedCmds h) hs
  rw [← hrun] at I
  exact ⟨I.g3, I.l3, fun k k' s h1 h2 => I.gl k k' s h1 h2⟩

/-- The claim is false for the selectors of dynamic tables: whatever was done before, the `n`-th one asked for through a proxy is
`n`, so that two provers get the same one, -/
theorem dynSelector_eq (h : List (ℕ × Cmd F)) (p : ℕ) :
    dynSelector (run gid lid h) p = (h.filter fun pc => decide (pc.1 = p) && match pc.2 with | .dyn => true | _ => false).length := by
  induction h using List.reverseRecOn with
  | nil => rfl
  | append_singleton h pc ih =>
    rw [run_append, List.filter_append, List.length_append, ← ih]
    obtain ⟨q, c⟩ := pc
    by_cases hp : q = p
    · subst hp
      cases c <;> simp [dynSelector, step]
      split_ifs <;> rfl
    · cases c <;> simp [dynSelector, step, hp, Function.update_of_ne (Ne.symm hp)]

/-- and a prover gets the selector of a gate it registered itself. -/
theorem dynSelector_collides (g : GArg F) (rows : List ℕ) :
    let st := run gid lid [(0, Cmd.gate g rows)]
    st.circ.selMap (gid g) = some 0 ∧ dynSelector st 0 = 0 ∧ dynSelector st 1 = 0 := by
  simp [run, step, State.init, Circuit.init, Circuit.addGate, dynSelector]

/-- Constants of two provers, likewise: the first constant each prover asks for has the same variable. When prover 0 finishes its
constants, the copy constraint of prover 1 is redirected to the cell of prover 0. -/
theorem constants_collide (x y : F) (hx : x ≠ y) (t : Table F) (w0 w1 : Var) (h0 : w0.type = .witness) (h1 : w1.type = .witness) :
    let st : State F K L := State.init
    let r0 := addConst st 0 x
    let r1 := addConst r0.1 1 y
    r0.2 = r1.2 ∧ (r1.1.prov 0).ownConsts = [x] ∧ (r1.1.prov 1).ownConsts = [y] ∧
      ConstBatch.finalize 0 1 0 (fun _ => 0) t [(w0, r0.2), (w1, r1.2)] [] (r1.1.prov 0).ownConsts =
        some (t.set .constant 0 1 x, [(w0, ⟨0, 1, false, .constant⟩), (w1, ⟨0, 1, false, .constant⟩)], 2) ∧
      (⟨0, 1, false, .constant⟩ : Var).value (t.set .constant 0 1 x) ≠ y := by
  intro st r0 r1
  have e0 : r0.2 = ConstBatch.constVar 0 := by simp [r0, addConst, ConstBatch.add, st, State.init]
  have e1 : r1.2 = ConstBatch.constVar 0 := by simp [r1, r0, addConst, ConstBatch.add, st, State.init]
  have c0 : (r1.1.prov 0).ownConsts = [x] := by simp [r1, r0, addConst, ConstBatch.add, st, State.init]
  have c1 : (r1.1.prov 1).ownConsts = [y] := by simp [r1, r0, addConst, ConstBatch.add, st, State.init]
  refine ⟨e0.trans e1.symm, c0, c1, ?_, ?_⟩
  · have hsk : ConstBatch.skip [] 1 1 = 1 := by rw [ConstBatch.skip]; simp
    rw [e0, e1, c0]
    simp [ConstBatch.finalize, ConstBatch.used, ConstBatch.placeConsts, hsk, ConstBatch.substConst, h0, h1, ConstBatch.constVar]
  · simp [Var.value, Table.set, hx]

/-! ### C109 -/

/-- **C109**: the shared table holds the writes of all provers, and the rows recorded by a proxy are those at which its prover
accessed a witness, constant or selector (a selector, for the second set). -/
theorem rows_recorded (h : List (ℕ × Cmd F)) :
    (run gid lid h).asg = (runCmds gid lid (sharedCmds h)).2 ∧
      (∀ p r, r ∈ ((run gid lid h).prov p).rows ↔ ∃ c, (p, c) ∈ h ∧ Touches r c) ∧
      ∀ p r, r ∈ ((run gid lid h).prov p).selRows ↔ ∃ c, (p, c) ∈ h ∧ TouchesSel r c :=
  ⟨congrArg Prod.snd (run_shared gid lid h), (pinv_run gid lid h).rows, (pinv_run gid lid h).selRows⟩

/-- Enabling a selector on a range through a proxy writes the same cells as on the table itself. -/
theorem enableRange_cols (a : Asg F) (s first last step : ℕ) :
    (enableRange a s first last step).cols = (a.enableRange s first last step).cols := rfl

/-- The number of allocated rows may be smaller, namely when the last row of the range is not met by the step. -/
theorem enableRange_alloc_differs :
    (enableRange (Asg.init : Asg F) 0 0 9 5).alloc = 6 ∧ ((Asg.init : Asg F).enableRange 0 0 9 5).alloc = 9 := by
  have e : (enableRange (Asg.init : Asg F) 0 0 9 5).alloc = 6 := by
    unfold enableRange
    rw [Asg.enableLoop, if_pos (by omega), Asg.enableLoop, if_pos (by omega), Asg.enableLoop, if_neg (by omega)]
    simp [Asg.enable, Asg.write, Asg.init]
  refine ⟨e, ?_⟩
  unfold Asg.enableRange
  simp only [enableRange] at e
  simp [e]
end

section shared
variable {F : Type*} [Zero F]

/-- **C109**, values handed to other provers: every variable handed out for a saved value keeps that value, whatever is saved before
and afterwards. -/
theorem save_shared (store : List F) (xs ys : List F) (i : ℕ) (x : F) (hx : xs[i]? = some x) :
    ∃ v, (saveSharedAll store xs).2[i]? = some v ∧ sharedValue (saveSharedAll (saveSharedAll store xs).1 ys).1 v = some x := by
  have pre : ∀ (ys : List F) (store : List F), (saveSharedAll store ys).1 = store ++ ys := by
    intro ys
    induction ys with
    | nil => simp [saveSharedAll]
    | cons y ys ih => intro store; simp [saveSharedAll, saveShared, ih]
  have var : ∀ (xs : List F) (store : List F) (i : ℕ), i < xs.length →
      (saveSharedAll store xs).2[i]? = some ⟨1, ((store.length + i : ℕ) : ℤ), false, .publicInput⟩ := by
    intro xs
    induction xs with
    | nil => simp
    | cons y ys ih =>
      intro store i hi
      cases i with
      | zero => simp [saveSharedAll, saveShared]
      | succ i =>
        simp only [saveSharedAll, saveShared, List.getElem?_cons_succ]
        rw [ih _ i (by simpa using hi)]
        simp; omega
  obtain ⟨hi, e⟩ := List.getElem?_eq_some_iff.1 hx
  refine ⟨_, var xs store i hi, ?_⟩
  simp only [sharedValue, pre, Int.toNat_natCast, true_and, Int.natCast_nonneg, if_true]
  rw [List.append_assoc, List.getElem?_append_right (by omega), Nat.add_sub_cancel_left, List.getElem?_append_left hi, hx]
end shared

/-! ### The hypotheses are met -/

/-- Two provers, the second repeating the gate of the first. -/
def exHist : List (ℕ × Cmd ℚ) :=
  [(0, .gate (.single (.var ⟨0, 0, true, .witness⟩)) [0]), (1, .gate (.single (.var ⟨0, 0, true, .witness⟩)) [1]),
    (1, .copy ⟨0, 0, false, .witness⟩ ⟨0, 1, false, .witness⟩), (0, .write .witness 0 0 0), (1, .write .witness 0 1 0)]

example : 0 ∈ ((run (fun _ => ()) (fun _ => ()) exHist).prov 0).gates ∧ 0 ∈ ((run (fun _ => ()) (fun _ => ()) exHist).prov 1).gates :=
  ⟨(used_gates_iff _ _ _ _ _).2 ⟨_, [0], by simp [exHist]; rfl, 0, _, rfl, rfl⟩,
    (used_gates_iff _ _ _ _ _).2 ⟨_, [1], by simp [exHist]; rfl, 0, _, rfl, rfl⟩⟩

example : (∀ p, sharedCheck (fun _ _ => true) (run (fun _ => ()) (fun _ => ()) exHist) p = true) ↔
    isSatisfied (fun _ _ => true) (run (fun _ => ()) (fun _ => ()) exHist).circ (run (fun _ => ()) (fun _ => ()) exHist).asg = true := by
  refine provers_check_all _ _ _ exHist ?_ ?_ ?_
  · intro g rows g' rows' h1 h2 _ t r
    simp [sharedCmds, exHist] at h1 h2
    rcases h1 with h1 | h1 <;> rcases h2 with h2 | h2 <;> rw [h1.1, h2.1]
  · intro l rows l' rows' h1
    simp [sharedCmds, exHist] at h1
  · intro c hc
    simp [sharedCmds, exHist] at hc
    rcases hc with rfl | rfl | rfl | rfl | rfl <;> simp [NoSelectorWrite]

end Proxy
end Verif
