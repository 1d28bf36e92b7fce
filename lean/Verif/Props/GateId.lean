import Verif.Model.GateId
import Verif.Props.Circuit
import Mathlib.Algebra.Order.Ring.Rat

/-!
# C51, C52: gate identities
-/

set_option linter.unusedSectionVars false

namespace Verif
section
variable {F : Type*} [Field F] [LinearOrder F]

theorem idSum_perm (pw : ℕ → F) {l l' : List (F ×ₗ F)} (h : l.Perm l') : idSum pw l = idSum pw l' := by
  have : l.insertionSort (· ≤ ·) = l'.insertionSort (· ≤ ·) :=
    List.Perm.eq_of_sortedLE List.sortedLE_insertionSort List.sortedLE_insertionSort
      (((List.perm_insertionSort _ _).trans h).trans (List.perm_insertionSort _ _).symm)
  simp only [idSum, this]

/-- The polynomial function denoted by a constraint. -/
def Expr.den (c : Expr F) : Table F → ℤ → F := fun t r => c.eval t r

/-- C51: two constraint lists that contain the same polynomials, in any order and however the expressions are
written, are the same gate. -/
theorem gateId_perm (vs : ValueSet F) (cs cs' : List (Expr F))
    (h : (cs.map Expr.den).Perm (cs'.map Expr.den)) :
    gateId vs (.many cs) = gateId vs (.many cs') := by
  unfold gateId
  apply idSum_perm
  have key : ∀ l : List (Expr F), l.map (evalC vs) =
      (l.map Expr.den).map (fun f => (toLex (f vs.p1 0, f vs.p2 0) : F ×ₗ F)) := by
    intro l; rw [List.map_map]; rfl
  rw [key, key]
  exact h.map _

/-- Hence registering the same constraints in another order returns the same selector and adds no gate, at
any later time. -/
theorem addGate_perm {L : Type*} [DecidableEq L] (vs : ValueSet F) (lid : List (LookupC F) → L)
    (pre mid : List (Cmd F)) (cs cs' : List (Expr F)) (rows : List ℕ)
    (h : (cs.map Expr.den).Perm (cs'.map Expr.den)) :
    let s := ((runCmds (gateId vs) lid pre).1.addGate (gateId vs (.many cs)) cs).2
    let st' := runCmds (gateId vs) lid (pre ++ Cmd.gate (.many cs) rows :: mid)
    st'.1.addGate (gateId vs (.many cs')) cs' = (st'.1, s) :=
  addGate_again (gateId vs) lid pre mid (.many cs) (.many cs') rows (gateId_perm vs cs cs' h)

/-- `x*y, x+1` and `1+x, y*x` are the same gate. -/
example (vs : ValueSet ℚ) : let x : Expr ℚ := .var ⟨0, 0, true, .witness⟩
    let y : Expr ℚ := .var ⟨1, 0, true, .witness⟩
    gateId vs (.many [x * y, x + 1]) = gateId vs (.many [1 + x, y * x]) := by
  intro x y
  apply gateId_perm
  have h1 : Expr.den (x * y) = Expr.den (y * x) := by
    funext t r; simp [Expr.den, mul_comm]
  have h2 : Expr.den (x + 1) = Expr.den (1 + x) := by
    funext t r; simp [Expr.den, add_comm]
  simp only [List.map_cons, List.map_nil, h1, h2]
  exact List.Perm.swap _ _ _

/-- The overload of `add_gate` for one constraint and the overload for a list holding just that constraint
agree on the id exactly when the first multiplier is one or the constraint vanishes at both random points. -/
theorem gateId_single_iff (vs : ValueSet F) (c : Expr F) :
    gateId vs (.single c) = gateId vs (.many [c]) ↔
      vs.pw 0 = 1 ∨ (c.eval vs.p1 0 = 0 ∧ c.eval vs.p2 0 = 0) := by
  have e : gateId vs (.many [c]) = (vs.pw 0 * c.eval vs.p1 0, vs.pw 0 * c.eval vs.p2 0) := by
    simp [gateId, idSum, evalC]
  rw [e]
  simp only [gateId, evalC, ofLex_toLex, Prod.mk.injEq]
  constructor
  · rintro ⟨h1, h2⟩
    by_cases h : vs.pw 0 = 1
    · exact .inl h
    · have hne : vs.pw 0 - 1 ≠ 0 := sub_ne_zero.2 h
      refine .inr ⟨?_, ?_⟩
      · have : (vs.pw 0 - 1) * c.eval vs.p1 0 = 0 := by linear_combination -h1
        exact (mul_eq_zero.1 this).resolve_left hne
      · have : (vs.pw 0 - 1) * c.eval vs.p2 0 = 0 := by linear_combination -h2
        exact (mul_eq_zero.1 this).resolve_left hne
  · rintro (h | ⟨h1, h2⟩)
    · simp [h]
    · simp [h1, h2]

/-- Disagreement with the natural reading of C02 ("registering the same constraints again returns the same
selector"): registering a constraint through the single-constraint overload and then through the list overload
yields two gates with different selectors, unless one of two random coincidences happens. -/
theorem single_and_list_get_two_selectors {L : Type*} [DecidableEq L] (vs : ValueSet F)
    (lid : List (LookupC F) → L) (c : Expr F) (hpw : vs.pw 0 ≠ 1) (hc : c.eval vs.p1 0 ≠ 0) :
    let r := (Circuit.init : Circuit F (F × F) L).addGate (gateId vs (.single c)) [c]
    (r.1.addGate (gateId vs (.many [c])) [c]).2 ≠ r.2 ∧
    (r.1.addGate (gateId vs (.many [c])) [c]).1.gates.length = 2 := by
  intro r
  have hne : gateId vs (.many [c]) ≠ gateId vs (.single c) := fun h =>
    (by rcases (gateId_single_iff vs c).1 h.symm with h | h
        · exact hpw h
        · exact hc h.1)
  constructor <;> simp [r, Circuit.addGate, Circuit.init, Function.update_of_ne hne]

/-! ## C52: lookup gates -/

theorem lookupGateId_perm (vs : ValueSet F) {ls ls' : List (LookupC F)} (h : ls.Perm ls') :
    lookupGateId vs ls = lookupGateId vs ls' := idSum_perm _ (h.map _)

/-- C52 is refuted: for every choice of random values, looking up the constant 0 in one table and in another
table are the same lookup gate. -/
theorem lookupGateId_table_collision (vs : ValueSet F) (T T' : ℕ) :
    lookupGateId vs [⟨T, [0]⟩] = lookupGateId vs [⟨T', [0]⟩] := by
  simp [lookupGateId, idSum, evalL]

/-- Consequence: a circuit that demands `0 ∈ T1` and `0 ∈ T2` is accepted although `0 ∉ T2`. -/
theorem lookup_dropped (vs : ValueSet F) :
    let lk : ℕ → List F → Bool := fun T v => decide (T = 1 ∧ v = [0])
    let cmds : List (Cmd F) := [.lookup [⟨1, [0]⟩] [0], .lookup [⟨2, [0]⟩] [0]]
    let st := runCmds (gateId vs) (lookupGateId vs) cmds
    isSatisfied lk st.1 st.2 = true ∧ ¬ ∀ c ∈ cmds, c.Meaning lk st.2.toTable := by
  intro lk cmds st
  constructor
  · have e := lookupGateId_table_collision vs 2 1
    simp [st, cmds, runCmds, Cmd.step, Circuit.addLookup, Circuit.init, e, isSatisfied, lk]
  · simp [cmds, Cmd.Meaning, lk]

/-- What does hold: when two single lookups have equal ids for all random values, and they ask for
tuples of the same width in which some input is not identically zero, then the tables agree. -/
theorem lookupGateId_table_of_ne_partial (l l' : LookupC F)
    (hne : ∃ p : Table F, ∃ i, ∃ h : i < l.inputs.length, (l.inputs[i]).eval p 0 ≠ 0)
    (h : ∀ vs : ValueSet F, lookupGateId vs [l] = lookupGateId vs [l']) : l.table = l'.table := by
  obtain ⟨p, i, hi, hp⟩ := hne
  by_contra hT
  let vs : ValueSet F := ⟨p, p, fun _ => 1, fun j => if j = i then 1 else 0,
    fun T => if T = l.table then 1 else 0⟩
  have := congrArg Prod.fst (h vs)
  have hT' : ¬ l'.table = l.table := fun e => hT e.symm
  simp only [lookupGateId, idSum, evalL, List.map_cons, List.map_nil, List.insertionSort_cons,
    List.insertionSort_nil, List.orderedInsert_nil, List.mapIdx_cons, List.mapIdx_nil, ofLex_toLex,
    List.sum_cons, List.sum_nil, vs, if_true, hT', if_false, zero_mul, one_mul, add_zero] at this
  apply hp
  rw [← this]
  clear this h hT hT' hp vs
  have key : ∀ (es : List (Expr F)) (k : ℕ) (hk : i < k + es.length) (hki : k ≤ i),
      (es.mapIdx fun j e => (if j + k = i then (1 : F) else 0) * e.eval p 0).sum =
        (es[i - k]'(by omega)).eval p 0 := by
    intro es
    induction es with
    | nil => intro k hk hki; simp at hk; omega
    | cons e es ih =>
      intro k hk hki
      rw [List.mapIdx_cons, List.sum_cons]
      by_cases e0 : k = i
      · subst e0
        have : ∀ (es : List (Expr F)) (m : ℕ), 0 < m →
            (es.mapIdx fun j e => (if j + m + k = k then (1 : F) else 0) * e.eval p 0).sum = 0 := by
          intro es
          induction es with
          | nil => intros; rfl
          | cons a es ih2 =>
            intro m hm
            rw [List.mapIdx_cons, List.sum_cons]
            have := ih2 (m + 1) (by omega)
            simp only [show ∀ j, j + 1 + m = j + (m + 1) from fun j => by omega]
            rw [this]; simp; omega
        rw [this es 1 (by omega)]; simp
      · have := ih (k + 1) (by simp at hk; omega) (by omega)
        simp only [show ∀ j, j + 1 + k = j + (k + 1) from fun j => by omega]
        rw [this]
        have h1 : i - k = (i - (k + 1)) + 1 := by omega
        simp [e0, h1]
  have := key l.inputs 0 (by omega) (by omega)
  simpa using this.symm

example (vs : ValueSet ℚ) : ∃ p : Table ℚ, ∃ i, ∃ h : i < (⟨3, [0, 1]⟩ : LookupC ℚ).inputs.length,
    ((⟨3, [0, 1]⟩ : LookupC ℚ).inputs[i]).eval p 0 ≠ 0 := ⟨vs.p1, 1, by simp, by simp⟩

end
end Verif
