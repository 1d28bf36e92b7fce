import Verif.Model.FinalPoly
import Verif.Props.ExprEval
import Mathlib.Algebra.BigOperators.Group.Finset.Basic
import Mathlib.Algebra.BigOperators.Ring.Finset

/-!
# C66: the final polynomial check
-/

set_option linter.unusedSimpArgs false
set_option linter.unusedVariables false
set_option linter.unusedSectionVars false

namespace Verif
namespace FinalPoly

open GateMover Batch ConstBatch ExprEval

variable {F : Type*} [Field F] [DecidableEq F]

/-! ### Specification -/

/-- The polynomial with coefficients `cs`, highest power first, at `x`. -/
def polyVal (cs : List F) (x : F) : F := ∑ j ∈ Finset.range cs.length, cs.getD j 0 * x ^ (cs.length - 1 - j)

/-- All claimed values are right. -/
def Right (V : Var → F) (cs points values : List Var) : Prop :=
  ∀ i < points.length, V (values.getD (2 * i) sVar) = polyVal (cs.map V) (V (points.getD i sVar)) ∧
    V (values.getD (2 * i + 1) sVar) = polyVal (cs.map V) (- V (points.getD i sVar))

/-! ### The expressions -/

theorem polyVal_snoc (cs : List F) (c x : F) : polyVal (cs ++ [c]) x = c + x * polyVal cs x := by
  unfold polyVal
  rw [List.length_append, List.length_singleton, Finset.sum_range_succ, Finset.mul_sum, add_comm]
  congr 1
  · simp
  · refine Finset.sum_congr rfl fun j hj => ?_
    have hj' := Finset.mem_range.1 hj
    rw [List.getD_append _ _ _ _ hj', show cs.length + 1 - 1 - j = (cs.length - 1 - j) + 1 by omega, pow_succ]
    ring

theorem horner_value (V : Var → F) (op : BinOp) (sg : F) (hop : ∀ a b : F, opF op a b = a + sg * b) (e : GExpr F) (pre cs : List Var)
    (he : value V e = polyVal (pre.map V) (sg * V sVar)) :
    value V (horner op e cs) = polyVal ((pre ++ cs).map V) (sg * V sVar) := by
  induction cs generalizing e pre with
  | nil => rw [List.append_nil]; exact he
  | cons c l ih =>
    have := ih (.bin op (.term [c] 1) (.bin .mult (.term [sVar] 1) e)) (pre ++ [c]) ?_
    · rw [List.append_assoc, List.singleton_append] at this
      exact this
    · have hv : value V (.bin op (.term [c] 1) (.bin .mult (.term [sVar] 1) e)) = opF op (V c) (V sVar * value V e) := by
        cases op <;> simp [value, opF]
      rw [hv, hop, he, List.map_append, List.map_singleton, polyVal_snoc]
      ring

theorem constr_value (V : Var → F) (op : BinOp) (sg : F) (hop : ∀ a b : F, opF op a b = a + sg * b) (cs : List Var) (hcs : cs ≠ []) :
    value V (constr op cs) = polyVal (cs.map V) (sg * V sVar) - V yVar := by
  obtain ⟨c, l, rfl⟩ := List.exists_cons_of_ne_nil hcs
  have := horner_value V op sg hop (.term [c] 1) [c] l (by simp [value, polyVal])
  simp only [constr, List.headD_cons, List.tail_cons, value, this, List.singleton_append, List.map_cons, List.map_nil, List.prod_cons,
    List.prod_nil]
  ring

theorem value_map (W : Var → F) (m : Var → Var) (e : GExpr F) : value (fun u => W (m u)) e = value (W ∘ m) e := rfl

theorem horner_vars (op : BinOp) (e : GExpr F) (cs : List Var) (u : Var) (h : u ∈ (horner op e cs).vars) :
    u ∈ e.vars ∨ u ∈ cs ∨ u = sVar := by
  induction cs generalizing e with
  | nil => exact Or.inl h
  | cons c l ih =>
    rcases ih _ h with h | h | h
    · simp only [GExpr.vars, List.mem_append, List.mem_singleton] at h
      rcases h with rfl | rfl | h
      · exact Or.inr (Or.inl List.mem_cons_self)
      · exact Or.inr (Or.inr rfl)
      · exact Or.inl h
    · exact Or.inr (Or.inl (List.mem_cons_of_mem _ h))
    · exact Or.inr (Or.inr h)

theorem constr_vars (op : BinOp) (cs : List Var) (hcs : cs ≠ []) (u : Var) (h : u ∈ (constr (F := F) op cs).vars) :
    u ∈ cs ∨ u = sVar ∨ u = yVar := by
  obtain ⟨c, l, rfl⟩ := List.exists_cons_of_ne_nil hcs
  simp only [constr, GExpr.vars, List.headD_cons, List.tail_cons, List.mem_append, List.mem_singleton] at h
  rcases h with h | rfl
  · rcases horner_vars _ _ _ _ h with h | h | h
    · simp only [GExpr.vars, List.mem_singleton] at h
      exact Or.inl (h ▸ List.mem_cons_self)
    · exact Or.inl (List.mem_cons_of_mem _ h)
    · exact Or.inr (Or.inl h)
  · exact Or.inr (Or.inr rfl)

theorem horner_pos (op : BinOp) (e : GExpr F) (he : Pos e) (cs : List Var) : Pos (horner op e cs) := by
  induction cs generalizing e with
  | nil => exact he
  | cons c l ih => exact ih _ ⟨trivial, trivial, he⟩

theorem constr_pos (op : BinOp) (cs : List Var) : Pos (constr (F := F) op cs) :=
  ⟨horner_pos _ (.term _ 1) trivial _, trivial⟩

/-! ### The component as a list of calls -/

/-- The evaluations for one point. -/
def pointCalls (t : Table F) (circ : Bool) (cs values : List Var) (p : Var) (i : ℕ) : List (Call F) :=
  [⟨t, circ, mapping cs p (values.getD (2 * i) sVar), constr .add cs⟩, ⟨t, circ, mapping cs p (values.getD (2 * i + 1) sVar), constr .sub cs⟩]

/-- The evaluations for the points from number `i`. -/
def loopCalls (t : Table F) (circ : Bool) (cs values : List Var) : List Var → ℕ → List (Call F)
  | [], _ => []
  | p :: l, i => pointCalls t circ cs values p i ++ loopCalls t circ cs values l (i + 1)

theorem circuitLoop_eq (le : List Var → List Var → Bool) (t : Table F) (cs values : List Var) (zero : Var) (points : List Var) (i : ℕ)
    (s : ExprEval.St F) : circuitLoop comps le t cs values zero points i s =
      ((calls comps le s (loopCalls t false cs values points i)).1,
        (calls comps le s (loopCalls t false cs values points i)).2.map fun v => (v, zero)) := by
  induction points generalizing i s with
  | nil => rfl
  | cons p l ih =>
    simp only [circuitLoop, loopCalls, pointCalls, List.cons_append, List.nil_append, calls, ih, List.map_cons]

theorem assignLoop_eq (le : List Var → List Var → Bool) (t : Table F) (cs values : List Var) (points : List Var) (i : ℕ)
    (s : ExprEval.St F) : assignLoop comps le t cs values points i s = (calls comps le s (loopCalls t true cs values points i)).1 := by
  induction points generalizing i s with
  | nil => rfl
  | cons p l ih =>
    simp only [assignLoop, loopCalls, pointCalls, List.cons_append, List.nil_append, calls, ih]

/-- The constant zero as an evaluation. -/
def zeroCall (t : Table F) : Call F := ⟨t, false, id, .term [] 0⟩

theorem circuit_eq (le : List Var → List Var → Bool) (t : Table F) (cs points values : List Var) (s : ExprEval.St F) :
    (circuit comps le t cs points values s).1 = (calls comps le s (zeroCall t :: loopCalls t false cs values points 0)).1 ∧
      ∃ zero, (calls comps le s (zeroCall t :: loopCalls t false cs values points 0)).2 =
          zero :: (calls comps le (con 0 s).1 (loopCalls t false cs values points 0)).2 ∧
        (circuit comps le t cs points values s).2 =
          (calls comps le (con 0 s).1 (loopCalls t false cs values points 0)).2.map fun v => (v, zero) := by
  unfold circuit
  simp only [circuitLoop_eq]
  exact ⟨rfl, _, rfl, rfl⟩

theorem loopCalls_get (t : Table F) (circ : Bool) (cs values points : List Var) (i0 : ℕ) (i : ℕ) (hi : i < points.length) :
    (loopCalls t circ cs values points i0)[2 * i]? =
        some ⟨t, circ, mapping cs (points.getD i sVar) (values.getD (2 * (i0 + i)) sVar), constr .add cs⟩ ∧
      (loopCalls t circ cs values points i0)[2 * i + 1]? =
        some ⟨t, circ, mapping cs (points.getD i sVar) (values.getD (2 * (i0 + i) + 1) sVar), constr .sub cs⟩ := by
  induction points generalizing i0 i with
  | nil => simp at hi
  | cons p l ih =>
    cases i with
    | zero => exact ⟨rfl, rfl⟩
    | succ i =>
      have := ih (i0 + 1) i (by simpa using hi)
      rw [show i0 + 1 + i = i0 + (i + 1) by omega] at this
      simpa [loopCalls, pointCalls, Nat.mul_succ] using this

theorem loopCalls_mem (t : Table F) (circ : Bool) (cs values points : List Var) (i0 : ℕ) (k : Call F)
    (hk : k ∈ loopCalls t circ cs values points i0) :
    k.t = t ∧ k.circ = circ ∧ ∃ i < points.length, ∃ op, k.expr = constr op cs ∧
      (k.map = mapping cs (points.getD i sVar) (values.getD (2 * (i0 + i)) sVar) ∨
        k.map = mapping cs (points.getD i sVar) (values.getD (2 * (i0 + i) + 1) sVar)) := by
  induction points generalizing i0 with
  | nil => simp [loopCalls] at hk
  | cons p l ih =>
    simp only [loopCalls, pointCalls, List.mem_append, List.mem_cons, List.not_mem_nil, or_false] at hk
    rcases hk with (rfl | rfl) | hk
    · exact ⟨rfl, rfl, 0, by simp, .add, rfl, Or.inl rfl⟩
    · exact ⟨rfl, rfl, 0, by simp, .sub, rfl, Or.inr rfl⟩
    · obtain ⟨h1, h2, i, hi, op, h3, h4⟩ := ih (i0 + 1) hk
      refine ⟨h1, h2, i + 1, by simpa using hi, op, h3, ?_⟩
      rw [show i0 + 1 + i = i0 + (i + 1) by omega] at h4
      simpa using h4

theorem loopCalls_length (t : Table F) (circ : Bool) (cs values points : List Var) (i0 : ℕ) :
    (loopCalls t circ cs values points i0).length = 2 * points.length := by
  induction points generalizing i0 with
  | nil => rfl
  | cons p l ih => simp only [loopCalls, pointCalls, List.length_append, ih, List.length_cons, List.length_nil]; omega

theorem calls_length (c : ℕ → Comp F) (le : List Var → List Var → Bool) (ks : List (Call F)) (s : ExprEval.St F) :
    (calls c le s ks).2.length = ks.length := by
  induction ks generalizing s with
  | nil => rfl
  | cons k l ih => simp only [calls, List.length_cons, ih]

/-- The inputs: absolute variables, in the number the component asserts. -/
structure InputOk (cs points values : List Var) : Prop where
  ne : cs ≠ []
  len : values.length = 2 * points.length
  abs : ∀ v ∈ cs, v.relative = false

theorem getD_mem {l : List Var} {i : ℕ} (h : i < l.length) (d : Var) : l.getD i d ∈ l := by
  rw [List.getD_eq_getElem _ _ h]; exact List.getElem_mem h

theorem mapping_s {cs : List Var} (h : ∀ v ∈ cs, v.relative = false) (p y : Var) : mapping cs p y sVar = p := by
  unfold mapping
  rw [if_neg (fun hm => by simpa [sVar] using h _ hm), if_pos rfl]

theorem mapping_y {cs : List Var} (h : ∀ v ∈ cs, v.relative = false) (p y : Var) : mapping cs p y yVar = y := by
  unfold mapping
  rw [if_neg (fun hm => by simpa [yVar] using h _ hm), if_neg (by decide), if_pos rfl]

theorem mapping_c {cs : List Var} {p y u : Var} (h : u ∈ cs) : mapping cs p y u = u := if_pos h

theorem map_value (W : Var → F) {cs : List Var} (h : ∀ v ∈ cs, v.relative = false) (hcs : cs ≠ []) (p y : Var) (op : BinOp) (sg : F)
    (hop : ∀ a b : F, opF op a b = a + sg * b) :
    value (fun u => W (mapping cs p y u)) (constr op cs) = polyVal (cs.map W) (sg * W p) - W y := by
  rw [constr_value _ op sg hop cs hcs, mapping_s h, mapping_y h]
  congr 2
  exact List.map_congr_left fun u hu => by rw [mapping_c hu]

/-- The variables the evaluations read. -/
theorem loop_reads (t : Table F) (circ : Bool) {cs points values : List Var} (hin : InputOk cs points values) (k : Call F)
    (hk : k ∈ loopCalls t circ cs values points 0) (u : Var) (hu : u ∈ k.expr.vars) : k.map u ∈ cs ++ points ++ values := by
  obtain ⟨-, -, i, hi, op, he, hm⟩ := loopCalls_mem t circ cs values points 0 k hk
  rw [he] at hu
  rw [Nat.zero_add] at hm
  have hl := hin.len
  have hp : points.getD i sVar ∈ points := getD_mem hi _
  have h1 : values.getD (2 * i) sVar ∈ values := getD_mem (by omega) _
  have h2 : values.getD (2 * i + 1) sVar ∈ values := getD_mem (by omega) _
  simp only [List.mem_append]
  rcases constr_vars op cs hin.ne u hu with hu | rfl | rfl <;> rcases hm with hm | hm <;> rw [hm]
  · rw [mapping_c hu]; exact Or.inl (Or.inl hu)
  · rw [mapping_c hu]; exact Or.inl (Or.inl hu)
  · rw [mapping_s hin.abs]; exact Or.inl (Or.inr hp)
  · rw [mapping_s hin.abs]; exact Or.inl (Or.inr hp)
  · rw [mapping_y hin.abs]; exact Or.inr h1
  · rw [mapping_y hin.abs]; exact Or.inr h2

theorem opF_add (a b : F) : opF .add a b = a + 1 * b := by simp [opF]
theorem opF_sub (a b : F) : opF .sub a b = a + (-1) * b := by simp [opF]; ring

/-- **C66**, soundness. After any earlier and before any later evaluations, in every table in which the finalised batch gates
and copy constraints hold, the polynomial has the given values at all points and their negatives. -/
theorem check_sound (le : List Var → List Var → Bool) (pre post : List (Call F)) (hpos : ∀ k ∈ pre ++ post, Pos k.expr)
    (hmap : ∀ k ∈ pre ++ post, ∀ u ∈ k.expr.vars, Abs (k.map u)) (t0 : Table F) (cs points values : List Var)
    (hin : InputOk cs points values) (habs : ∀ v ∈ cs ++ points ++ values, Abs v) {W : ℕ} (hW : 3 ≤ W) (hW' : W < constIndex)
    (ids : List ℕ) (hn : ids.Nodup) (hids : ∀ b, b ∈ ids ↔ b < 3) (row : ℕ)
    (r : ExprEval.St F × List (Var × Var)) (hr : r = circuit comps le t0 cs points values (calls comps le St.empty pre).1)
    (s : ExprEval.St F) (hs : s = (calls comps le r.1 post).1)
    (ps : List Place) (hps : ps = (finalizeAll (comps (F := F)) W s.batch.ents ids row).1)
    (before : List (Var × Var)) (hcop : ∀ p ∈ r.2, p ∈ before) (hbef : ∀ p ∈ before, Abs p.1 ∧ Abs p.2) (col : ℕ)
    (rows : List ℕ) (t : Table F)
    (hrows : ∀ (m : ℕ) x, s.consts[m]? = some x → ∃ r : ℕ, rows[m]? = some r ∧ t .constant col r = x)
    (hgate : ∀ b ∈ ids, ∀ r ∈ enabled ps b, ∀ g ∈ batchGate (comps b).gate W 3, g.eval t (r : ℤ) = 0)
    (hcopy : ∀ p ∈ finalCopies (comps (F := F)) before ps, (substConst col rows p.1).value t = (substConst col rows p.2).value t) :
    Right (fun v => (final (comps (F := F)) ps col rows v).value t) cs points values := by
  set s0 := (calls (comps (F := F)) le St.empty pre).1 with hs0
  set lc := loopCalls t0 false cs values points 0 with hlc
  obtain ⟨hc1, zero, hc2, hc3⟩ := circuit_eq le t0 cs points values s0
  rw [← hr] at hc1 hc3
  -- the whole list of calls
  set ks := pre ++ (zeroCall t0 :: lc ++ post) with hks
  have hst : (calls (comps (F := F)) le St.empty ks).1 = s := by
    rw [hks, calls_append, hs, hc1, calls_append]
  have hout : (calls (comps (F := F)) le St.empty ks).2 = (calls (comps (F := F)) le St.empty pre).2 ++
      (zero :: (calls (comps (F := F)) le (con 0 s0).1 lc).2 ++ (calls (comps (F := F)) le r.1 post).2) := by
    rw [hks, calls_append, calls_append, ← hs0, hc2, hc1]
  have hpos' : ∀ k ∈ ks, Pos k.expr := by
    intro k hk
    simp only [hks, List.mem_append, List.mem_cons] at hk
    rcases hk with hk | (rfl | hk) | hk
    · exact hpos k (List.mem_append_left _ hk)
    · trivial
    · obtain ⟨-, -, i, -, op, he, -⟩ := loopCalls_mem t0 false cs values points 0 k hk
      rw [he]; exact constr_pos _ _
    · exact hpos k (List.mem_append_right _ hk)
  have hmap' : ∀ k ∈ ks, ∀ u ∈ k.expr.vars, Abs (k.map u) := by
    intro k hk u hu
    simp only [hks, List.mem_append, List.mem_cons] at hk
    rcases hk with hk | (rfl | hk) | hk
    · exact hmap k (List.mem_append_left _ hk) u hu
    · simp [zeroCall, GExpr.vars] at hu
    · exact habs _ (loop_reads t0 false hin k hk u hu)
    · exact hmap k (List.mem_append_right _ hk) u hu
  have key := eval_sound le ks hpos' hmap' hW hW' ids hn hids row before hbef col rows t (by rw [hst]; exact hrows)
    (by rw [hst, ← hps]; exact hgate) (by rw [hst, ← hps]; exact hcopy)
  rw [hst, ← hps] at key
  set V := fun v => (final (comps (F := F)) ps col rows v).value t with hV
  have hpl : (calls (comps (F := F)) le St.empty pre).2.length = pre.length := calls_length _ _ _ _
  have hll : (calls (comps (F := F)) le (con 0 s0).1 lc).2.length = 2 * points.length := by
    rw [calls_length, hlc, loopCalls_length]
  have hzero : V zero = 0 := by
    have := key pre.length (zeroCall t0) zero (by rw [hks, List.getElem?_append_right (by omega)]; simp)
      (by rw [hout, List.getElem?_append_right (by omega)]; simp [hpl])
    rw [hV]; simp only []
    rw [this]; simp [zeroCall, value]
  have hj : ∀ (j : ℕ) (k : Call F) (v : Var), lc[j]? = some k → (calls (comps (F := F)) le (con 0 s0).1 lc).2[j]? = some v →
      value (fun u => V (k.map u)) k.expr = 0 := by
    intro j k v hk hv
    have hjl : j < 2 * points.length := by
      by_contra hc
      rw [List.getElem?_eq_none (by omega)] at hv
      cases hv
    have hjk : j < lc.length := by rw [hlc, loopCalls_length]; exact hjl
    have h1 := key (pre.length + (1 + j)) k v
      (by rw [hks, List.getElem?_append_right (by omega), Nat.add_sub_cancel_left, List.cons_append, Nat.add_comm 1 j, List.getElem?_cons_succ,
        List.getElem?_append_left hjk, hk])
      (by rw [hout, List.getElem?_append_right (by omega), hpl, Nat.add_sub_cancel_left, List.cons_append, Nat.add_comm 1 j, List.getElem?_cons_succ,
        List.getElem?_append_left (by omega), hv])
    rw [← h1]
    have h2 : (v, zero) ∈ before := hcop _ (by rw [hc3]; exact List.mem_map.2 ⟨v, List.mem_of_getElem? hv, rfl⟩)
    have h3 := hcopy (subst (mapOf comps ps) v, subst (mapOf comps ps) zero)
      (by simp only [finalCopies, List.mem_map, List.mem_append]; exact ⟨(v, zero), Or.inl h2, rfl⟩)
    show V v = 0
    rw [← hzero]
    exact h3
  intro i hi
  obtain ⟨g1, g2⟩ := loopCalls_get t0 false cs values points 0 i hi
  rw [Nat.zero_add] at g1 g2
  have e1 := hj (2 * i) _ _ g1 (List.getElem?_eq_getElem (by omega))
  have e2 := hj (2 * i + 1) _ _ g2 (List.getElem?_eq_getElem (by omega))
  simp only [] at e1 e2
  rw [map_value V hin.abs hin.ne _ _ .add 1 opF_add] at e1
  rw [map_value V hin.abs hin.ne _ _ .sub (-1) opF_sub] at e2
  constructor
  · rw [one_mul] at e1; linear_combination -e1
  · rw [neg_one_mul] at e2; linear_combination -e2

/-! ### Completeness -/

/-- When all results have values, reading results from the storage respects the batches. -/
theorem model_of_right {t : Table F} {s : ExprEval.St F} (hk : KeysOk (fun _ => True) s) (hr : ExprEval.Right t s) (hd : AllDone s) :
    Model (Batch.val (overlay t s.consts) s.batch.store) s := by
  have hc := hr s.consts (List.prefix_refl _)
  refine ⟨fun op e he a b r hkey hres => ?_, fun m x hm => ?_⟩
  · have := (hc _ e he (hd _ e he)).2
    rw [hkey, hres, outs_len] at this
    simp only [List.map_cons, List.map_nil, List.cons.injEq, and_true] at this
    rw [this]
    cases op <;> simp [comps, batchOf, ExprEval.mulComp, addComp, subComp, opF]
  · rw [val_other _ _ (by simp [constVar, constIndex, batchIndex]), overlay_const, List.getD_eq_getElem?_getD, hm]
    rfl

/-- A batch variable returned by an evaluation is the result of an entry. -/
theorem calls_out (le : List Var → List Var → Bool) (ks : List (Call F)) (hpos : ∀ k ∈ ks, Pos k.expr) (s : ExprEval.St F)
    (hi : Inv comps s.batch) (hc : ∀ k ∈ ks, ∀ u ∈ k.expr.vars, (k.map u).index ≠ batchIndex) (v : Var)
    (hv : v ∈ (calls comps le s ks).2) (hvi : v.index = batchIndex) :
    ∃ b, ∃ e ∈ (calls comps le s ks).1.batch.ents b, v ∈ e.res := by
  have key : ∀ (ks : List (Call F)), (∀ k ∈ ks, Pos k.expr) → ∀ s : ExprEval.St F, Inv comps s.batch →
      ∀ b, ∀ e ∈ s.batch.ents b, ∃ e' ∈ (calls comps le s ks).1.batch.ents b, e'.res = e.res := by
    intro ks
    induction ks with
    | nil => exact fun _ s _ b e he => ⟨e, he, rfl⟩
    | cons k l ih =>
      intro hp s hi b e he
      obtain ⟨⟨h1, h2⟩, -, -⟩ := visit_ind ⟨comps, le, k.t, k.circ, k.map⟩
        (fun s' => Inv comps s'.batch ∧ ∃ e' ∈ s'.batch.ents b, e'.res = e.res) (fun _ _ _ => True) (fun _ => 0)
        (fun s' x h => by rw [(con_spec x s').1]; exact ⟨h, trivial, fun _ _ _ => trivial⟩)
        (fun s' op a b' x y h _ _ => by
          obtain ⟨-, j2, -, -, j5, -, -⟩ := req_spec ⟨comps, le, k.t, k.circ, k.map⟩ rfl op a b' s' h.1
          obtain ⟨e', he', hr'⟩ := h.2
          obtain ⟨e'', he'', -, hr'', -⟩ := j5 b e' he'
          exact ⟨⟨j2, e'', he'', hr''.trans hr'⟩, trivial, fun _ _ _ => trivial⟩)
        k.expr (hp k List.mem_cons_self) s ⟨hi, e, he, rfl⟩ (fun _ _ => trivial)
      obtain ⟨e', he', hr'⟩ := h2
      obtain ⟨e'', he'', hr''⟩ := ih (fun k hk => hp k (List.mem_cons_of_mem _ hk)) _ h1 b e' he'
      exact ⟨e'', he'', hr''.trans hr'⟩
  induction ks generalizing s with
  | nil => simp [calls] at hv
  | cons k l ih =>
    obtain ⟨h1, h2, -⟩ := visit_ind ⟨comps, le, k.t, k.circ, k.map⟩
      (fun s' => Inv comps s'.batch) (fun s' v _ => v.index = batchIndex → ∃ b, ∃ e ∈ s'.batch.ents b, v ∈ e.res) (fun _ => 0)
      (fun s' x h => by
        obtain ⟨j1, j2, m, j3, j4, j5⟩ := con_spec x s'
        rw [j1, j4]
        exact ⟨h, fun hb => by simp [constVar, constIndex, batchIndex] at hb, fun v d hq => hq⟩)
      (fun s' op a b' x y h _ _ => by
        obtain ⟨-, j2, -, ⟨e, he, -, hr, -⟩, j5, -, -⟩ := req_spec ⟨comps, le, k.t, k.circ, k.map⟩ rfl op a b' s' h
        refine ⟨j2, fun _ => ⟨_, e, he, by rw [hr]; exact List.mem_singleton_self _⟩, fun v d hq hvb => ?_⟩
        obtain ⟨b, e', he', hv'⟩ := hq hvb
        obtain ⟨e'', he'', -, hr'', -⟩ := j5 b e' he'
        exact ⟨b, e'', he'', hr'' ▸ hv'⟩)
      k.expr (hpos k List.mem_cons_self) s hi (fun u hu hb => absurd hb (hc k List.mem_cons_self u hu))
    simp only [calls, List.mem_cons] at hv
    rcases hv with rfl | hv
    · obtain ⟨b, e, he, hr⟩ := h2 hvi
      obtain ⟨e', he', hr'⟩ := key l (fun k hk => hpos k (List.mem_cons_of_mem _ hk)) _ h1 b e he
      exact ⟨b, e', he', hr' ▸ hr⟩
    · exact ih (fun k hk => hpos k (List.mem_cons_of_mem _ hk)) _ h1 (fun k hk => hc k (List.mem_cons_of_mem _ hk)) hv

/-- An input: a cell outside the rows the batches are about to fill. -/
structure CellOk (W row last : ℕ) (v : Var) : Prop where
  batch : v.index ≠ batchIndex
  const : v.index ≠ constIndex
  cell : ¬ (v.type = .witness ∧ v.index < W ∧ (row : ℤ) ≤ v.rotation ∧ v.rotation < (last : ℤ))

theorem valid_cells (le : List Var → List Var → Bool) (t : Table F) (ks : List (Call F)) (ht : ∀ k ∈ ks, k.t = t)
    (hc : ∀ k ∈ ks, ∀ u ∈ k.expr.vars, (k.map u).index ≠ batchIndex ∧ (k.map u).index ≠ constIndex) (s : ExprEval.St F) : Valid le t s ks := by
  induction ks generalizing s with
  | nil => trivial
  | cons k l ih =>
    refine ⟨fun _ u hu => ?_, ih (fun k hk => ht k (List.mem_cons_of_mem _ hk)) (fun k hk => hc k (List.mem_cons_of_mem _ hk)) _⟩
    obtain ⟨h1, h2⟩ := hc k List.mem_cons_self u hu
    exact ⟨fun h => absurd h h1, fun h => absurd h h2, fun _ _ => by rw [ht k List.mem_cons_self]⟩

/-- **C66**, completeness. If the polynomial has the given values, then after both finalisations all batch gates and all copy
constraints hold. -/
theorem check_complete (le : List Var → List Var → Bool) (t : Table F) (cs points values : List Var)
    (hin : InputOk cs points values) {W : ℕ} (hW : 3 ≤ W) (hW' : W < constIndex)
    (ids : List ℕ) (hn : ids.Nodup) (hids : ∀ b, b ∈ ids ↔ b < 3) (row : ℕ)
    (r : ExprEval.St F × List (Var × Var)) (hr : r = circuit comps le t cs points values St.empty)
    (ps : List Place) (end_ : ℕ) (hps : (ps, end_) = finalizeAll (comps (F := F)) W r.1.batch.ents ids row)
    (hcell : ∀ v ∈ cs ++ points ++ values, CellOk W row end_ v)
    (hright : Right (fun v => v.value t) cs points values)
    (col srow size : ℕ) (hcol : col < constIndex) (selSize : ℕ → ℕ) (gates : List Gate) (t2 : Table F) (copies : List (Var × Var)) (last : ℕ)
    (hci : CopiesIn col size (finalCopies (comps (F := F)) r.2 ps))
    (hfin : finalize col srow size selSize (assignAll comps r.1.batch.store (overlay t r.1.consts) ps)
      (finalCopies (comps (F := F)) r.2 ps) gates r.1.consts = some (t2, copies, last)) :
    (∀ b ∈ ids, ∀ r ∈ enabled ps b, ∀ g ∈ batchGate (comps b).gate W 3, g.eval t2 (r : ℤ) = 0) ∧
      ∀ p ∈ copies, p.1.value t2 = p.2.value t2 := by
  set lc := loopCalls t false cs values points 0 with hlc
  obtain ⟨hc1, zero, hc2, hc3⟩ := circuit_eq le t cs points values (St.empty (F := F))
  rw [← hr] at hc1 hc3
  set ks := zeroCall t :: lc with hks
  have hmem : ∀ k ∈ ks, k = zeroCall t ∨ k ∈ lc := fun k hk => by simpa [hks] using hk
  have hpos : ∀ k ∈ ks, Pos k.expr := by
    intro k hk
    rcases hmem k hk with rfl | hk
    · trivial
    · obtain ⟨-, -, i, -, op, he, -⟩ := loopCalls_mem t false cs values points 0 k hk
      rw [he]; exact constr_pos _ _
  have hread : ∀ k ∈ ks, ∀ u ∈ k.expr.vars, CellOk W row end_ (k.map u) := by
    intro k hk u hu
    rcases hmem k hk with rfl | hk
    · simp [zeroCall, GExpr.vars] at hu
    · exact hcell _ (loop_reads t false hin k hk u hu)
  have hkt : ∀ k ∈ ks, k.t = t ∧ k.circ = false := by
    intro k hk
    rcases hmem k hk with rfl | hk
    · exact ⟨rfl, rfl⟩
    · obtain ⟨h1, h2, -⟩ := loopCalls_mem t false cs values points 0 k hk
      exact ⟨h1, h2⟩
  have hval : Valid le t St.empty ks := valid_cells le t ks (fun k hk => (hkt k hk).1)
    (fun k hk u hu => ⟨(hread k hk u hu).batch, (hread k hk u hu).const⟩) _
  have hdone : AllDone (calls comps le (St.empty (F := F)) ks).1 :=
    calls_done le ks (fun k hk => (hkt k hk).2) hpos _ (inv_empty _) (fun b e he => by simp [ExprEval.St.empty] at he)
  obtain ⟨K, -, vk⟩ := calls_keys le ks hpos (fun v => v.index ≠ batchIndex ∧ v.index ≠ constIndex ∧ CellOk W row end_ v)
    (fun k hk u hu => ⟨(hread k hk u hu).batch, (hread k hk u hu).const, hread k hk u hu⟩) St.empty (keysOk_empty _)
  have R := calls_right le t ks hpos St.empty (inv_empty comps) (fun cs _ b e he => by simp [ExprEval.St.empty] at he) hval
  have K' : KeysOk (fun _ => True) (calls comps le (St.empty (F := F)) ks).1 :=
    ⟨K.inv, fun b e he => ⟨(K.entry b e he).1, (K.entry b e he).2.1, fun v _ => Or.inr (Or.inr trivial)⟩⟩
  have M := model_of_right K' R hdone
  obtain ⟨-, hm2⟩ := (calls_model le ks hpos St.empty (inv_empty comps) _).2 M
  obtain ⟨hlast1, hlast2⟩ : (finalizeAll (comps (F := F)) W (calls comps le (St.empty (F := F)) ks).1.batch.ents ids row).1 = ps ∧
      (finalizeAll (comps (F := F)) W (calls comps le (St.empty (F := F)) ks).1.batch.ents ids row).2 = end_ := by
    rw [← hc1, ← hps]; exact ⟨rfl, rfl⟩
  set V := Batch.val (overlay t (calls comps le (St.empty (F := F)) ks).1.consts) (calls comps le (St.empty (F := F)) ks).1.batch.store with hV
  have hVc : ∀ v, CellOk W row end_ v → V v = v.value t := fun v hv => by
    rw [hV, val_other _ _ hv.batch, overlay_cell _ _ hv.const]
  -- the outputs
  have hzero : V zero = 0 := by
    have := hm2 0 (zeroCall t) zero rfl (by rw [hc2]; rfl)
    rw [this]; simp [zeroCall, value]
  have hout : ∀ p ∈ r.2, p.1 ∈ (calls comps le (St.empty (F := F)) ks).2 ∧ p.2 = zero ∧ V p.1 = 0 := by
    intro p hp
    rw [hc3] at hp
    obtain ⟨v, hv, rfl⟩ := List.mem_map.1 hp
    refine ⟨by rw [hc2]; exact List.mem_cons_of_mem _ hv, rfl, ?_⟩
    obtain ⟨j, hjl, hj⟩ := List.getElem_of_mem hv
    have hjl' := hjl
    rw [calls_length, loopCalls_length] at hjl'
    have hkj : ks[j + 1]? = lc[j]? := rfl
    have hvj : (calls comps le (St.empty (F := F)) ks).2[j + 1]? = some v := by
      rw [hc2, List.getElem?_cons_succ, List.getElem?_eq_getElem hjl, hj]
    have hl := hin.len
    have hi : j / 2 < points.length := by omega
    obtain ⟨g1, g2⟩ := loopCalls_get t false cs values points 0 (j / 2) hi
    rw [Nat.zero_add] at g1 g2
    obtain ⟨r1, r2⟩ := hright (j / 2) hi
    simp only [] at r1 r2
    have hVp : V (points.getD (j / 2) sVar) = (points.getD (j / 2) sVar).value t :=
      hVc _ (hcell _ (List.mem_append_left _ (List.mem_append_right _ (getD_mem hi _))))
    have hVcs : cs.map V = cs.map (fun v => v.value t) :=
      List.map_congr_left fun v hv => hVc v (hcell v (List.mem_append_left _ (List.mem_append_left _ hv)))
    rcases (by omega : j = 2 * (j / 2) ∨ j = 2 * (j / 2) + 1) with hj2 | hj2
    · rw [← hj2] at g1 r1
      have := hm2 (j + 1) _ v (hkj.trans g1) hvj
      simp only [] at this
      show V v = 0
      rw [this, map_value V hin.abs hin.ne _ _ .add 1 opF_add, one_mul, hVp, hVcs,
        hVc _ (hcell _ (List.mem_append_right _ (getD_mem (by omega) _))), r1, sub_self]
    · rw [← hj2] at g2 r2
      have := hm2 (j + 1) _ v (hkj.trans g2) hvj
      simp only [] at this
      show V v = 0
      rw [this, map_value V hin.abs hin.ne _ _ .sub (-1) opF_sub, neg_one_mul, hVp, hVcs,
        hVc _ (hcell _ (List.mem_append_right _ (getD_mem (by omega) _))), r2, sub_self]
  have hvin : ∀ v ∈ (calls comps le (St.empty (F := F)) ks).2, VarIn W row end_ (calls comps le (St.empty (F := F)) ks).1 v := by
    intro v hv
    rcases vk v hv with ⟨m, rfl⟩ | ⟨m, hm, rfl⟩ | h
    · exact ⟨fun h => by simp [batchVar, constIndex, batchIndex] at h, fun h => by simp [batchVar] at h⟩
    · exact ⟨fun _ => ⟨m, hm, rfl⟩, fun h => by simp [constVar] at h⟩
    · exact ⟨fun h' => absurd h' h.2.1, h.2.2.cell⟩
  have hready : ∀ v ∈ (calls comps le (St.empty (F := F)) ks).2, v.index = batchIndex → Ready (calls comps le (St.empty (F := F)) ks).1.batch v := by
    intro v hv hvi
    obtain ⟨b, e, he, hve⟩ := calls_out le ks hpos St.empty (inv_empty comps)
      (fun k hk u hu => (hread k hk u hu).batch) v hv hvi
    exact ⟨b, e, he, hdone b e he, hve⟩
  have hzm : zero ∈ (calls comps le (St.empty (F := F)) ks).2 := by rw [hc2]; exact List.mem_cons_self
  obtain ⟨g1, g2, -⟩ := eval_complete le ks hpos t hval hdone hW hW' ids hn hids row
    (fun k hk u hu => by
      rw [hlast2]
      have := hread k hk u hu
      exact ⟨fun h => absurd h this.const, this.cell⟩)
    r.2
    (fun p hp v hv => by
      rw [hlast2]
      obtain ⟨h1, h2, -⟩ := hout p hp
      rcases hv with rfl | rfl
      · exact ⟨hvin _ h1, hready _ h1⟩
      · rw [h2]; exact ⟨hvin _ hzm, hready _ hzm⟩)
    (fun p hp => by
      obtain ⟨-, h2, h3⟩ := hout p hp
      rw [← hV, h3, h2, hzero])
    col srow size hcol selSize gates t2 copies last (by rw [hlast1]; exact hci) (by rw [hlast1, ← hc1]; exact hfin)
  rw [hlast1] at g1
  exact ⟨g1, g2⟩

/-- `generate_assignments` after `generate_circuit` changes nothing. -/
theorem assign_after (le : List Var → List Var → Bool) (t t' : Table F) (cs points values : List Var) (s : ExprEval.St F) :
    assignLoop comps le t' cs values points 0 (circuit comps le t cs points values s).1 = (circuit comps le t cs points values s).1 := by
  rw [assignLoop_eq, (circuit_eq le t cs points values s).1]
  have h2 : List.Forall₂ (fun k k' => k'.circ = true ∧ k'.map = k.map ∧ k'.expr = k.expr) (loopCalls t false cs values points 0)
      (loopCalls t' true cs values points 0) := by
    generalize 0 = i
    induction points generalizing i with
    | nil => exact List.Forall₂.nil
    | cons p l ih => exact List.Forall₂.cons ⟨rfl, rfl, rfl⟩ (List.Forall₂.cons ⟨rfl, rfl, rfl⟩ (ih _))
  have := calls_again le _ _ (con 0 s).1 (calls comps le s (zeroCall t :: loopCalls t false cs values points 0)).1 h2 (Ext.refl _)
  rw [this]

/-! ### Examples -/

/-- The polynomial 2 x^3 + 5 x with the values 69 at 3 and -69 at -3, over the field with 13 elements. -/
def exT' : Table (ZMod 13) := fun ty i r =>
  if ty = .witness ∧ r = 0 then
    (if i = 0 then 2 else if i = 2 then 5 else if i = 4 then 3 else if i = 5 then 4 else if i = 6 then 9 else 0) else 0

def exC : List Var := [exX 0, exX 1, exX 2, exX 3]

example : Right (fun v => v.value exT') exC [exX 4] [exX 5, exX 6] := by
  unfold Right polyVal; decide +kernel

abbrev exR : ExprEval.St (ZMod 13) × List (Var × Var) := circuit comps exLe exT' exC [exX 4] [exX 5, exX 6] St.empty
abbrev exPs : List Place := (finalizeAll (comps (F := ZMod 13)) 9 exR.1.batch.ents [0, 1, 2] 1).1

/-- The hypotheses of `check_complete` (and so those of `check_sound`) can be met. -/
example : ∃ t2 copies last,
    finalize 0 1 20 (fun _ => 0) (assignAll comps exR.1.batch.store (overlay exT' exR.1.consts) exPs)
      (finalCopies (comps (F := ZMod 13)) exR.2 exPs) [] exR.1.consts = some (t2, copies, last) ∧
    (∀ b ∈ [0, 1, 2], ∀ r ∈ enabled exPs b, ∀ g ∈ batchGate (comps b).gate 9 3, g.eval t2 (r : ℤ) = 0) ∧
    ∀ p ∈ copies, p.1.value t2 = p.2.value t2 := by
  have hsome : (finalize 0 1 20 (fun _ => 0) (assignAll comps exR.1.batch.store (overlay exT' exR.1.consts) exPs)
      (finalCopies (comps (F := ZMod 13)) exR.2 exPs) [] exR.1.consts).isSome := by decide +kernel
  obtain ⟨⟨t2, copies, last⟩, hf⟩ := Option.isSome_iff_exists.1 hsome
  refine ⟨t2, copies, last, hf, ?_⟩
  refine check_complete exLe exT' exC [exX 4] [exX 5, exX 6] ⟨by decide, rfl, by decide⟩ (W := 9) (by decide) (by decide +kernel) [0, 1, 2]
    (by decide) (by intro b; simp; omega) 1 _ rfl _ _ rfl ?_ (by unfold Right polyVal; decide +kernel) 0 1 20 (by decide +kernel) (fun _ => 0) [] t2
    copies last ?_ hf
  · intro v hv
    have hv' : v.index ≤ 6 ∧ v.rotation = 0 := by
      revert v; decide
    exact ⟨by unfold batchIndex; omega, by unfold constIndex; omega, fun h => by have := h.2.2.1; rw [hv'.2] at this; simp at this⟩
  · have : ∀ p ∈ finalCopies (comps (F := ZMod 13)) exR.2 exPs, ¬ (p.1.type = .constant ∧ p.1.index = 0) ∧
        ¬ (p.2.type = .constant ∧ p.2.index = 0) := by decide +kernel
    intro p hp v hv h1 h2
    rcases hv with rfl | rfl
    · exact absurd ⟨h1, h2⟩ (this p hp).1
    · exact absurd ⟨h1, h2⟩ (this p hp).2

end FinalPoly
end Verif
