import Verif.Model.ConstBatch
import Mathlib.Data.List.Basic
import Mathlib.Data.List.Nodup
import Mathlib.Data.Rat.Defs
import Mathlib.Algebra.Order.Ring.Rat
import Mathlib.Algebra.Field.Rat
import Mathlib.Tactic.Ring
import Mathlib.Tactic.Linarith
import Mathlib.Tactic.NormNum
import Mathlib.Tactic.SplitIfs

/-!
# C44: constant batching
-/

set_option linter.unusedSimpArgs false
set_option linter.unusedVariables false
set_option linter.unusedSectionVars false

namespace Verif
namespace ConstBatch

open GateMover

variable {F : Type*}

/-! ## Requests -/

theorem constVar_inj {m n : ℕ} (h : constVar m = constVar n) : m = n := by
  have := congrArg Var.rotation h
  simpa [constVar] using this

theorem addAll_spec [DecidableEq F] (store xs : List F) (hn : store.Nodup) :
    (addAll store xs).1.Nodup ∧ store <+: (addAll store xs).1 ∧ (addAll store xs).2.length = xs.length ∧
      ∀ (i : ℕ) x v, xs[i]? = some x → (addAll store xs).2[i]? = some v →
        ∃ n : ℕ, v = constVar n ∧ (addAll store xs).1[n]? = some x := by
  induction xs generalizing store with
  | nil => exact ⟨hn, List.prefix_refl _, rfl, by simp⟩
  | cons x l ih =>
    have hadd : (add store x).1.Nodup ∧ store <+: (add store x).1 ∧
        ∃ n : ℕ, (add store x).2 = constVar n ∧ (add store x).1[n]? = some x := by
      unfold add
      split_ifs with hx
      · refine ⟨hn, List.prefix_refl _, _, rfl, ?_⟩
        rw [List.getElem?_eq_getElem (List.idxOf_lt_length_of_mem hx)]
        simp
      · refine ⟨?_, List.prefix_append _ _, _, rfl, by simp⟩
        rw [List.nodup_append]
        exact ⟨hn, by simp, by intro a ha b hb; rw [List.mem_singleton] at hb; subst hb; rintro rfl; exact hx ha⟩
    obtain ⟨a1, a2, n, a3, a4⟩ := hadd
    obtain ⟨i1, i2, i3, i4⟩ := ih _ a1
    refine ⟨i1, a2.trans i2, by simp [addAll, i3], ?_⟩
    intro i y v hy hv
    cases i with
    | zero =>
      simp only [List.getElem?_cons_zero, Option.some.injEq, addAll] at hy hv
      subst hy hv
      refine ⟨n, a3, ?_⟩
      obtain ⟨r, hr⟩ := i2
      show (addAll (add store x).1 l).1[n]? = _
      rw [← hr, List.getElem?_append_left, a4]
      by_contra hc
      rw [List.getElem?_eq_none (by omega)] at a4
      cases a4
    | succ i =>
      simp only [List.getElem?_cons_succ, addAll] at hy hv
      exact i4 i y v hy hv

/-- **C44**, requests: two requests get the same variable exactly when they ask for the same constant, and the storage
holds that constant in the variable's slot. -/
theorem requests [DecidableEq F] (xs : List F) (i j : ℕ) (x y : F) (v w : Var) (hx : xs[i]? = some x)
    (hv : (addAll [] xs).2[i]? = some v) (hy : xs[j]? = some y) (hw : (addAll [] xs).2[j]? = some w) :
    (v = w ↔ x = y) ∧ ∃ n : ℕ, v = constVar n ∧ (addAll [] xs).1[n]? = some x := by
  obtain ⟨h1, _, _, h4⟩ := addAll_spec [] xs List.nodup_nil
  obtain ⟨n, rfl, hn⟩ := h4 i x v hx hv
  obtain ⟨m, rfl, hm⟩ := h4 j y w hy hw
  refine ⟨⟨fun h => ?_, fun h => ?_⟩, n, rfl, hn⟩
  · rw [constVar_inj h, hm, Option.some.injEq] at hn
    exact hn.symm
  · subst h
    have hl : n < (addAll [] xs).1.length := by
      by_contra hc
      rw [List.getElem?_eq_none (by omega)] at hn
      cases hn
    rw [(List.getElem?_inj hl h1).1 (hn.trans hm.symm)]

example : (addAll [] [(1 : ℚ), 2, 1]).2 = [constVar 0, constVar 1, constVar 0] := by decide +kernel

/-! ## Used cells -/

theorem mark_some {u u' : List Bool} {i : ℤ} (h : mark u i = some u') :
    0 ≤ i ∧ i < u.length ∧ u'.length = u.length ∧ u'[i.toNat]? = some true ∧
      ∀ n : ℕ, u[n]? = some true → u'[n]? = some true := by
  unfold mark at h
  split_ifs at h with hi
  rw [Option.some.injEq] at h
  subst h
  refine ⟨hi.1, hi.2, by simp, ?_, fun n hn => ?_⟩
  · rw [List.getElem?_set_self (by omega)]
  · by_cases hc : i.toNat = n
    · subst hc; rw [List.getElem?_set_self (by omega)]
    · rw [List.getElem?_set_ne hc, hn]

theorem foldlM_mark {l : List ℤ} {u u' : List Bool} (h : l.foldlM mark u = some u') :
    u'.length = u.length ∧ (∀ n : ℕ, u[n]? = some true → u'[n]? = some true) ∧
      ∀ i ∈ l, 0 ≤ i ∧ i < u.length ∧ u'[i.toNat]? = some true := by
  induction l generalizing u with
  | nil =>
    simp at h
    subst h
    exact ⟨rfl, fun _ h => h, by simp⟩
  | cons a l ih =>
    rw [List.foldlM_cons] at h
    cases hm : mark u a with
    | none => rw [hm] at h; cases h
    | some u1 =>
      rw [hm] at h
      obtain ⟨m1, m2, m3, m4, m5⟩ := mark_some hm
      obtain ⟨i1, i2, i3⟩ := ih h
      refine ⟨by omega, fun n hn => i2 n (m5 n hn), fun i hi => ?_⟩
      rcases List.mem_cons.1 hi with rfl | hi
      · exact ⟨m1, m2, i2 _ m4⟩
      · obtain ⟨a1, a2, a3⟩ := i3 i hi
        exact ⟨a1, by omega, a3⟩

theorem foldlM_mark_ok {l : List ℤ} {u : List Bool} (h : ∀ i ∈ l, 0 ≤ i ∧ i < u.length) : ∃ u', l.foldlM mark u = some u' := by
  induction l generalizing u with
  | nil => exact ⟨u, rfl⟩
  | cons a l ih =>
    have h1 : mark u a = some (u.set a.toNat true) := if_pos (h a List.mem_cons_self)
    obtain ⟨u', hu'⟩ := ih (u := u.set a.toNat true) fun i hi => by simpa using h i (List.mem_cons_of_mem _ hi)
    exact ⟨u', by rw [List.foldlM_cons, h1]; exact hu'⟩

theorem skip_spec (u : List Bool) (srow row : ℕ) (h : srow ≤ row) :
    row ≤ skip u srow row ∧ u[skip u srow row - srow]? ≠ some true := by
  induction hk : u.length + srow - row using Nat.strong_induction_on generalizing row with
  | _ k ih =>
    rw [skip]
    split_ifs with hc
    · obtain ⟨h1, h2⟩ := ih (u.length + srow - (row + 1)) (by omega) (row + 1) (by omega) rfl
      exact ⟨by omega, h2⟩
    · refine ⟨le_refl _, fun hu => hc ?_⟩
      have hl : row - srow < u.length := by
        by_contra hc2
        rw [List.getElem?_eq_none (by omega)] at hu
        cases hu
      refine ⟨by omega, ?_⟩
      rw [List.getD_eq_getElem?_getD, hu]
      rfl

/-- The rows chosen are increasing, at or after the start, unused; the cells hold the constants; nothing else changes. -/
theorem placeConsts_spec (col srow : ℕ) (u : List Bool) (store : List F) (row : ℕ) (hr : srow ≤ row) (t : Table F) :
    (placeConsts col srow u store row t).1.length = store.length ∧
      (placeConsts col srow u store row t).1.Pairwise (· < ·) ∧
      (∀ r ∈ (placeConsts col srow u store row t).1, row ≤ r ∧ r < (placeConsts col srow u store row t).2.2 ∧
        u[r - srow]? ≠ some true) ∧
      (∀ (i r : ℕ), (placeConsts col srow u store row t).1[i]? = some r →
        some ((placeConsts col srow u store row t).2.1 .constant col r) = store[i]?) ∧
      ∀ ty i r, (ty = .constant → i = col → ∀ n ∈ (placeConsts col srow u store row t).1, r ≠ (n : ℤ)) →
        (placeConsts col srow u store row t).2.1 ty i r = t ty i r := by
  induction store generalizing row t with
  | nil => simp [placeConsts]
  | cons x l ih =>
    obtain ⟨s1, s2⟩ := skip_spec u srow row hr
    obtain ⟨i1, i2, i3, i4, i5⟩ := ih (skip u srow row + 1) (by omega) (t.set .constant col (skip u srow row) x)
    have hlast : skip u srow row + 1 ≤ (placeConsts col srow u l (skip u srow row + 1)
        (t.set .constant col (skip u srow row) x)).2.2 := by
      clear ih i1 i2 i3 i4 i5
      generalize hk : t.set .constant col (skip u srow row) x = t'
      generalize hr0 : skip u srow row + 1 = r0
      have hr1 : srow ≤ r0 := by omega
      clear hk hr0 s1 s2
      induction l generalizing r0 t' with
      | nil => exact le_refl _
      | cons y l ih2 =>
        obtain ⟨q1, _⟩ := skip_spec u srow r0 hr1
        have := ih2 (t'.set .constant col (skip u srow r0) y) (skip u srow r0 + 1) (by omega)
        show r0 ≤ (placeConsts col srow u l _ _).2.2
        omega
    refine ⟨by simp [placeConsts, i1], ?_, ?_, ?_, ?_⟩
    · rw [placeConsts, List.pairwise_cons]
      exact ⟨fun r hr' => by have := (i3 r hr').1; omega, i2⟩
    · intro r hr'
      rcases List.mem_cons.1 hr' with rfl | hr'
      · exact ⟨s1, hlast, s2⟩
      · obtain ⟨a1, a2, a3⟩ := i3 r hr'
        exact ⟨by omega, a2, a3⟩
    · intro i r hi
      cases i with
      | zero =>
        simp only [placeConsts, List.getElem?_cons_zero, Option.some.injEq] at hi ⊢
        subst hi
        rw [i5 .constant col _ fun _ _ n hn => by have := (i3 n hn).1; omega]
        simp [Table.set_apply]
      | succ i =>
        simp only [placeConsts, List.getElem?_cons_succ] at hi ⊢
        exact i4 i r hi
    · intro ty i r h
      show (placeConsts col srow u l _ _).2.1 ty i r = _
      rw [i5 ty i r fun h1 h2 n hn => h h1 h2 n (List.mem_cons_of_mem _ hn), Table.set_apply, if_neg]
      rintro ⟨h1, h2, h3⟩
      exact h h1 h2 _ List.mem_cons_self h3

/-! ## Finalisation -/

/-- A copy constraint's reference to the constant column: an existing cell. -/
def CopiesIn (col size : ℕ) (copies : List (Var × Var)) : Prop :=
  ∀ p ∈ copies, ∀ v, v = p.1 ∨ v = p.2 → v.type = .constant → v.index = col → 0 ≤ v.rotation ∧ v.rotation < size

theorem mem_copyMarks {col srow : ℕ} {copies : List (Var × Var)} {p : Var × Var} (hp : p ∈ copies) {v : Var}
    (hv : v = p.1 ∨ v = p.2) (hc : varCheck col srow v = true) : v.rotation - srow ∈ copyMarks col srow copies := by
  refine List.mem_map.2 ⟨v, List.mem_filter.2 ⟨List.mem_flatMap.2 ⟨p, hp, ?_⟩, hc⟩, rfl⟩
  rcases hv with rfl | rfl <;> simp

/-- **C44**, copy constraints: with no undefined behaviour, every batched constant is written to a cell of its own at or
after the start row, all other cells keep their value, no cell read by a copy constraint is among those written, and every
copy constraint that held between values still holds after the replacement. -/
theorem finalize_copies_partial [DecidableEq F] [Field F] (col srow size : ℕ) (hcol : col < constIndex) (selSize : ℕ → ℕ)
    (t : Table F) (copies : List (Var × Var)) (gates : List Gate) (store : List F) (hin : CopiesIn col size copies)
    (hk : ∀ p ∈ copies, ∀ v, v = p.1 ∨ v = p.2 → v.index = constIndex → ∃ n < store.length, v = constVar n)
    (t' : Table F) (copies' : List (Var × Var)) (last : ℕ)
    (h : finalize col srow size selSize t copies gates store = some (t', copies', last)) :
    ∃ rows : List ℕ, rows.length = store.length ∧ rows.Pairwise (· < ·) ∧ (∀ r ∈ rows, srow ≤ r ∧ r < last) ∧
      (∀ (i r : ℕ), rows[i]? = some r → some (t' .constant col r) = store[i]?) ∧
      (∀ ty i r, (ty = .constant → i = col → ∀ n ∈ rows, r ≠ (n : ℤ)) → t' ty i r = t ty i r) ∧
      (∀ p ∈ copies, ∀ v, v = p.1 ∨ v = p.2 → v.type = .constant → v.index = col → ∀ n ∈ rows, v.rotation ≠ (n : ℤ)) ∧
      copies' = copies.map (fun p => (substConst col rows p.1, substConst col rows p.2)) ∧
      ∀ p ∈ copies, val t store p.1 = val t store p.2 →
        (substConst col rows p.1).value t' = (substConst col rows p.2).value t' := by
  -- the conclusion from the properties of the chosen rows
  have fin : ∀ (rows : List ℕ) (t' : Table F), rows.length = store.length →
      (∀ (i r : ℕ), rows[i]? = some r → some (t' .constant col r) = store[i]?) →
      (∀ ty i r, (ty = .constant → i = col → ∀ n ∈ rows, r ≠ (n : ℤ)) → t' ty i r = t ty i r) →
      (∀ p ∈ copies, ∀ v, v = p.1 ∨ v = p.2 → v.type = .constant → v.index = col → ∀ n ∈ rows, v.rotation ≠ (n : ℤ)) →
      ∀ p ∈ copies, ∀ v, v = p.1 ∨ v = p.2 → (substConst col rows v).value t' = val t store v := by
    intro rows t' hlen hcell hframe hused p hp v hv
    by_cases hvi : v.index = constIndex
    · obtain ⟨n, hn, rfl⟩ := hk p hp v hv hvi
      have hr : rows[n]? = some rows[n] := List.getElem?_eq_getElem (by omega)
      have hs : substConst col rows (constVar n) = ⟨col, rows[n], false, .constant⟩ := by
        unfold substConst
        rw [if_pos ⟨rfl, rfl, rfl, Int.natCast_nonneg n⟩]
        show (match rows[((n : ℕ) : ℤ).toNat]? with | some r => _ | none => _) = _
        rw [Int.toNat_natCast, hr]
      rw [hs]
      have h2 := hcell n _ hr
      have hv : val t store (constVar n) = store.getD ((n : ℕ) : ℤ).toNat 0 := if_pos rfl
      rw [hv, Int.toNat_natCast, List.getD_eq_getElem?_getD, ← h2]
      rfl
    · have hs : substConst col rows v = v := if_neg fun h => hvi h.1
      rw [hs]
      have hv2 : val t store v = v.value t := if_neg hvi
      rw [hv2]
      exact hframe _ _ _ fun h1 h2 => hused p hp v hv h1 h2
  unfold finalize at h
  split_ifs at h with hs
  · simp only [Option.some.injEq, Prod.mk.injEq] at h
    obtain ⟨rfl, rfl, rfl⟩ := h
    have hsub : ∀ v, substConst col [] v = v := by
      intro v; unfold substConst; split_ifs <;> rfl
    refine ⟨[], by simp [hs], List.Pairwise.nil, by simp, by simp, fun _ _ _ _ => rfl, by simp, by simp [hsub], ?_⟩
    intro p hp he
    have hf := fin [] t (by simp [hs]) (by simp) (fun _ _ _ _ => rfl) (by simp) p hp
    rw [hf p.1 (Or.inl rfl), hf p.2 (Or.inr rfl), he]
  · cases hu : used col srow size selSize t copies gates with
    | none => rw [hu] at h; cases h
    | some u =>
      rw [hu] at h
      simp only [Option.map_some, Option.some.injEq, Prod.mk.injEq] at h
      obtain ⟨rfl, rfl, rfl⟩ := h
      obtain ⟨p1, p2, p3, p4, p5⟩ := placeConsts_spec col srow u store srow (le_refl _) t
      have hused : ∀ p ∈ copies, ∀ v, v = p.1 ∨ v = p.2 → v.type = .constant → v.index = col →
          ∀ n ∈ (placeConsts col srow u store srow t).1, v.rotation ≠ (n : ℤ) := by
        intro p hp v hv h1 h2 n hn heq
        obtain ⟨a1, _, a3⟩ := p3 n hn
        obtain ⟨b1, b2⟩ := hin p hp v hv h1 h2
        have hc : varCheck col srow v = true := by
          simp only [varCheck, h1, h2, decide_true, Bool.and_true, Bool.true_and, decide_eq_true_eq]
          rw [if_neg (by omega)]
          omega
        unfold used at hu
        rw [if_pos (by omega)] at hu
        obtain ⟨_, _, hm⟩ := foldlM_mark hu
        obtain ⟨_, _, hm3⟩ := hm _ (List.mem_append_left _ (mem_copyMarks hp hv hc))
        apply a3
        have : (v.rotation - srow).toNat = n - srow := by omega
        rw [← this]
        exact hm3
      refine ⟨_, p1, p2, fun r hr => ⟨(p3 r hr).1, (p3 r hr).2.1⟩, p4, p5, hused, rfl, ?_⟩
      intro p hp he
      have hf := fin _ _ p1 p4 p5 hused p hp
      rw [hf p.1 (Or.inl rfl), hf p.2 (Or.inr rfl), he]

/-- What a gate reads of the constant column on its enabled rows, by offset. -/
def Reads [One F] (col : ℕ) (selSize : ℕ → ℕ) (t : Table F) (g : Gate) (off : ℤ) (row : ℕ) : Prop :=
  ∃ v ∈ g.vars, v.type = .constant ∧ v.index = col ∧ v.rotation = off ∧ row < selSize g.selector ∧
    t .selector g.selector row = 1

/-- **C44**, gates: a cell read by an enabled gate is preserved if the offset is negative or at least the start row.
Missing: the remaining offsets, in particular 0, see `gate_cell_refuted`. -/
theorem finalize_gates_partial [DecidableEq F] [Field F] (col srow size : ℕ) (selSize : ℕ → ℕ)
    (t : Table F) (copies : List (Var × Var)) (gates : List Gate) (store : List F)
    (t' : Table F) (copies' : List (Var × Var)) (last : ℕ)
    (h : finalize col srow size selSize t copies gates store = some (t', copies', last))
    (g : Gate) (hg : g ∈ gates) (off : ℤ) (row : ℕ) (hrow : srow - 1 ≤ row) (hread : Reads col selSize t g off row)
    (hoff : (off < 0 ∧ (srow : ℤ) ≤ 2 ^ 64 + off) ∨ (srow : ℤ) ≤ off) (hsize : (row : ℤ) + off < size) :
    t' .constant col (row + off) = t .constant col (row + off) := by
  unfold finalize at h
  split_ifs at h with hs
  · simp only [Option.some.injEq, Prod.mk.injEq] at h
    rw [h.1]
  · cases hu : used col srow size selSize t copies gates with
    | none => rw [hu] at h; cases h
    | some u =>
      rw [hu] at h
      simp only [Option.map_some, Option.some.injEq, Prod.mk.injEq] at h
      obtain ⟨rfl, rfl, rfl⟩ := h
      obtain ⟨_, _, p3, _, p5⟩ := placeConsts_spec col srow u store srow (le_refl _) t
      refine p5 _ _ _ fun _ _ n hn heq => ?_
      obtain ⟨a1, _, a3⟩ := p3 n hn
      obtain ⟨v, hv, h1, h2, h3, h4, h5⟩ := hread
      subst h3
      have hc : varCheck col srow v = true := by
        simp only [varCheck, h1, h2, decide_true, Bool.and_true, Bool.true_and, decide_eq_true_eq]
        split_ifs with hneg
        · rcases hoff with h | h <;> omega
        · rcases hoff with h | h <;> omega
      have hmem : (row : ℤ) + v.rotation - srow ∈ gates.flatMap (gateMarks col srow selSize t) := by
        refine List.mem_flatMap.2 ⟨g, hg, List.mem_flatMap.2 ⟨v, List.mem_filter.2 ⟨hv, hc⟩, ?_⟩⟩
        refine List.mem_map.2 ⟨row, List.mem_filter.2 ⟨List.mem_range.2 h4, ?_⟩, rfl⟩
        rw [Bool.and_eq_true, decide_eq_true_eq, decide_eq_true_eq]
        exact ⟨hrow, h5⟩
      unfold used at hu
      rw [if_pos (by omega)] at hu
      obtain ⟨_, _, hm⟩ := foldlM_mark hu
      obtain ⟨_, _, hm3⟩ := hm _ (List.mem_append_right _ hmem)
      apply a3
      have : ((row : ℤ) + v.rotation - srow).toNat = n - srow := by omega
      rw [← this]
      exact hm3

/-- A table with an enabled gate `w0 - c0 = 0` on row 1, which holds. -/
def exTable : Table ℚ := fun ty i r => if ty = .selector then (if r = 1 then 1 else 0) else if r = 1 then 5 else 0
def exGate : GExpr ℚ := .bin .sub (.term [⟨0, 0, true, .witness⟩] 1) (.term [⟨0, 0, true, .constant⟩] 1)

/-- **C44** fails for gates: the constant an enabled gate reads in its own row is overwritten, and the gate, which held,
fails. -/
theorem gate_cell_refuted :
    exGate.eval exTable 1 = 0 ∧ exTable .selector 0 1 = 1 ∧
      ∃ t' last, finalize 0 1 2 (fun _ => 2) exTable [] [⟨0, exGate.vars⟩] [7] = some (t', [], last) ∧
        t' .constant 0 1 = 7 ∧ exGate.eval t' 1 ≠ 0 := by
  refine ⟨by simp [exGate, GExpr.eval, Var.evalAt, exTable], rfl, exTable.set .constant 0 1 7, 2, ?_, ?_, ?_⟩
  · have hu : used 0 1 2 (fun _ => 2) exTable [] [⟨0, exGate.vars⟩] = some [false] := by decide +kernel
    unfold finalize
    rw [if_neg (by simp), hu]
    have hsk : skip [false] 1 1 = 1 := by rw [skip]; simp
    simp only [Option.map_some, placeConsts, hsk, List.map_nil]
    rfl
  · simp [Table.set_apply]
  · have h1 : ColType.witness ≠ .constant := by decide
    have h2 : ColType.witness ≠ .selector := by decide
    norm_num [exGate, GExpr.eval, Var.evalAt, exTable, Table.set_apply, h1, h2]

/-- A gate reading the constant of the row before it, enabled on the start row, makes the code write outside
`used_constants`. -/
theorem negative_rotation_undefined :
    finalize 0 1 3 (fun _ => 3) exTable [] [⟨0, [⟨0, -1, true, .constant⟩]⟩] [7] = none := by
  have hu : used 0 1 3 (fun _ => 3) exTable [] [⟨0, [⟨0, -1, true, .constant⟩]⟩] = none := by decide +kernel
  unfold finalize
  rw [if_neg (by simp), hu]
  rfl

/-- A copy constraint between a batched constant and a witness, another with a constant already in the column. -/
def exCopies : List (Var × Var) :=
  [(⟨1, 4, false, .witness⟩, constVar 0), (⟨0, 1, false, .constant⟩, ⟨0, 1, false, .witness⟩)]

example : ∃ t' last, finalize 0 1 3 (fun _ => 0) exTable exCopies [] [7] =
    some (t', [(⟨1, 4, false, .witness⟩, ⟨0, 2, false, .constant⟩), (⟨0, 1, false, .constant⟩, ⟨0, 1, false, .witness⟩)], last) ∧
    t' .constant 0 2 = 7 ∧ t' .constant 0 1 = 5 ∧ CopiesIn 0 3 exCopies := by
  refine ⟨exTable.set .constant 0 2 7, 3, ?_, by simp [Table.set_apply], by simp [Table.set_apply, exTable], ?_⟩
  · have hu : used 0 1 3 (fun _ => 0) exTable exCopies [] = some [true, false] := by decide +kernel
    unfold finalize
    rw [if_neg (by simp), hu]
    have hsk : skip [true, false] 1 1 = 2 := by rw [skip]; simp; rw [skip]; simp
    simp only [Option.map_some, placeConsts, hsk]
    rfl
  · intro p hp v hv h1 h2
    simp only [exCopies, List.mem_cons, List.not_mem_nil, or_false] at hp
    rcases hp with rfl | rfl <;> rcases hv with rfl | rfl <;> simp_all [constVar, constIndex]

/-- An enabled gate with offset 1 from start row 1: its cell is kept. -/
example : Reads 0 (fun _ => 2) exTable ⟨0, [⟨0, 1, true, .constant⟩]⟩ 1 1 :=
  ⟨_, List.mem_singleton_self _, rfl, rfl, rfl, by decide, rfl⟩

end ConstBatch
end Verif
