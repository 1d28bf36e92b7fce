import Verif.Model.KimchiPrep
import Verif.Props.KimchiGroup

/-!
# C153: `prepare_scalars`; C154: `map_fq`, `map_fr`; C155: `table_commitment`
-/

set_option linter.unusedSimpArgs false
set_option linter.unusedVariables false
set_option linter.unusedSectionVars false

namespace Verif
namespace KimchiPrep
open KimchiGroup (G w2 kv sat_calls chain_ok Chain)
open KimchiSponge (Before Same Within before_wa ConstsIn writeConsts_in)
variable {p : ℕ} [Fact p.Prime]

/-! ### C153 -/

theorem prep_val (s : ℤ) (T : Table (ZMod p)) (xs : List Var) : ∀ r, (∀ g ∈ prepCalls s r xs, g.Val T) → ∀ i (h : i < xs.length),
    (w2 (r + 2 * i + 1)).value T = (xs[i].value T + (kv s 0).value T) * (kv s 1).value T := by
  induction xs with
  | nil => intro r _ i h; simp at h
  | cons x xs ih =>
    intro r hg i h
    simp only [prepCalls, List.forall_mem_cons] at hg
    obtain ⟨h1, h2, h3⟩ := hg
    cases i with
    | zero =>
      have e : r + 2 * ((0 : ℕ) : ℤ) + 1 = r + 1 := by push_cast; ring
      rw [e]
      simp only [KimchiGroup.G.Val] at h1 h2
      rw [h2, h1]; rfl
    | succ i =>
      have e : r + 2 * ((i + 1 : ℕ) : ℤ) + 1 = r + 2 + 2 * (i : ℤ) + 1 := by push_cast; ring
      rw [e, ih (r + 2) h3 i (by simpa using h)]; rfl

/-- **C153.** Every output is the shifted scalar: `out = x - 2^255`, respectively `out = (x - 2^255 - 1) / 2`, written without division. -/
theorem prepare_sound (h2 : (2 : ZMod p) ≠ 0) (larger : Bool) (s : ℤ) (xs : List Var) (T : Table (ZMod p)) (h : Sat T (prepCircuit larger s xs)) :
    ∀ i (hi : i < xs.length), if larger then (prepOut s i).value T + 2 ^ 255 = xs[i].value T else 2 * (prepOut s i).value T + 2 ^ 255 + 1 = xs[i].value T := by
  intro i hi
  rw [prepCircuit, sat_append] at h
  have e := prep_val s T xs s (sat_calls T _ h.2) i hi
  have e0 : kv s 0 = ⟨0, s, false, .constant⟩ := by simp [kv]
  have e1 : kv s 1 = ⟨0, s + 1, false, .constant⟩ := by simp [kv]
  show if larger then (w2 (s + 2 * i + 1)).value T + 2 ^ 255 = xs[i].value T else 2 * (w2 (s + 2 * i + 1)).value T + 2 ^ 255 + 1 = xs[i].value T
  have hc := h.1
  cases larger with
  | true =>
    simp only [prepConsts, if_true, sat_cons] at hc ⊢
    have a : (kv s 0).value T = -(2 : ZMod p) ^ 255 := by rw [e0]; exact hc.1
    have b : (kv s 1).value T = 1 := by rw [e1]; exact hc.2.1
    rw [e, a, b]; ring
  | false =>
    simp only [prepConsts, Bool.false_eq_true, if_false, sat_cons] at hc ⊢
    have a : (kv s 0).value T = -(2 : ZMod p) ^ 255 - 1 := by rw [e0]; exact hc.1
    have b : (kv s 1).value T = 1 / 2 := by rw [e1]; exact hc.2.1
    have c : (2 : ZMod p) * (1 / 2) = 1 := by rw [mul_one_div, div_self h2]
    rw [e, a, b]
    linear_combination (xs[i].value T - 2 ^ 255 - 1) * c

theorem prep_chain (s : ℤ) (xs : List Var) : ∀ r, (∀ x ∈ xs, Before x r) → Chain r (prepCalls s r xs) := by
  induction xs with
  | nil => intro r _; trivial
  | cons x xs ih =>
    intro r h
    have k : ∀ i r, Before (kv s i) r := fun i r hw => by simp [kv] at hw
    refine ⟨rfl, ⟨h x (by simp), k _ _⟩, rfl, ⟨before_wa _ _ _ _ (by omega), k _ _⟩, ?_⟩
    have e : r + 1 + 1 = r + 2 := by ring
    rw [e]
    exact ih _ fun y hy => (h y (by simp [hy])).mono (by omega)

theorem prep_length (s : ℤ) (xs : List Var) : ∀ r, (prepCalls s r xs).length = prepRows xs.length := by
  induction xs with
  | nil => intro r; rfl
  | cons x xs ih => intro r; simp only [prepCalls, List.length_cons, ih, prepRows]; omega

/-- Completeness: the table is accepted for every list of scalars, and only the counted rows are written. -/
theorem prepare_complete (larger : Bool) (s : ℤ) (xs : List Var) (hx : ∀ x ∈ xs, Before x s) (T0 : Table (ZMod p)) :
    let T := prepAssign s xs (writeConsts (prepConsts larger s) T0)
    Sat T (prepCircuit larger s xs) ∧ Within s (s + prepRows xs.length) (writeConsts (prepConsts larger s) T0) T := by
  intro T
  obtain ⟨a1, a2, -⟩ := chain_ok (fun _ _ => 0) _ s (prep_chain s xs s hx) (writeConsts (prepConsts larger s) T0)
  rw [prep_length] at a2
  refine ⟨?_, a2⟩
  rw [prepCircuit, sat_append]
  refine ⟨?_, a1⟩
  have hs := a2.same
  have v0 : ∀ r : ℤ, T .constant 0 r = writeConsts (prepConsts larger s) T0 .constant 0 r := fun r => hs _ _ _ (by simp)
  cases larger <;>
  · simp only [prepConsts, sat_cons, Op.Holds, Bool.false_eq_true, if_false, if_true, sat_nil, and_true]
    rw [v0, v0]
    constructor <;> simp [prepConsts, writeConsts, Op.writeConst, Table.set_apply]

/-- Three scalars in pallas. -/
example : ∃ T : Table (ZMod pallasP), Sat T (prepCircuit false 7 [⟨0, 0, false, .publicInput⟩, ⟨0, 1, false, .publicInput⟩, ⟨3, 2, false, .witness⟩]) :=
  ⟨_, (prepare_complete false 7 _ (by
    intro x hx
    simp only [List.mem_cons, List.not_mem_nil, or_false] at hx
    rcases hx with rfl | rfl | rfl <;> intro h <;> simp_all) (fun _ _ _ => 0)).1⟩

/-! ### C158 -/

/-- What the comment of `prepare_scalars_inversion` asks for: `y` is the scalar whose `prepare_scalars` is `x`. -/
def IsInverse (larger : Bool) (x y : ZMod p) : Prop := if larger then x + 2 ^ 255 = y else 2 * x + 2 ^ 255 + 1 = y

/-- **C158 is false**, scalar field larger: the output is wrong for every scalar. -/
theorem inversion_wrong (h2 : (2 : ZMod p) ≠ 0) (s : ℤ) (xs : List Var) (T : Table (ZMod p)) (h : Sat T (invCircuit true s xs)) :
    ∀ i (hi : i < xs.length), ¬ IsInverse true (xs[i].value T) ((prepOut s i).value T) := by
  intro i hi e
  have a := prepare_sound h2 true s xs T h i hi
  simp only [if_true] at a
  simp only [IsInverse, if_true] at e
  have : (2 : ZMod p) ^ 256 = 0 := by linear_combination e + a
  exact h2 (pow_eq_zero_iff (by norm_num) |>.1 this)

/-- **C158**, scalar field not larger: the output is right for one scalar only. -/
theorem inversion_iff_partial (h2 : (2 : ZMod p) ≠ 0) (h3 : (3 : ZMod p) ≠ 0) (s : ℤ) (xs : List Var) (T : Table (ZMod p)) (h : Sat T (invCircuit false s xs)) :
    ∀ i (hi : i < xs.length), IsInverse false (xs[i].value T) ((prepOut s i).value T) ↔ xs[i].value T = -(2 ^ 255 + 1) := by
  intro i hi
  have a := prepare_sound h2 false s xs T h i hi
  simp only [Bool.false_eq_true, if_false] at a
  simp only [IsInverse, Bool.false_eq_true, if_false]
  constructor
  · intro e
    apply mul_left_cancel₀ h3
    linear_combination a + 2 * e
  · intro e
    apply mul_left_cancel₀ h2
    linear_combination 3 * e - a

/-- The inverse exists, so the claim could be met. -/
theorem inverse_right (h2 : (2 : ZMod p) ≠ 0) (larger : Bool) (s : ℤ) (xs : List Var) (T : Table (ZMod p)) (h : Sat T (prepCircuit larger s xs)) :
    ∀ i (hi : i < xs.length), IsInverse larger ((prepOut s i).value T) (xs[i].value T) := prepare_sound h2 larger s xs T h

example : ∃ T : Table (ZMod pallasP), Sat T (invCircuit true 7 [⟨0, 0, false, .publicInput⟩]) ∧ ¬ IsInverse true ((⟨0, 0, false, .publicInput⟩ : Var).value T) ((prepOut 7 0).value T) := by
  have h : Sat (prepAssign 7 [⟨0, 0, false, .publicInput⟩] (writeConsts (prepConsts true 7) fun _ _ _ => (0 : ZMod pallasP))) (invCircuit true 7 [⟨0, 0, false, .publicInput⟩]) :=
    (prepare_complete true 7 [⟨0, 0, false, .publicInput⟩] (by
      intro x hx
      rw [List.mem_singleton.1 hx]
      intro h; simp_all) (fun _ _ _ => 0)).1
  exact ⟨_, h, inversion_wrong (by decide +kernel) 7 _ _ h 0 (by simp)⟩

/-! ### C154 -/

/-- **C154 is false**: whatever the two data are, if they are not the same variables, some accepted table has different values in them. -/
theorem map_not_binding (pub rec : List Var) (s : ℤ) (i : ℕ) (h1 : i < pub.length) (h2 : i < rec.length)
    (hne : (pub[i].type, pub[i].index, pub[i].rotation) ≠ (rec[i].type, rec[i].index, rec[i].rotation)) :
    ∃ T : Table (ZMod p), Sat T (mapCircuit pub rec s) ∧ pub[i].value T ≠ rec[i].value T := by
  refine ⟨fun ty c r => if (ty, c, r) = (pub[i].type, pub[i].index, pub[i].rotation) then 1 else 0, by simp [mapCircuit], ?_⟩
  simp only [Var.value, if_true]
  rw [if_neg fun h => hne h.symm]
  exact one_ne_zero

/-- What is left of the claim: equal data is accepted. -/
theorem map_accepts_partial (pub rec : List Var) (s : ℤ) (T : Table (ZMod p)) (h : pub.map (Var.value T) = rec.map (Var.value T)) : Sat T (mapCircuit pub rec s) := by
  simp [mapCircuit]

example : ∃ T : Table (ZMod 7), Sat T (mapCircuit [⟨0, 0, false, .publicInput⟩] [⟨2, 5, false, .witness⟩] 0) ∧
    (⟨0, 0, false, .publicInput⟩ : Var).value T ≠ (⟨2, 5, false, .witness⟩ : Var).value T :=
  haveI : Fact (Nat.Prime 7) := ⟨by norm_num⟩
  map_not_binding [⟨0, 0, false, .publicInput⟩] [⟨2, 5, false, .witness⟩] 0 0 (by simp) (by simp) (by simp)

/-! ### C155 -/

section
variable {P V : Type*}

/-- The pairs the comment refers to (`verifier.rs`): part `k` of column `i` with combiner `i`, then the runtime parts with combiner 1. -/
def pairs (columns split : ℕ) (runtime : Bool) (table : ℕ → ℕ → P) (comb : ℕ → V) (rt : ℕ → P) : List (P × V) :=
  ((List.range columns).flatMap fun i => (List.range split).map fun k => (table i k, comb i)) ++
    if runtime then (List.range split).map fun k => (rt k, comb 1) else []

theorem foldlM_none {α β : Type*} (f : β → α → Option β) (l : List α) (a : α) (ha : a ∈ l) (h : ∀ b, f b a = none) : ∀ b, l.foldlM f b = none := by
  induction l with
  | nil => simp at ha
  | cons x l ih =>
    intro b
    rw [List.foldlM_cons]
    rcases List.mem_cons.1 ha with rfl | h'
    · rw [h]; rfl
    · cases f b x with
      | none => rfl
      | some c => exact ih h' c

/-- **C155 is false** with more than one part in a commitment, or with a runtime table: the loop reads past the end of `joint_combiner`. -/
theorem table_out_of_bounds (columns split : ℕ) (runtime : Bool) (hs : 1 ≤ split) (hbad : (2 ≤ split ∧ 1 ≤ columns) ∨ runtime = true)
    (table : List (List P)) (comb : List V) (hc : comb.length = columns) (rt : List P) : fill columns split runtime table comb rt = none := by
  have hm : columns < msmSize columns split runtime := by
    unfold msmSize
    rcases hbad with ⟨h1, h2⟩ | rfl
    · have : columns * 2 ≤ (columns + if runtime then 1 else 0) * split := Nat.mul_le_mul (by omega) h1
      omega
    · have : (columns + 1) * 1 ≤ (columns + if true = true then 1 else 0) * split := Nat.mul_le_mul (by simp) hs
      omega
  unfold fill fillTable
  rw [foldlM_none _ _ columns (List.mem_range.2 hm)]
  · rfl
  · intro b
    refine foldlM_none _ _ 0 (List.mem_range.2 (by omega)) (fun b => ?_) b
    have hn : comb[columns]? = none := List.getElem?_eq_none (by omega)
    rw [hn]
    unfold put
    split
    · rename_i h; simp at h
    · rfl

/-- With one part and no runtime table the pairs are right. -/
theorem table_pairs_partial (columns : ℕ) (table : ℕ → ℕ → P) (comb : ℕ → V) (rt : ℕ → P) :
    fill columns 1 false ((List.range columns).map fun i => [table i 0]) ((List.range columns).map comb) [rt 0] =
      some ((pairs columns 1 false table comb rt).map some) := by
  have hm : msmSize columns 1 false = columns := by simp [msmSize]
  have key : ∀ n ≤ columns, (List.range n).foldlM (fun buf i => (List.range 1).foldlM
      (fun buf k => put buf (i * 1 + k) (((List.range columns).map fun i => [table i 0])[i]?.bind (·[k]?)) ((List.range columns).map comb)[i]?) buf)
      (List.replicate columns none) = some ((List.range columns).map fun i => if i < n then some (table i 0, comb i) else none) := by
    intro n
    induction n with
    | zero => intro _; simp
    | succ n ih =>
      intro hn
      rw [List.range_succ (n := n), List.foldlM_append, ih (by omega)]
      simp only [List.range_one, List.foldlM_cons, List.foldlM_nil, Option.bind_eq_bind, Option.bind_some, List.getElem?_map,
        List.getElem?_range (show n < columns by omega), Option.map_some, put, List.length_map, List.length_range, Nat.mul_one, Nat.add_zero,
        List.getElem?_cons_zero]
      rw [if_pos (by omega)]
      simp only [Option.bind_some, Option.pure_def, Option.some.injEq]
      apply List.ext_getElem
      · simp
      · intro j h1 h2
        simp only [List.getElem_set, List.getElem_map, List.getElem_range]
        by_cases h : n = j
        · subst h; simp
        · rw [if_neg h]
          by_cases h' : j < n
          · rw [if_pos h', if_pos (by omega)]
          · rw [if_neg h', if_neg (by omega)]
  unfold fill fillTable
  rw [hm, key columns le_rfl]
  simp only [Option.bind_some, Bool.false_eq_true, if_false, Option.some.injEq, pairs, List.append_nil, List.map_flatMap, List.range_one, List.map_cons,
    List.map_nil]
  rw [← List.map_eq_flatMap]
  apply List.ext_getElem
  · simp
  · intro j h1 h2
    simp at h1
    simp [h1]

example : fill 3 1 false [[10], [20], [30]] ["1", "j", "j^2"] [0] = some [some (10, "1"), some (20, "j"), some (30, "j^2")] := by decide +kernel

example : fill 2 2 false [[10, 11], [20, 21]] ["1", "j"] [0] = none := table_out_of_bounds 2 2 false (by omega) (by omega) _ _ rfl _

end

end KimchiPrep
end Verif
