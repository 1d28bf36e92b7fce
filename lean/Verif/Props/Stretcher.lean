import Verif.Model.Stretcher
import Verif.Props.GateMover
import Verif.Props.HuangLu
import Mathlib.Tactic.IntervalCases
import Mathlib.Data.List.Dedup

/-!
# Component stretcher: C53
-/

set_option linter.unusedSimpArgs false
set_option linter.unusedVariables false

namespace Verif
namespace Stretcher
open GateMover HuangLu

variable {F : Type*}

/-- What the stretcher needs of the component: gate variables are witnesses and constants of the previous, current
or next row, inside the component wherever the gate is on; a gate reading a constant of a neighbouring row also reads
a witness of it; copy constraints are between the component's own witnesses, its constants and its (public) inputs;
no constant is both read by a gate and copy constrained. -/
structure WF (C : Comp F) (nc : ℕ) (crows : List ℕ) : Prop where
  gvar : ∀ s < C.gates.length, ∀ v ∈ gateVars (C.gates.getD s []), v.relative = true ∧
    (v.type = .witness ∧ v.index < C.W ∨ v.type = .constant ∧ v.index < nc) ∧
    (v.rotation = -1 ∨ v.rotation = 0 ∨ v.rotation = 1)
  inside : ∀ s < C.gates.length, ∀ i < C.rows, C.sel s i = true → ∀ v ∈ gateVars (C.gates.getD s []),
    0 ≤ (i : ℤ) + v.rotation ∧ (i : ℤ) + v.rotation < C.rows
  cconst : ∀ s < C.gates.length, ∀ v ∈ gateVars (C.gates.getD s []), v.type = .constant → v.rotation ≠ 0 →
    usesW (C.gates.getD s []) v.rotation = true
  copy : ∀ c ∈ C.copies, ∀ v ∈ [c.1, c.2],
    v.type = .witness ∧ v.index < C.W ∧ 0 ≤ v.rotation ∧ v.rotation < C.rows ∨
    v.type = .constant ∧ v.index < nc ∧ 0 ≤ v.rotation ∧ v.rotation < C.rows ∨ v.type = .publicInput
  mem_crows : ∀ i, i ∈ crows ↔ ∃ c ∈ C.copies, ∃ v ∈ [c.1, c.2], v.type = .constant ∧ v.rotation.toNat = i
  disj : ∀ i ∈ crows, priority C i = false

/-- The temporary table read back from the final one. -/
def pullback (C : Comp F) [Field F] (L : Layout) (crows : List ℕ) (dec : Var → Var) (T : Table F) : Table F
  | .witness, w, r => T .witness (agent L (find C r.toNat) * C.W + w) (L.start + line C L r.toNat)
  | .constant, c, r => T .constant c (L.start + place C L crows r.toNat)
  | .publicInput, i, r => (dec ⟨i, r, false, .publicInput⟩).value T
  | .selector, _, _ => 0

theorem usesW_of_mem {cs : List (GExpr F)} {v : Var} (hv : v ∈ gateVars cs) (ht : v.type ≠ .constant) : usesW cs v.rotation = true :=
  List.any_eq_true.2 ⟨v, hv, by simp [ht]⟩

theorem usesC_of_mem {cs : List (GExpr F)} {v : Var} (hv : v ∈ gateVars cs) (ht : v.type = .constant) : usesC cs v.rotation = true :=
  List.any_eq_true.2 ⟨v, hv, by simp [ht]⟩

theorem mem_unions {C : Comp F} {s i : ℕ} (hs : s < C.gates.length) (hi : i < C.rows) (h : C.sel s i = true) {p : ℕ × ℕ}
    (hp : p ∈ rowUnions C i s) : p ∈ unions C := by
  unfold unions
  rw [List.mem_flatMap]
  refine ⟨i, by simpa using hi, List.mem_flatMap.2 ⟨s, by simpa using hs, ?_⟩⟩
  rw [if_pos h]
  exact hp

theorem agent_row (C : Comp F) (L : Layout) (i : ℕ) (hi : i < C.rows) :
    rowAgent (zoneOf C) L.zs L.stretch i = agent L (find C i) := by
  unfold rowAgent agent
  congr 2
  simp [zoneOf, List.getD, hi]

/-- Neighbouring rows of one zone stay neighbours. -/
theorem line_succ (C : Comp F) (L : Layout) (i : ℕ) (hi : i + 1 < C.rows) (h : find C i = find C (i + 1)) :
    line C L (i + 1) = line C L i + 1 := by
  have hl : (zoneOf C).length = C.rows := by simp [zoneOf]
  unfold line
  rw [remap_get _ _ _ _ (by omega), remap_get _ _ _ _ (by omega), agent_row C L _ hi, agent_row C L _ (by omega), ← h,
    List.take_add_one, List.count_append]
  congr 1
  have : ((zoneOf C).map fun z => (huangLu L.zs L.stretch z).getD 0)[i]? = some (agent L (find C i)) := by
    simp [zoneOf, agent, show i < C.rows by omega]
  rw [this]
  simp

/-- A row reached by a gate through a witness variable is in the gate's zone, at the same distance. -/
theorem step {C : Comp F} {nc : ℕ} {crows : List ℕ} (L : Layout) {s i : ℕ} (hs : s < C.gates.length) (hi : i < C.rows)
    (hsel : C.sel s i = true) {d : ℤ} (hu : usesW (C.gates.getD s []) d = true) (hd : d = -1 ∨ d = 0 ∨ d = 1)
    (h0 : 0 ≤ (i : ℤ) + d) (h1 : (i : ℤ) + d < C.rows) :
    find C ((i : ℤ) + d).toNat = find C (C.rows + s) ∧ (line C L ((i : ℤ) + d).toNat : ℤ) = line C L i + d := by
  rcases hd with rfl | rfl | rfl
  · obtain ⟨k, rfl⟩ : ∃ k, i = k + 1 := ⟨i - 1, by omega⟩
    have hk : ((k + 1 : ℕ) + (-1 : ℤ)).toNat = k := by omega
    rw [hk]
    have m1 : (k, k + 1) ∈ unions C := mem_unions hs hi hsel (by simp [rowUnions, hu, -List.getD_eq_getElem?_getD])
    have m2 : (k, C.rows + s) ∈ unions C := mem_unions hs hi hsel (by simp [rowUnions, hu, -List.getD_eq_getElem?_getD])
    refine ⟨ufOf_of_mem m2, ?_⟩
    rw [line_succ C L k hi (ufOf_of_mem m1)]
    push_cast; ring
  · have hk : ((i : ℤ) + 0).toNat = i := by omega
    rw [hk]
    have m2 : (i, C.rows + s) ∈ unions C := mem_unions hs hi hsel (by simp [rowUnions, hu, -List.getD_eq_getElem?_getD])
    exact ⟨ufOf_of_mem m2, by ring⟩
  · have hk : ((i : ℤ) + 1).toNat = i + 1 := by omega
    rw [hk]
    have m1 : (i, i + 1) ∈ unions C := mem_unions hs hi hsel (by simp [rowUnions, hu, -List.getD_eq_getElem?_getD])
    have m2 : (i + 1, C.rows + s) ∈ unions C := mem_unions hs hi hsel (by simp [rowUnions, hu, -List.getD_eq_getElem?_getD])
    refine ⟨ufOf_of_mem m2, ?_⟩
    rw [line_succ C L i (by omega) (ufOf_of_mem m1)]
    push_cast; ring

theorem priority_of_gate {C : Comp F} {s i : ℕ} (hs : s < C.gates.length) (hi : i < C.rows)
    (hsel : C.sel s i = true) {d : ℤ} (hu : usesC (C.gates.getD s []) d = true) (hd : d = -1 ∨ d = 0 ∨ d = 1)
    (h0 : 0 ≤ (i : ℤ) + d) : priority C ((i : ℤ) + d).toNat = true ∧
      find C ((i : ℤ) + d).toNat = find C (C.rows + C.gates.length) := by
  constructor
  · unfold priority
    refine List.any_eq_true.2 ⟨i, by simpa using hi, List.any_eq_true.2 ⟨s, by simpa using hs, ?_⟩⟩
    rcases hd with rfl | rfl | rfl
    · have : i - 1 = ((i : ℤ) + -1).toNat := by omega
      simp [hsel, hu, this, -List.getD_eq_getElem?_getD]
    · have : i = ((i : ℤ) + 0).toNat := by omega
      rw [← this]
      simp [hsel, hu, -List.getD_eq_getElem?_getD]
    · have : ((i : ℤ) + 1).toNat = i + 1 := by omega
      rw [this]
      simp [hsel, hu, -List.getD_eq_getElem?_getD]
  · refine ufOf_of_mem (mem_unions hs hi hsel ?_)
    rcases hd with rfl | rfl | rfl
    · have : ((i : ℤ) + -1).toNat = i - 1 := by omega
      rw [this]; simp [rowUnions, hu, -List.getD_eq_getElem?_getD]
    · have : ((i : ℤ) + 0).toNat = i := by omega
      rw [this]; simp [rowUnions, hu, -List.getD_eq_getElem?_getD]
    · have : ((i : ℤ) + 1).toNat = i + 1 := by omega
      rw [this]; simp [rowUnions, hu, -List.getD_eq_getElem?_getD]

/-- Conversely only rows of the constant zone have priority. -/
theorem find_of_priority {C : Comp F} {j : ℕ} (h : priority C j = true) : find C j = find C (C.rows + C.gates.length) := by
  obtain ⟨i, hi, h⟩ := List.any_eq_true.1 h
  obtain ⟨s, hs, h⟩ := List.any_eq_true.1 h
  rw [List.mem_range] at hi hs
  simp only [Bool.and_eq_true, Bool.or_eq_true, decide_eq_true_eq] at h
  obtain ⟨hsel, (⟨hu, rfl⟩ | ⟨hu, rfl⟩) | ⟨hu, rfl⟩⟩ := h
  all_goals exact ufOf_of_mem (mem_unions hs hi hsel (by simp [rowUnions, hu, -List.getD_eq_getElem?_getD]))

theorem nextFree_notMem (asg : List ℕ) (first : ℕ) : nextFree asg first ∉ asg := by
  unfold nextFree
  exact (Nat.find_spec (p := fun k => first ≤ k ∧ k ∉ asg) _).2

theorem alloc_spec (ln : ℕ → ℕ) (rs asg : List ℕ) (first : ℕ) (m : ℕ → Option ℕ) (hf : first ∉ asg) :
    (∀ r, r ∉ rs → alloc ln rs asg first m r = m r) ∧
    (∀ r ∈ rs, ∃ k, k ∉ asg ∧ alloc ln rs asg first m r = some k) ∧
    ∀ r ∈ rs, ∀ r' ∈ rs, r ≠ r' → alloc ln rs asg first m r ≠ alloc ln rs asg first m r' := by
  induction rs generalizing asg first m with
  | nil => simp [alloc]
  | cons r rs ih =>
    -- one round: a free slot `k` for `r`
    have key : ∃ k first', k ∉ asg ∧ first' ∉ k :: asg ∧
        alloc ln (r :: rs) asg first m = alloc ln rs (k :: asg) first' (Function.update m r (some k)) := by
      rw [alloc]
      by_cases h : ln r ∈ asg
      · rw [if_pos h]
        exact ⟨first, _, hf, nextFree_notMem _ _, rfl⟩
      · rw [if_neg h]
        refine ⟨ln r, _, h, ?_, rfl⟩
        split
        · exact nextFree_notMem _ _
        · next hne => simp [hne, hf]
    obtain ⟨k, first', hk, hf', he⟩ := key
    rw [he]
    obtain ⟨i1, i2, i3⟩ := ih (k :: asg) first' (Function.update m r (some k)) hf'
    have hhead : r ∉ rs → alloc ln rs (k :: asg) first' (Function.update m r (some k)) r = some k := fun h => by
      rw [i1 r h, Function.update_self]
    have hne : ∀ x ∈ rs, alloc ln rs (k :: asg) first' (Function.update m r (some k)) x ≠ some k := by
      intro x hx h
      obtain ⟨k', h1, h2⟩ := i2 x hx
      rw [h2] at h
      exact h1 (by simp [Option.some_inj.1 h])
    refine ⟨?_, ?_, ?_⟩
    · intro x hx
      simp only [List.mem_cons, not_or] at hx
      rw [i1 x hx.2, Function.update_of_ne hx.1]
    · intro x hx
      by_cases hx' : x ∈ rs
      · obtain ⟨k', h1, h2⟩ := i2 x hx'
        exact ⟨k', fun h => h1 (List.mem_cons_of_mem _ h), h2⟩
      · rcases List.mem_cons.1 hx with rfl | h
        · exact ⟨k, hk, hhead hx'⟩
        · exact absurd h hx'
    · intro x hx y hy hxy
      by_cases hx' : x ∈ rs <;> by_cases hy' : y ∈ rs
      · exact i3 x hx' y hy' hxy
      · have : y = r := (List.mem_cons.1 hy).resolve_right hy'
        subst this
        rw [hhead hy']
        exact hne x hx'
      · have : x = r := (List.mem_cons.1 hx).resolve_right hx'
        subst this
        rw [hhead hx']
        exact (hne y hy').symm
      · have h1 : x = r := (List.mem_cons.1 hx).resolve_right hx'
        have h2 : y = r := (List.mem_cons.1 hy).resolve_right hy'
        exact absurd (h1.trans h2.symm) hxy

theorem constRemap_spec (C : Comp F) (L : Layout) (crows : List ℕ) :
    (∀ r, r ∉ crows → constRemap C L crows r = none) ∧
    (∀ r ∈ crows, ∃ k, k ∉ assigned0 C L ∧ constRemap C L crows r = some k) ∧
    ∀ r ∈ crows, ∀ r' ∈ crows, r ≠ r' → constRemap C L crows r ≠ constRemap C L crows r' :=
  alloc_spec _ _ _ _ _ (nextFree_notMem _ _)

/-- Reading a gate variable through the layout. -/
theorem gate_var [Field F] {C : Comp F} {nc : ℕ} {crows : List ℕ} (h : WF C nc crows) (L : Layout) (dec : Var → Var) (T : Table F)
    {s i : ℕ} (hs : s < C.gates.length) (hi : i < C.rows) (hsel : C.sel s i = true) {v : Var}
    (hv : v ∈ gateVars (C.gates.getD s [])) :
    (moveGateVar C L s v).evalAt T (L.start + line C L i) = v.evalAt (pullback C L crows dec T) i := by
  obtain ⟨h1, h2, h3⟩ := h.gvar s hs v hv
  obtain ⟨h4, h5⟩ := h.inside s hs i hi hsel v hv
  rcases h2 with ⟨ht, hidx⟩ | ⟨ht, hidx⟩
  · obtain ⟨a, b⟩ := step (nc := nc) (crows := crows) L hs hi hsel (usesW_of_mem hv (by simp [ht])) h3 h4 h5
    simp only [moveGateVar, ht, Var.evalAt, h1, if_true, pullback]
    rw [a, b, add_assoc]
  · have hstep : (line C L ((i : ℤ) + v.rotation).toNat : ℤ) = line C L i + v.rotation := by
      by_cases h0 : v.rotation = 0
      · rw [h0, add_zero, add_zero, Int.toNat_natCast]
      · exact (step (nc := nc) (crows := crows) L hs hi hsel (h.cconst s hs v hv ht h0) h3 h4 h5).2
    have hp := (priority_of_gate hs hi hsel (usesC_of_mem hv ht) h3 h4).1
    have hnc : ((i : ℤ) + v.rotation).toNat ∉ crows := fun hc => by
      rw [h.disj _ hc] at hp; cases hp
    simp only [moveGateVar, ht, Var.evalAt, h1, if_true, pullback, place, (constRemap_spec C L crows).1 _ hnc,
      Option.getD_none]
    rw [hstep, add_assoc]

theorem copy_var [Field F] {C : Comp F} {nc : ℕ} {crows : List ℕ} (h : WF C nc crows) (L : Layout) (dec : Var → Var) (T : Table F)
    (hdec : ∀ v : Var, dec v = dec ⟨v.index, v.rotation, false, v.type⟩)
    {c : Var × Var} (hc : c ∈ C.copies) {v : Var} (hv : v ∈ [c.1, c.2]) :
    (moveVar C L crows dec v).value T = v.value (pullback C L crows dec T) := by
  rcases h.copy c hc v hv with ⟨ht, h1, h2, h3⟩ | ⟨ht, h1, h2, h3⟩ | ht
  · simp only [moveVar, ht, Var.value, pullback]
  · simp only [moveVar, ht, Var.value, pullback]
  · simp only [moveVar, ht]
    rw [hdec, ht]
    simp only [Var.value, ht, pullback]

/-- **C53**: a table satisfies the stretched circuit iff what it holds, read back through the layout, satisfies the
component's own circuit. -/
theorem stretch_sat_iff_partial [Field F] {C : Comp F} {nc : ℕ} {crows : List ℕ} (h : WF C nc crows) (L : Layout) (dec : Var → Var)
    (hdec : ∀ v : Var, dec v = dec ⟨v.index, v.rotation, false, v.type⟩) (T : Table F) :
    MovedSat C L crows dec T ↔ OrigSat C (pullback C L crows dec T) := by
  have hg : ∀ s < C.gates.length, ∀ i < C.rows, C.sel s i = true → ∀ e ∈ C.gates.getD s [],
      (move (moveGateVar C L s) e).eval T (L.start + line C L i) = e.eval (pullback C L crows dec T) i := by
    intro s hs i hi hsel e he
    exact gateMover_eval _ _ _ _ _ _ fun v hv =>
      gate_var h L dec T hs hi hsel (List.mem_flatMap.2 ⟨e, he, hv⟩)
  constructor
  · rintro ⟨a, b⟩
    refine ⟨fun s hs i hi hsel e he => ?_, fun c hc => ?_⟩
    · rw [← hg s hs i hi hsel e he]
      exact a s hs i hi hsel _ (List.mem_map_of_mem he)
    · rw [← copy_var h L dec T hdec hc (by simp), ← copy_var h L dec T hdec hc (by simp)]
      exact b c hc
  · rintro ⟨a, b⟩
    refine ⟨fun s hs i hi hsel e he => ?_, fun c hc => ?_⟩
    · obtain ⟨e', he', rfl⟩ := List.mem_map.1 he
      rw [hg s hs i hi hsel e' he']
      exact a s hs i hi hsel _ he'
    · rw [copy_var h L dec T hdec hc (by simp), copy_var h L dec T hdec hc (by simp)]
      exact b c hc

/-! ### Laying out an assignment -/

/-- Rows of one block get different lines. -/
theorem line_inj {C : Comp F} {L : Layout} (hz : ZoneSizes (zoneOf C) L.zs) (hs : 0 < L.stretch) {i j : ℕ} (hi : i < C.rows)
    (hj : j < C.rows) (ha : agent L (find C i) = agent L (find C j)) (hl : line C L i = line C L j) : i = j := by
  have hlen : (zoneOf C).length = C.rows := by simp [zoneOf]
  by_contra hne
  refine (stretch_rows (zoneOf C) L.zs L.stretch hs hz ?_).2 i (by omega) j (by omega) hne ?_ hl
  · intro h
    rw [h] at hlen
    simp at hlen
    omega
  · rw [agent_row C L i hi, agent_row C L j hj, ha]

theorem place_inj {C : Comp F} {L : Layout} (hz : ZoneSizes (zoneOf C) L.zs) (hs : 0 < L.stretch) {crows : List ℕ} {i j : ℕ}
    (hi : i < C.rows) (hj : j < C.rows) (pi : ((constRemap C L crows i).isSome || priority C i) = true)
    (pj : ((constRemap C L crows j).isSome || priority C j) = true) (hp : place C L crows i = place C L crows j) : i = j := by
  obtain ⟨s1, s2, s3⟩ := constRemap_spec C L crows
  have mixed : ∀ {a b}, a < C.rows → a ∉ crows → b ∈ crows → ((constRemap C L crows a).isSome || priority C a) = true →
      place C L crows a ≠ place C L crows b := by
    intro a b ha hna hb hpa he
    obtain ⟨k, hk1, hk2⟩ := s2 b hb
    rw [s1 a hna] at hpa
    simp only [Option.isSome_none, Bool.false_or] at hpa
    simp only [place, s1 a hna, hk2, Option.getD_none, Option.getD_some] at he
    exact hk1 (List.mem_map.2 ⟨a, List.mem_filter.2 ⟨by simpa using ha, hpa⟩, he⟩)
  by_cases ci : i ∈ crows <;> by_cases cj : j ∈ crows
  · by_contra hne
    obtain ⟨k, _, hk⟩ := s2 i ci
    obtain ⟨k', _, hk'⟩ := s2 j cj
    simp only [place, hk, hk', Option.getD_some] at hp
    exact s3 i ci j cj hne (by rw [hk, hk', hp])
  · exact absurd hp.symm (mixed hj cj ci pj)
  · exact absurd hp (mixed hi ci cj pi)
  · rw [s1 i ci] at pi
    rw [s1 j cj] at pj
    simp only [Option.isSome_none, Bool.false_or] at pi pj
    simp only [place, s1 i ci, s1 j cj, Option.getD_none] at hp
    exact line_inj hz hs hi hj (by rw [find_of_priority pi, find_of_priority pj]) hp

theorem mul_add_inj {W a b w v : ℕ} (hw : w < W) (hv : v < W) (h : a * W + w = b * W + v) : a = b ∧ w = v := by
  have h1 : (a * W + w) / W = a := by
    rw [mul_comm, Nat.mul_add_div (by omega), Nat.div_eq_of_lt hw, add_zero]
  have h2 : (b * W + v) / W = b := by
    rw [mul_comm, Nat.mul_add_div (by omega), Nat.div_eq_of_lt hv, add_zero]
  rw [h, h2] at h1
  subst h1
  exact ⟨rfl, by omega⟩

theorem mem_writes {C : Comp F} {L : Layout} {crows : List ℕ} {nc : ℕ} {t : Table F} {w : Write F} :
    w ∈ writes C L crows nc t ↔
      (∃ i < C.rows, ∃ c < nc, ((constRemap C L crows i).isSome || priority C i) = true ∧
        w = ⟨.constant, c, L.start + place C L crows i, t .constant c i⟩) ∨
      ∃ i < C.rows, ∃ k < C.W, w = ⟨.witness, agent L (find C i) * C.W + k, L.start + line C L i, t .witness k i⟩ := by
  unfold writes
  simp only [List.mem_append, List.mem_flatMap, List.mem_map, List.mem_range]
  refine or_congr ?_ ?_
  · refine exists_congr fun i => and_congr_right fun _ => exists_congr fun c => and_congr_right fun _ => ?_
    split
    · next h => simp [h]
    · next h => simp [h]
  · refine exists_congr fun i => and_congr_right fun _ => exists_congr fun k => and_congr_right fun _ => ?_
    exact eq_comm

theorem written_witness [Field F] {C : Comp F} {L : Layout} (hz : ZoneSizes (zoneOf C) L.zs) (hs : 0 < L.stretch)
    (crows : List ℕ) (nc : ℕ) (t T0 : Table F) (dec : Var → Var) {i w : ℕ} (hi : i < C.rows) (hw : w < C.W) :
    pullback C L crows dec (writeAll (writes C L crows nc t) T0) .witness w i = t .witness w i := by
  simp only [pullback, Int.toNat_natCast]
  refine writeAll_of_mem _ T0 ⟨.witness, agent L (find C i) * C.W + w, L.start + line C L i, t .witness w i⟩
    (mem_writes.2 (Or.inr ⟨i, hi, w, hw, rfl⟩)) ?_
  intro w' hw' h1 h2 h3
  rcases mem_writes.1 hw' with ⟨i', hi', c, hc, _, rfl⟩ | ⟨i', hi', k, hk, rfl⟩
  · cases h1
  · simp only [] at h2 h3 ⊢
    obtain ⟨ha, rfl⟩ := mul_add_inj hk hw h2
    have hl : line C L i' = line C L i := by omega
    rw [line_inj hz hs hi' hi ha hl]

theorem written_const [Field F] {C : Comp F} {L : Layout} (hz : ZoneSizes (zoneOf C) L.zs) (hs : 0 < L.stretch)
    (crows : List ℕ) (nc : ℕ) (t T0 : Table F) (dec : Var → Var) {i c : ℕ} (hi : i < C.rows) (hc : c < nc)
    (hp : ((constRemap C L crows i).isSome || priority C i) = true) :
    pullback C L crows dec (writeAll (writes C L crows nc t) T0) .constant c i = t .constant c i := by
  simp only [pullback, Int.toNat_natCast]
  refine writeAll_of_mem _ T0 ⟨.constant, c, L.start + place C L crows i, t .constant c i⟩
    (mem_writes.2 (Or.inl ⟨i, hi, c, hc, hp, rfl⟩)) ?_
  intro w' hw' h1 h2 h3
  rcases mem_writes.1 hw' with ⟨i', hi', c', hc', hp', rfl⟩ | ⟨i', hi', k, hk, rfl⟩
  · simp only [] at h2 h3 ⊢
    subst h2
    have hl : place C L crows i' = place C L crows i := by omega
    rw [place_inj hz hs hi' hi hp' hp hl]
  · cases h1

/-- Evaluation only depends on the cells read. -/
theorem eval_congr [Field F] (t t' : Table F) (row : ℤ) (e : GExpr F) (h : ∀ v ∈ e.vars, v.evalAt t row = v.evalAt t' row) :
    e.eval t row = e.eval t' row := by
  have := gateMover_eval id t t' row row e h
  rwa [(gateMover_vars id id e).2.2] at this

/-- **C53**, completeness: laying out a satisfying assignment of the component satisfies the stretched circuit. -/
theorem stretch_complete_partial [Field F] {C : Comp F} {nc : ℕ} {crows : List ℕ} (h : WF C nc crows) (L : Layout)
    (hz : ZoneSizes (zoneOf C) L.zs) (hs : 0 < L.stretch) (dec : Var → Var)
    (hdec : ∀ v : Var, dec v = dec ⟨v.index, v.rotation, false, v.type⟩) (t T0 : Table F)
    (hpi : ∀ c ∈ C.copies, ∀ v ∈ [c.1, c.2], v.type = .publicInput → (dec v).value T0 = v.value t ∧
      ∀ w ∈ writes C L crows nc t, ¬ (w.type = (dec v).type ∧ w.index = (dec v).index ∧ w.row = (dec v).rotation))
    (hsat : OrigSat C t) : MovedSat C L crows dec (writeAll (writes C L crows nc t) T0) := by
  rw [stretch_sat_iff_partial h L dec hdec]
  set T := pullback C L crows dec (writeAll (writes C L crows nc t) T0) with hT
  have hw : ∀ (r : ℤ) w, 0 ≤ r → r < C.rows → w < C.W → T .witness w r = t .witness w r := by
    intro r w h0 h1 h2
    have := written_witness hz hs crows nc t T0 dec (i := r.toNat) (w := w) (by omega) h2
    rwa [Int.toNat_of_nonneg h0] at this
  have hcst : ∀ (r : ℤ) c, 0 ≤ r → r < C.rows → c < nc →
      ((constRemap C L crows r.toNat).isSome || priority C r.toNat) = true → T .constant c r = t .constant c r := by
    intro r c h0 h1 h2 h3
    have := written_const hz hs crows nc t T0 dec (i := r.toNat) (c := c) (by omega) h2 h3
    rwa [Int.toNat_of_nonneg h0] at this
  have hv : ∀ c ∈ C.copies, ∀ v ∈ [c.1, c.2], v.value T = v.value t := by
    intro c hc v hv
    rcases h.copy c hc v hv with ⟨ht, h1, h2, h3⟩ | ⟨ht, h1, h2, h3⟩ | ht
    · rw [Var.value, Var.value, ht]; exact hw _ _ h2 h3 h1
    · rw [Var.value, Var.value, ht]
      refine hcst _ _ h2 h3 h1 ?_
      obtain ⟨k, _, hk⟩ := (constRemap_spec C L crows).2.1 _ ((h.mem_crows v.rotation.toNat).2 ⟨c, hc, v, hv, ht, rfl⟩)
      simp [hk]
    · obtain ⟨p1, p2⟩ := hpi c hc v hv ht
      rw [← p1, Var.value, ht, hT]
      simp only [pullback]
      have : dec ⟨v.index, v.rotation, false, .publicInput⟩ = dec v := by rw [hdec v, ht]
      rw [this, Var.value, Var.value]
      exact writeAll_of_notMem _ _ _ _ _ p2
  refine ⟨fun s hs' i hi hsel e he => ?_, fun c hc => ?_⟩
  · rw [← hsat.1 s hs' i hi hsel e he]
    refine eval_congr _ _ _ _ fun v hv => ?_
    have hv' : v ∈ gateVars (C.gates.getD s []) := List.mem_flatMap.2 ⟨e, he, hv⟩
    obtain ⟨h1, h2, h3⟩ := h.gvar s hs' v hv'
    obtain ⟨h4, h5⟩ := h.inside s hs' i hi hsel v hv'
    simp only [Var.evalAt, h1, if_true]
    rcases h2 with ⟨ht, hidx⟩ | ⟨ht, hidx⟩
    · rw [ht]; exact hw _ _ h4 h5 hidx
    · rw [ht]
      refine hcst _ _ h4 h5 hidx ?_
      rw [(priority_of_gate hs' hi hsel (usesC_of_mem hv' ht) h3 h4).1, Bool.or_true]
  · rw [hv c hc _ (by simp), hv c hc _ (by simp)]
    exact hsat.2 c hc

/-! ### Where it fails -/

/-- The inner `generate_circuit` is called with the original inputs, not with the converted ones
(`component_stretcher.hpp:474-475`; compare `generate_assignments`, 503-507). An input which is a witness cell of an
earlier component is then moved as if it were one of the component's own cells. Here the component copies its input
`W0` of row `0` into its own `W0`; the stretched circuit accepts tables where the two differ. -/
theorem stretch_refuted_input [Field F] (zs : List Item) (stretch : ℕ) (dec : Var → Var) :
    let inp : Var := ⟨0, 0, false, .witness⟩
    let C : Comp F := ⟨1, 1, [], fun _ _ => false, [(⟨0, 0, false, .witness⟩, inp)]⟩
    let L : Layout := ⟨zs, stretch, 1⟩
    ∃ T : Table F, MovedSat C L [] dec T ∧
      (moveVar C L [] dec ⟨0, 0, false, .witness⟩).value T ≠ inp.value T := by
  intro inp C L
  refine ⟨fun _ _ r => if r = 0 then 0 else 1, ⟨?_, ?_⟩, ?_⟩
  · intro s hs
    simp [C] at hs
  · intro c hc
    have : c = (⟨0, 0, false, .witness⟩, inp) := by simpa [C] using hc
    rw [this]
  · show (if (1 : ℤ) + (line C L 0 : ℕ) = 0 then (0 : F) else 1) ≠ if (0 : ℤ) = 0 then 0 else 1
    rw [if_neg (by omega), if_pos rfl]
    exact one_ne_zero

/-- Gate `W0 - C0` on row `0`, and the same constant copied to `W0` of row `1`. -/
def constComp (F : Type*) [Field F] : Comp F :=
  ⟨2, 1, [[.bin .sub (.term [⟨0, 0, true, .witness⟩] 1) (.term [⟨0, 0, true, .constant⟩] 1)]],
    fun _ i => i == 0, [(⟨0, 0, false, .constant⟩, ⟨0, 1, false, .witness⟩)]⟩

theorem line_zero (C : Comp F) (L : Layout) (h : 0 < C.rows) : line C L 0 = 0 := by
  unfold line
  rw [remap_get _ _ _ _ (by simpa [zoneOf] using h)]
  simp

/-- A constant both read by a gate and copy constrained is moved to another row only (`component_stretcher.hpp:255-260`
and `384-390`), so that the gate reads a cell nobody wrote: an assignment satisfying the component does not satisfy the
stretched circuit after being laid out. -/
theorem stretch_refuted_const [Field F] (zs : List Item) (stretch : ℕ) (hs : 0 < stretch) (start : ℤ) (dec : Var → Var)
    (hz : ZoneSizes (zoneOf (constComp F)) zs) :
    OrigSat (constComp F) (fun _ _ _ => 1) ∧
      ¬ MovedSat (constComp F) ⟨zs, stretch, start⟩ [0] dec
        (writeAll (writes (constComp F) ⟨zs, stretch, start⟩ [0] 1 fun _ _ _ => 1) fun _ _ _ => 0) := by
  constructor
  · refine ⟨?_, ?_⟩
    · intro s hs i hi hsel e he
      have hs0 : s = 0 := by simpa [constComp] using hs
      subst hs0
      have : e = .bin .sub (.term [⟨0, 0, true, .witness⟩] 1) (.term [⟨0, 0, true, .constant⟩] 1) := by
        simpa [constComp] using he
      rw [this]
      simp [GExpr.eval, Var.evalAt]
    · intro c hc; rfl
  · intro hm
    set L : Layout := ⟨zs, stretch, start⟩ with hL
    have h0 : (0 : ℕ) < (constComp F).rows := by simp [constComp]
    have hl0 := line_zero (constComp F) L h0
    have hg := hm.1 0 (by simp [constComp]) 0 h0 rfl
      (move (moveGateVar (constComp F) L 0) (.bin .sub (.term [⟨0, 0, true, .witness⟩] 1) (.term [⟨0, 0, true, .constant⟩] 1)))
      (List.mem_map_of_mem (by simp [constComp]))
    have hfind : find (constComp F) 0 = find (constComp F) ((constComp F).rows + 0) :=
      ufOf_of_mem (mem_unions (s := 0) (i := 0) (by simp [constComp]) h0 rfl (by
        simp [rowUnions, constComp, usesW, usesC, gateVars, GExpr.vars]))
    -- the constant goes to row 1
    have hpr : ∀ i < 2, priority (constComp F) i = decide (i = 0) := by
      intro i hi
      interval_cases i <;> simp [priority, constComp, usesC, gateVars, GExpr.vars, List.range_succ]
    have ha0 : assigned0 (constComp F) L = [0] := by
      have : (List.range (constComp F).rows) = [0, 1] := by simp [constComp, List.range_succ]
      unfold assigned0
      rw [this]
      simp [hpr, hl0]
    have hnf : nextFree [0] 0 = 1 := by
      unfold nextFree
      rw [Nat.find_eq_iff]
      simp
    have hcr : constRemap (constComp F) L [0] 0 = some 1 := by
      unfold constRemap
      rw [ha0, hnf]
      simp [alloc, hl0]
    have hcr1 : constRemap (constComp F) L [0] 1 = none := (constRemap_spec _ _ _).1 1 (by simp)
    have hw := written_witness (C := constComp F) (L := L) hz hs [0] 1 (fun _ _ _ => (1 : F)) (fun _ _ _ => 0) dec
      (i := 0) (w := 0) h0 (by simp [constComp])
    have hc : writeAll (writes (constComp F) L [0] 1 fun _ _ _ => (1 : F)) (fun _ _ _ => 0) .constant 0 start = 0 := by
      rw [writeAll_of_notMem]
      rintro w hw' ⟨h1, h2, h3⟩
      rcases mem_writes.1 hw' with ⟨i, hi, c, hc, hp, rfl⟩ | ⟨i, hi, k, hk, rfl⟩
      · simp only [hL] at h3
        have hi2 : i < 2 := hi
        interval_cases i
        · have hpl : place (constComp F) L [0] 0 = 1 := by rw [place, hcr]; rfl
          have h3' : start + ((place (constComp F) L [0] 0 : ℕ) : ℤ) = start := h3
          rw [hpl] at h3'
          omega
        · rw [hcr1, hpr 1 (by omega)] at hp
          simp at hp
      · cases h1
    simp only [pullback, Int.toNat_zero, Nat.cast_zero, hl0, add_zero] at hw
    simp only [move, GExpr.eval, List.map_cons, List.map_nil, List.foldl_cons, List.foldl_nil, moveGateVar, Var.evalAt,
      if_true, one_mul, hl0, Nat.cast_zero, add_zero] at hg
    rw [add_zero] at hfind
    rw [← hfind] at hg
    rw [hw] at hg
    have hst : L.start = start := rfl
    rw [hst, hc] at hg
    simp at hg

/-- When every row of the component has a constant read by a gate, the scan for the first free constant row runs past
the end of `constant_assigned` (`component_stretcher.hpp:229`, `250-252`): undefined behaviour. -/
theorem stretch_scan_oob (C : Comp F) (L : Layout) (h0 : 0 < C.rows) (hp : ∀ i < C.rows, priority C i = true) :
    C.rows ≤ nextFree (assigned0 C L) 0 := by
  have hl : ∀ i < C.rows, line C L i = i := by
    intro i
    induction i with
    | zero => exact fun h => line_zero C L h
    | succ i ih =>
      intro hi
      rw [line_succ C L i hi (by rw [find_of_priority (hp i (by omega)), find_of_priority (hp (i + 1) hi)]), ih (by omega)]
  by_contra hlt
  push Not at hlt
  refine nextFree_notMem (assigned0 C L) 0 (List.mem_map.2 ⟨nextFree (assigned0 C L) 0, ?_, hl _ hlt⟩)
  exact List.mem_filter.2 ⟨by simpa using hlt, hp _ hlt⟩

/-- A component meeting the hypotheses: two rows linked by a gate using a constant, an input and an own copy. -/
def goodComp (F : Type*) [Field F] : Comp F :=
  ⟨3, 2, [[.bin .sub (.term [⟨0, 1, true, .witness⟩] 1) (.term [⟨1, 0, true, .witness⟩, ⟨0, 0, true, .constant⟩] 1)]],
    fun _ i => i == 0, [(⟨0, 2, false, .witness⟩, ⟨0, 0, false, .publicInput⟩), (⟨1, 0, false, .witness⟩, ⟨0, 2, false, .witness⟩)]⟩

example [Field F] : WF (goodComp F) 1 [] := by
  refine ⟨?_, ?_, ?_, ?_, ?_, ?_⟩
  · intro s hs v hv
    have : s = 0 := by simpa [goodComp] using hs
    subst this
    simp [goodComp, gateVars, GExpr.vars] at hv
    rcases hv with rfl | rfl | rfl <;> simp [goodComp]
  · intro s hs i hi hsel v hv
    have : s = 0 := by simpa [goodComp] using hs
    subst this
    have : i = 0 := by simpa [goodComp] using hsel
    subst this
    simp [goodComp, gateVars, GExpr.vars] at hv
    rcases hv with rfl | rfl | rfl <;> simp [goodComp]
  · intro s hs v hv
    have : s = 0 := by simpa [goodComp] using hs
    subst this
    simp [goodComp, gateVars, GExpr.vars] at hv
    rcases hv with rfl | rfl | rfl <;> simp
  · intro c hc v hv
    simp only [goodComp, List.mem_cons, List.not_mem_nil, or_false] at hc hv ⊢
    rcases hc with rfl | rfl <;> rcases hv with rfl | rfl <;> simp
  · intro i
    simp [goodComp]
  · simp

/-- Sizes as computed by `count_zones`, for any zones. -/
theorem zoneSizes_dedup (zone : List ℕ) : ZoneSizes zone (zone.dedup.map fun z => (z, zone.count z)) := by
  refine ⟨?_, ?_, ?_⟩
  · simpa [List.map_map, Function.comp_def] using zone.nodup_dedup
  · intro z hz; simpa [List.map_map, Function.comp_def] using hz
  · intro it hit
    obtain ⟨z, _, rfl⟩ := List.mem_map.1 hit
    rfl

end Stretcher
end Verif
