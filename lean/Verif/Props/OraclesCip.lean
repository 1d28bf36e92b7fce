import Verif.Model.OraclesCip
import Verif.Props.CombinedInnerProduct

/-!
# The combined inner product of the oracles
-/

set_option linter.unusedVariables false

namespace Verif
namespace OraclesCip
variable {F : Type*} [Field F]

/-- Specification, after `kimchi/src/verifier.rs`: the evaluations at point `k` in the order of the polynomials; every chunk of the polynomials of the previous
challenges is an entry of its own, and both selectors are always there. -/
def wanted (c : Config) (q : Params) (k : ℕ) : List Var :=
  ((List.range c.prev).flatMap fun i => (List.range c.split).map fun j => q.polys i k j) ++ (if c.pub then [q.pEval k] else []) ++ [q.ft k, q.z k, q.generic k, q.poseidon k] ++
    (List.range c.wires).map (q.w k) ++ (List.range (c.permut - 1)).map (q.s k)

/-- `Σ v^i (e_i(zeta) + u e_i(zeta omega))`. -/
def combine (v u : F) : List F → List F → F
  | a :: as, b :: bs => a + u * b + v * combine v u as bs
  | _, _ => 0

def wantedVal (c : Config) (q : Params) (t : Table F) : F :=
  combine (q.v.value t) (q.u.value t) ((wanted c q 0).map fun x => x.value t) ((wanted c q 1).map fun x => x.value t)

theorem combine_spec (v u : F) (l m : List Var) (d : Var) (t : Table F) (h : l.length = m.length) :
    Cip.spec v u (fun i => (l.getD i d).value t) (fun i => (m.getD i d).value t) l.length = combine v u (l.map fun x => x.value t) (m.map fun x => x.value t) := by
  induction l generalizing m with
  | nil => cases m <;> simp [Cip.spec, combine]
  | cons a l ih =>
    cases m with
    | nil => simp at h
    | cons b m =>
      rw [List.map_cons, List.map_cons, combine, ← ih m (by simpa using h), Cip.spec, List.length_cons, Finset.sum_range_succ', Cip.spec, Finset.mul_sum, add_comm]
      congr 1
      · simp
      · refine Finset.sum_congr rfl fun i _ => ?_
        simp only [List.getD_cons_succ, pow_succ]
        ring

theorem prepare_length (c : Config) (q : Params) (undef : Var) (k : ℕ) (hp : 0 < c.permut) : (prepare c q undef k).length = c.size := by
  obtain ⟨pr, sp, pub, ec, po, wi, pe⟩ := c
  have hp : 0 < pe := hp
  cases pub <;> cases ec <;> cases po <;> simp [prepare, Config.size] <;> omega

theorem prepare_wanted (c : Config) (q : Params) (undef : Var) (k : ℕ) (hs : c.split = 1 ∨ c.prev = 0) (he : c.ec = true) (hp : c.poseidon = true) :
    prepare c q undef k = wanted c q k := by
  obtain ⟨pr, sp, pub, ec, po, wi, pe⟩ := c
  simp only at hs he hp
  subst he hp
  have e : (List.range pr).map (polyAt ⟨pr, sp, pub, true, true, wi, pe⟩ q undef k) = (List.range pr).flatMap fun i => (List.range sp).map fun j => q.polys i k j := by
    rcases hs with rfl | rfl
    · generalize List.range pr = l
      induction l with
      | nil => rfl
      | cons a l ih => rw [List.map_cons, List.flatMap_cons, ih]; rfl
    · rfl
  simp [prepare, wanted, e]

/-- With one chunk and both gates, and entries that fill the rows: the output is the combined inner product. -/
theorem oracles_cip_sound_partial (cols : Cols) (c : Config) (q : Params) (undef : Var) (srow : ℤ) (hs : c.split = 1 ∨ c.prev = 0) (he : c.ec = true)
    (hp : c.poseidon = true) (hpe : 0 < c.permut) (h5 : c.size % 5 = 0) (t : Table F) (h : Sat t (circuit cols c q undef srow)) :
    (out cols c srow).value t = wantedVal c q t := by
  refine (Cip.cip_sound_partial cols c.size h5 (toCip c q undef) srow t h).trans ?_
  have l0 := prepare_length c q undef 0 hpe
  have l1 := prepare_length c q undef 1 hpe
  have := combine_spec (q.v.value t) (q.u.value t) (prepare c q undef 0) (prepare c q undef 1) undef t (l0.trans l1.symm)
  rw [l0, prepare_wanted c q undef 0 hs he hp, prepare_wanted c q undef 1 hs he hp] at this
  unfold wantedVal
  rw [← this]
  show Cip.spec _ _ (fun i => ((prepare c q undef 0).getD i undef).value t) (fun i => ((prepare c q undef 1).getD i undef).value t) _ = _
  rw [prepare_wanted c q undef 0 hs he hp, prepare_wanted c q undef 1 hs he hp]
  rfl

/-- All inputs the component reads are outside its rows. -/
def Free (c : Config) (q : Params) (undef : Var) (srow : ℤ) : Prop :=
  q.v.Outside srow (Cip.rows c.size) ∧ q.u.Outside srow (Cip.rows c.size) ∧ undef.Outside srow (Cip.rows c.size) ∧
    ∀ k, ∀ x ∈ prepare c q undef k, x.Outside srow (Cip.rows c.size)

theorem Free.getD {c : Config} {q : Params} {undef : Var} {srow : ℤ} (h : Free c q undef srow) (k i : ℕ) :
    ((prepare c q undef k).getD i undef).Outside srow (Cip.rows c.size) := by
  rw [List.getD_eq_getElem?_getD]
  cases e : (prepare c q undef k)[i]? with
  | none => exact h.2.2.1
  | some a => exact h.2.2.2 k a (List.mem_of_getElem? e)

/-- The generated table is accepted, and its output is the combination of the entries written, for every configuration. -/
theorem oracles_cip_accepts (c : Config) (q : Params) (undef : Var) (srow : ℤ) (t : Table F) (hpe : 0 < c.permut) (hf : Free c q undef srow) :
    let tc := writeConsts (circuit Cip.cols c q undef srow) t
    let t' := assign Cip.cols c q undef srow tc
    Sat t' (circuit Cip.cols c q undef srow) ∧ Frame Cip.cols srow (Cip.rows c.size) tc t' ∧ (out Cip.cols c srow).value t' =
      combine (q.v.value tc) (q.u.value tc) ((prepare c q undef 0).map fun x => x.value tc) ((prepare c q undef 1).map fun x => x.value tc) := by
  intro tc t'
  obtain ⟨h1, h2, h3⟩ := Cip.cip_complete c.size (toCip c q undef) srow t hf.2.1 hf.1 fun i _ => ⟨hf.getD 0 i, hf.getD 1 i⟩
  refine ⟨h1, h2, h3.trans ?_⟩
  have l0 := prepare_length c q undef 0 hpe
  have l1 := prepare_length c q undef 1 hpe
  have := combine_spec (q.v.value tc) (q.u.value tc) (prepare c q undef 0) (prepare c q undef 1) undef tc (l0.trans l1.symm)
  rw [l0] at this
  exact this

/-- Completeness with one chunk and both gates. -/
theorem oracles_cip_complete_partial (c : Config) (q : Params) (undef : Var) (srow : ℤ) (t : Table F) (hs : c.split = 1 ∨ c.prev = 0) (he : c.ec = true)
    (hp : c.poseidon = true) (hpe : 0 < c.permut) (hf : Free c q undef srow) :
    let tc := writeConsts (circuit Cip.cols c q undef srow) t
    let t' := assign Cip.cols c q undef srow tc
    Sat t' (circuit Cip.cols c q undef srow) ∧ (out Cip.cols c srow).value t' = wantedVal c q tc := by
  intro tc t'
  obtain ⟨h1, -, h2⟩ := oracles_cip_accepts c q undef srow t hpe hf
  rw [prepare_wanted c q undef 0 hs he hp, prepare_wanted c q undef 1 hs he hp] at h2
  exact ⟨h1, h2⟩

/-- The constraints do not depend on the first chunks, nor on a selector whose gate is switched off. -/
theorem oracles_cip_ignores (cols : Cols) (c : Config) (q q' : Params) (undef : Var) (srow : ℤ) (hv : q.v = q'.v) (hu : q.u = q'.u) (hft : q.ft = q'.ft)
    (hpe : c.pub = true → q.pEval = q'.pEval) (hz : q.z = q'.z) (hg : c.ec = true → q.generic = q'.generic) (hpo : c.poseidon = true → q.poseidon = q'.poseidon)
    (hw : q.w = q'.w) (hs : q.s = q'.s) (hp : ∀ i k, q.polys i k (c.split - 1) = q'.polys i k (c.split - 1)) :
    (circuit cols c q undef srow : List (Op F)) = circuit cols c q' undef srow := by
  have e : ∀ k i, polyAt c q undef k i = polyAt c q' undef k i := fun k i => by
    unfold polyAt
    cases h : c.split with
    | zero => rfl
    | succ n =>
      have := hp i k
      rw [h, Nat.add_sub_cancel] at this
      rw [List.range_succ, List.foldl_append, List.foldl_append]
      exact this
  have e2 : ∀ k, prepare c q undef k = prepare c q' undef k := fun k => by
    have i1 : (if c.pub then [q.pEval k] else []) = if c.pub then [q'.pEval k] else [] := by
      split_ifs with h
      · rw [hpe h]
      · rfl
    have i2 : (if c.ec then [q.generic k] else []) = if c.ec then [q'.generic k] else [] := by
      split_ifs with h
      · rw [hg h]
      · rfl
    have i3 : (if c.poseidon then [q.poseidon k] else []) = if c.poseidon then [q'.poseidon k] else [] := by
      split_ifs with h
      · rw [hpo h]
      · rfl
    unfold prepare
    rw [show polyAt c q undef k = polyAt c q' undef k from funext (e k), hft, hz, hw, hs, i1, i2, i3]
  unfold circuit toCip
  rw [e2 0, e2 1, hv, hu]

/-- Public cells 0 and 1. -/
def cell0 : Var := ⟨0, 0, false, .publicInput⟩
def cell1 : Var := ⟨0, 1, false, .publicInput⟩

/-- Everything in cell 0, except the first chunk of the first polynomial at the first point, in cell 1. -/
def bad : Params := ⟨cell0, cell0, fun _ => cell0, fun i k j => if i = 0 ∧ k = 0 ∧ j = 0 then cell1 else cell0, fun _ => cell0, fun _ => cell0, fun _ => cell0,
  fun _ => cell0, fun _ _ => cell0, fun _ _ => cell0⟩

theorem combine_zero (v u : F) (l m : List F) (hl : ∀ x ∈ l, x = 0) (hm : ∀ x ∈ m, x = 0) : combine v u l m = 0 := by
  induction l generalizing m with
  | nil => rfl
  | cons a l ih =>
    cases m with
    | nil => rfl
    | cons b m =>
      rw [combine, hl a (by simp), hm b (by simp), ih m (fun x hx => hl x (by simp [hx])) fun x hx => hm x (by simp [hx])]
      ring

/-- With more than one chunk the component accepts, and its own generator produces, an output that is not the combined inner product. -/
theorem oracles_cip_wrong (c : Config) (hs : 2 ≤ c.split) (hp : 0 < c.prev) (hpe : 0 < c.permut) (srow : ℤ) :
    ∃ t : Table F, Sat t (circuit Cip.cols c bad cell0 srow) ∧ (out Cip.cols c srow).value t ≠ wantedVal c bad t := by
  have hpub : ∀ x : Var, x.type = .publicInput → x.Outside srow (Cip.rows c.size) := fun x hx h => by rw [hx] at h; cases h
  have c0 : cell0.Outside srow (Cip.rows c.size) := hpub _ rfl
  have c1 : cell1.Outside srow (Cip.rows c.size) := hpub _ rfl
  have hpoly : ∀ k i, polyAt c bad cell0 k i = cell0 := fun k i => by
    unfold polyAt
    obtain ⟨n, hn⟩ : ∃ n, c.split = n + 2 := ⟨c.split - 2, by omega⟩
    rw [hn, List.range_succ, List.foldl_append]
    show (if i = 0 ∧ k = 0 ∧ n + 1 = 0 then cell1 else cell0) = cell0
    rw [if_neg (by omega)]
  have hprep : ∀ k, ∀ x ∈ prepare c bad cell0 k, x = cell0 := by
    intro k x hx
    simp only [prepare, List.mem_append, List.mem_map, List.mem_singleton, hpoly] at hx
    rcases hx with ((((((⟨_, -, rfl⟩ | hx) | rfl) | rfl) | hx) | hx) | ⟨_, -, rfl⟩) | ⟨_, -, rfl⟩
    · rfl
    · cases h : c.pub <;> simp [h] at hx; exact hx
    · rfl
    · rfl
    · cases h : c.ec <;> simp [h] at hx; exact hx
    · cases h : c.poseidon <;> simp [h] at hx; exact hx
    · rfl
    · rfl
  have hf : Free c bad cell0 srow := ⟨c0, c0, c0, fun k x hx => by rw [hprep k x hx]; exact c0⟩
  let t : Table F := fun ty _ r => if ty = .publicInput ∧ r = 1 then 1 else 0
  obtain ⟨h1, h2, h3⟩ := oracles_cip_accepts c bad cell0 srow t hpe hf
  have tc0 : cell0.value (writeConsts (circuit Cip.cols c bad cell0 srow) t) = 0 := by
    show writeConsts _ t .publicInput 0 0 = 0
    rw [circuit, Cip.writeConsts_eq]
    simp [t, Table.set_apply]
  have tc1 : cell1.value (writeConsts (circuit Cip.cols c bad cell0 srow) t) = 1 := by
    show writeConsts _ t .publicInput 0 1 = 1
    rw [circuit, Cip.writeConsts_eq]
    simp [t, Table.set_apply]
  refine ⟨_, h1, ?_⟩
  rw [h3, combine_zero _ _ _ _ (by
    intro x hx
    obtain ⟨y, hy, rfl⟩ := List.mem_map.1 hx
    rw [hprep _ _ hy, tc0]) (by
    intro x hx
    obtain ⟨y, hy, rfl⟩ := List.mem_map.1 hx
    rw [hprep _ _ hy, tc0])]
  have v0 := (h2.outside c0).trans tc0
  have v1 := (h2.outside c1).trans tc1
  obtain ⟨m, hm⟩ : ∃ m, c.prev = m + 1 := ⟨c.prev - 1, by omega⟩
  obtain ⟨n, hn⟩ : ∃ n, c.split = n + 1 := ⟨c.split - 1, by omega⟩
  have hw : ∀ k, ∃ l, wanted c bad k = (if k = 0 then cell1 else cell0) :: l := fun k => by
    unfold wanted
    rw [hm, hn, List.range_succ_eq_map (n := m), List.flatMap_cons, List.range_succ_eq_map (n := n), List.map_cons]
    have hb : bad.polys 0 k 0 = if k = 0 then cell1 else cell0 := by by_cases h : k = 0 <;> simp [bad, h]
    simp only [List.cons_append, List.append_assoc]
    rw [hb]
    exact ⟨_, rfl⟩
  obtain ⟨l0, e0⟩ := hw 0
  obtain ⟨l1, e1⟩ := hw 1
  unfold wantedVal
  rw [e0, e1, List.map_cons, List.map_cons, combine]
  have hv : ∀ s, cell0.value s = (0 : F) → bad.v.value s = 0 ∧ bad.u.value s = 0 := fun s h => ⟨h, h⟩
  rw [(hv _ v0).1, (hv _ v0).2, if_pos rfl, if_neg (by decide), v0, v1]
  simp

/-- A configuration of the partial theorems: one previous challenge of one chunk, public input, 15 wires, 7 permuted: 27 entries; and 25 without these. -/
example : (⟨1, 1, true, true, true, 15, 7⟩ : Config).size = 27 ∧ (⟨0, 1, false, true, true, 15, 7⟩ : Config).size = 25 := by decide

/-- The number 3 in all entries of the second: accepted, with output `Σ 2^i (3 + 5 * 3)`. -/
example : ∃ t : Table ℚ, Sat t (circuit Cip.cols ⟨0, 1, false, true, true, 15, 7⟩ ⟨⟨0, 1, false, .publicInput⟩, ⟨0, 2, false, .publicInput⟩, fun _ => cell0, fun _ _ _ => cell0, fun _ => cell0,
    fun _ => cell0, fun _ => cell0, fun _ => cell0, fun _ _ => cell0, fun _ _ => cell0⟩ cell0 5) := by
  have hpub : ∀ x : Var, x.type = .publicInput → x.Outside 5 (Cip.rows 25) := fun x hx h => by rw [hx] at h; cases h
  refine ⟨_, (oracles_cip_accepts (F := ℚ) ⟨0, 1, false, true, true, 15, 7⟩ _ cell0 5 (fun _ _ r => if r = 0 then 3 else if r = 1 then 2 else 5) (by decide)
    ⟨hpub _ rfl, hpub _ rfl, hpub _ rfl, fun k x hx => ?_⟩).1⟩
  refine hpub _ ?_
  simp only [prepare, List.mem_append, List.mem_map, List.mem_singleton] at hx
  rcases hx with ((((((⟨_, h, rfl⟩ | hx) | rfl) | rfl) | hx) | hx) | ⟨_, -, rfl⟩) | ⟨_, -, rfl⟩ <;> first | rfl | simp_all [cell0]

end OraclesCip
end Verif
