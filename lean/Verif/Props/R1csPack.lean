import Verif.Props.R1csMux
import Verif.Model.R1csPack

/-!
# C88, C89: strict bit decomposition, packing in chunks and conditional copying (r1cs)
-/

set_option linter.unusedSimpArgs false
set_option linter.unusedSectionVars false

namespace Verif
namespace R1cs

section
variable {p : ℕ} [hp : Fact p.Prime]

/-! ### `field_to_bits_strict` -/

/-- The variables of the component are different: the bits are not among the intermediate variables and the input uses neither. -/
structure FieldToBits.WF (k : FieldToBits (ZMod p)) : Prop where
  base : 0 < k.base
  bits : ∀ i < k.n, k.result i ≠ 0 ∧ k.result i < k.base
  inj : ∀ i < k.n, ∀ j < k.n, k.result i = k.result j → i = j
  element : k.element.Uses fun j => j < k.base ∧ ∀ i < k.n, j ≠ k.result i

theorem f2b_cmp_old (k : FieldToBits (ZMod p)) (s : Asg (ZMod p)) (m j : ℕ) (h : ∀ i < m, j ≠ k.cmp i) : k.cmpAssign s m j = s j := by
  induction m with
  | zero => rfl
  | succ m ih =>
    rw [FieldToBits.cmpAssign, lookup1Assign, Asg.set_ne _ _ (h m (by omega)), ih fun i hi => h i (by omega)]

theorem f2b_and_old (k : FieldToBits (ZMod p)) (m : ℕ) : ∀ (s : Asg (ZMod p)) (j : ℕ), (∀ i < m, j ≠ k.results i) → k.andAssign s m j = s j := by
  induction m with
  | zero => intro s j _; rfl
  | succ m ih =>
    intro s j h
    rw [FieldToBits.andAssign, ih _ _ fun i hi => h i (by omega), Asg.set_ne _ _ (h m (by omega))]

theorem f2b_tail_old (k : FieldToBits (ZMod p)) (s : Asg (ZMod p)) {j : ℕ} (h : j < k.base) : k.tail s j = s j := by
  rw [FieldToBits.tail, f2b_and_old k _ _ _ fun i _ => by unfold FieldToBits.results; omega,
    f2b_cmp_old k _ _ _ fun i _ => by unfold FieldToBits.cmp; omega]

theorem f2b_cmp_sat (k : FieldToBits (ZMod p)) (hk : k.WF) (s : Asg (ZMod p)) (m : ℕ) (hm : m ≤ k.n) (hb : ∀ i < k.n, IsBit (val s (k.result i))) :
    ∀ i < m, Sat (k.cmpAssign s m) (lookup1Gates (FieldToBits.table i) (k.result i) (k.cmp i)) := by
  have h0 := hk.base
  induction m with
  | zero => intro i hi; omega
  | succ m ih =>
    intro i hi
    have hres : ∀ i < k.n, ∀ m, val (k.cmpAssign s m) (k.result i) = val s (k.result i) := fun i hi m =>
      val_congr (f2b_cmp_old k s m _ fun j _ => by have := (hk.bits i hi).2; unfold FieldToBits.cmp; omega)
    obtain ⟨b, hb'⟩ : ∃ b, val s (k.result i) = b2f b := ⟨_, (hb i (by omega)).eq_b2f⟩
    rcases Nat.lt_succ_iff_lt_or_eq.1 hi with hi' | rfl
    · have := ih (by omega) i hi'
      rw [lookup1_iff _ _ _ _ b (by rw [hres i (by omega), hb'])] at this ⊢
      rw [FieldToBits.cmpAssign, lookup1Assign, val_set_ne _ _ (by unfold FieldToBits.cmp; omega), this]
    · rw [FieldToBits.cmpAssign]
      apply lookup1_complete _ _ _ _ b (by rw [hres i (by omega), hb'])
      · unfold FieldToBits.cmp; omega
      · have := (hk.bits i (by omega)).2; unfold FieldToBits.cmp; omega

theorem f2b_and_sat (k : FieldToBits (ZMod p)) (hk : k.WF) (m : ℕ) : ∀ (s : Asg (ZMod p)), m ≤ k.n - 1 →
    ∀ i < m, (k.andGate (i + 1)).Holds (k.andAssign s m) := by
  have h0 := hk.base
  induction m with
  | zero => intro s _ i hi; omega
  | succ m ih =>
    intro s hm i hi
    rcases Nat.lt_succ_iff_lt_or_eq.1 hi with hi' | rfl
    · exact ih _ (by omega) i hi'
    · rw [FieldToBits.andAssign]
      set v := (if i + 1 = k.n - 1 then val s (k.cmp i) * val s (k.cmp (i + 1)) else val s (k.results (i + 1)) * val s (k.cmp i)) with hv
      have e : ∀ j, (∀ a < i, j ≠ k.results a) → val (k.andAssign (s.set (k.results i) v) i) j = val (s.set (k.results i) v) j :=
        fun j h => val_congr (f2b_and_old k i _ j h)
      have hc : ∀ a, val (k.andAssign (s.set (k.results i) v) i) (k.cmp a) = val s (k.cmp a) := by
        intro a
        rw [e _ fun b hb => by unfold FieldToBits.cmp FieldToBits.results; omega, val_set_ne _ _ (by unfold FieldToBits.cmp FieldToBits.results; omega)]
      have hr : val (k.andAssign (s.set (k.results i) v) i) (k.results i) = v := by
        rw [e _ fun b hb => by unfold FieldToBits.results; omega, val_set_same _ _ (by unfold FieldToBits.results; omega)]
      have hr1 : val (k.andAssign (s.set (k.results i) v) i) (k.results (i + 1)) = val s (k.results (i + 1)) := by
        rw [e _ fun b hb => by unfold FieldToBits.results; omega, val_set_ne _ _ (by unfold FieldToBits.results; omega)]
      unfold FieldToBits.andGate
      split_ifs with h
      · simp only [Constraint.Holds, eval_var, Nat.add_sub_cancel, hc, hr]
        rw [hv, if_pos h]
      · simp only [Constraint.Holds, eval_var, Nat.add_sub_cancel, hc, hr, hr1]
        rw [hv, if_neg h, mul_comm]

theorem f2b_packing_tail (k : FieldToBits (ZMod p)) (hk : k.WF) (s : Asg (ZMod p)) :
    Sat (k.tail s) (packGates (k.bits.map Lc.var) k.element true) ↔ Sat s (packGates (k.bits.map Lc.var) k.element true) := by
  have hm : ∀ l ∈ k.bits, val (k.tail s) l = val s l := by
    intro l hl
    obtain ⟨i, hi, rfl⟩ := List.mem_map.1 hl
    exact val_congr (f2b_tail_old k s (hk.bits i (List.mem_range.1 hi)).2)
  have he : k.element.eval (k.tail s) = k.element.eval s := Lc.eval_congr hk.element fun j hj => f2b_tail_old k s hj.1
  have hps : ∀ (l : List ℕ), (∀ j ∈ l, val (k.tail s) j = val s j) → ∀ w : ZMod p,
      (packSum w (l.map Lc.var)).eval (k.tail s) = (packSum w (l.map Lc.var)).eval s := by
    intro l
    induction l with
    | nil => intro _ w; rfl
    | cons a l ih =>
      intro h w
      rw [List.map_cons, packSum, eval_append, eval_append, eval_smul, eval_smul, eval_var, eval_var, h a List.mem_cons_self,
        ih (fun j hj => h j (List.mem_cons_of_mem _ hj))]
  simp only [packGates, if_true, sat_cons, sat_map, boolean_iff]
  refine and_congr ?_ ?_
  · simp only [Constraint.Holds, eval_const, he, hps _ hm]
  · simp only [List.mem_map]
    constructor
    · rintro h _ ⟨j, hj, rfl⟩
      have := h _ ⟨j, hj, rfl⟩
      rwa [eval_var, hm j hj, ← eval_var] at this
    · rintro h _ ⟨j, hj, rfl⟩
      have := h _ ⟨j, hj, rfl⟩
      rwa [eval_var, ← hm j hj, ← eval_var] at this

/-- Whatever satisfies the packing constraint can be completed: the comparisons exclude nothing. -/
theorem f2b_tail_sat (k : FieldToBits (ZMod p)) (hk : k.WF) (s : Asg (ZMod p)) (h : Sat s (packGates (k.bits.map Lc.var) k.element true)) :
    Sat (k.tail s) k.gates := by
  have h0 := hk.base
  have hb : ∀ i < k.n, IsBit (val s (k.result i)) := by
    intro i hi
    simp only [packGates, if_true, sat_cons, sat_map, boolean_iff] at h
    have := h.2 (Lc.var (k.result i)) (List.mem_map.2 ⟨_, List.mem_map.2 ⟨i, List.mem_range.2 hi, rfl⟩, rfl⟩)
    rwa [eval_var] at this
  rw [FieldToBits.gates, sat_append, sat_append]
  refine ⟨⟨(f2b_packing_tail k hk s).2 h, ?_⟩, ?_⟩
  · intro c hc
    obtain ⟨i, hi, hc⟩ := List.mem_flatMap.1 hc
    have hi := List.mem_range.1 hi
    have h1 := f2b_cmp_sat k hk s k.n (le_refl _) hb i hi
    obtain ⟨b, hb'⟩ : ∃ b, val s (k.result i) = b2f b := ⟨_, (hb i hi).eq_b2f⟩
    have hres : val (k.cmpAssign s k.n) (k.result i) = b2f b := by
      rw [← hb']
      exact val_congr (f2b_cmp_old k s k.n _ fun j _ => by have := (hk.bits i hi).2; unfold FieldToBits.cmp; omega)
    have hand : ∀ j, (∀ a, j ≠ k.results a ∨ k.n - 1 ≤ a) → val (k.tail s) j = val (k.cmpAssign s k.n) j := fun j h =>
      val_congr (f2b_and_old k _ _ _ fun a ha => (h a).resolve_right (by omega))
    have e1 : val (k.tail s) (k.result i) = b2f b := by
      rw [hand _ fun a => Or.inl (by have := (hk.bits i hi).2; unfold FieldToBits.results; omega), hres]
    have e2 : val (k.tail s) (k.cmp i) = val (k.cmpAssign s k.n) (k.cmp i) := hand _ fun a => by unfold FieldToBits.cmp FieldToBits.results; omega
    have : Sat (k.tail s) (lookup1Gates (FieldToBits.table i) (k.result i) (k.cmp i)) := by
      rw [lookup1_iff _ _ _ _ b e1, e2]
      exact (lookup1_iff _ _ _ _ b hres).1 h1
    exact this c hc
  · rw [sat_map]
    intro i hi
    exact f2b_and_sat k hk _ _ (le_refl _) i (List.mem_range.1 hi)

/-- The component accepts exactly the boolean assignments whose sum is the element in the field; it does not compare with the modulus. -/
theorem f2b_accepts_iff (k : FieldToBits (ZMod p)) (hk : k.WF) (s : Asg (ZMod p)) :
    (∃ s', (∀ j, j < k.base → s' j = s j) ∧ Sat s' k.gates) ↔
      ∃ bs : List Bool, bs.length = k.n ∧ k.bits.map (val s) = bs.map b2f ∧ ((bnat bs : ℕ) : ZMod p) = k.element.eval s := by
  constructor
  · rintro ⟨s', hs, h⟩
    rw [FieldToBits.gates, sat_append, sat_append] at h
    have h := h.1.1
    simp only [packGates, if_true, sat_cons, sat_map, boolean_iff] at h
    obtain ⟨h1, h2⟩ := h
    simp only [Constraint.Holds, eval_const, one_mul] at h1
    obtain ⟨bs, hbs⟩ := bits_exist (l := (k.bits.map (Lc.var (F := ZMod p))).map (Lc.eval s')) (by simpa using h2)
    rw [eval_packSum s' 1 _ bs hbs, one_mul] at h1
    refine ⟨bs, ?_, ?_, ?_⟩
    · have := congrArg List.length hbs
      simpa [FieldToBits.bits] using this.symm
    · rw [← hbs, map_var_eval]
      apply List.map_congr_left
      intro l hl
      obtain ⟨i, hi, rfl⟩ := List.mem_map.1 hl
      exact val_congr (hs _ (hk.bits i (List.mem_range.1 hi)).2).symm
    · rw [h1]
      exact Lc.eval_congr hk.element fun j hj => hs j hj.1
  · rintro ⟨bs, -, hbs, hv⟩
    refine ⟨k.tail s, fun j hj => f2b_tail_old k s hj, f2b_tail_sat k hk s ?_⟩
    have hbs' : (k.bits.map (Lc.var (F := ZMod p))).map (Lc.eval s) = bs.map b2f := by rw [map_var_eval, hbs]
    simp only [packGates, if_true, sat_cons, sat_map, boolean_iff]
    refine ⟨?_, ?_⟩
    · simp only [Constraint.Holds, eval_const, one_mul]
      rw [eval_packSum s 1 _ bs hbs', one_mul, hv]
    · intro l hl
      have : l.eval s ∈ bs.map b2f := by rw [← hbs']; exact List.mem_map_of_mem hl
      obtain ⟨b, -, hb⟩ := List.mem_map.1 this
      rw [← hb]; exact isBit_b2f b

/-- The honest assignment is accepted and gives the bits of the element. -/
theorem f2b_complete (k : FieldToBits (ZMod p)) (hk : k.WF) (s : Asg (ZMod p)) (hn : p ≤ 2 ^ k.n) :
    Sat (k.assign s) k.gates ∧ k.element.eval (k.assign s) = k.element.eval s ∧
      ∀ i < k.n, val (k.assign s) (k.result i) = b2f ((k.element.eval s).val.testBit i) := by
  have hnd : k.bits.Nodup := by
    apply List.Nodup.map_on _ List.nodup_range
    intro i hi j hj h
    exact hk.inj i (List.mem_range.1 hi) j (List.mem_range.1 hj) h
  have hlen : k.bits.length = k.n := by simp [FieldToBits.bits]
  set s1 := packAssign k.bits (k.element.eval s) s with hs1
  have he : k.element.eval s1 = k.element.eval s := Lc.eval_congr hk.element fun j hj => packAssign_ne _ _ _ fun hm => by
    obtain ⟨i, hi, rfl⟩ := List.mem_map.1 hm
    exact hj.2 i (List.mem_range.1 hi) rfl
  have hbit : ∀ i < k.n, val s1 (k.result i) = b2f ((k.element.eval s).val.testBit i) := by
    intro i hi
    rw [val_pos _ (hk.bits i hi).1]
    have hg : k.bits[i]'(by rw [hlen]; exact hi) = k.result i := by simp [FieldToBits.bits]
    have := packAssign_get k.bits hnd (k.element.eval s) s (i := i) (by rw [hlen]; exact hi)
    rwa [hg] at this
  have hpack : Sat s1 (packGates (k.bits.map Lc.var) k.element true) := by
    apply packing_complete
    · rw [he, List.length_map, hlen]; exact lt_of_lt_of_le (ZMod.val_lt _) hn
    · rw [he, map_var_eval, List.length_map, hlen, FieldToBits.bits, List.map_map]
      apply List.map_congr_left
      intro i hi
      exact hbit i (List.mem_range.1 hi)
  refine ⟨f2b_tail_sat k hk s1 hpack, ?_, ?_⟩
  · rw [← he]; exact Lc.eval_congr hk.element fun j hj => f2b_tail_old k s1 hj.1
  · intro i hi
    rw [← hbit i hi]
    exact val_congr (f2b_tail_old k s1 (hk.bits i hi).2)

/-- What is missing: the accepted bits are those of the element or of the element plus the modulus. -/
theorem f2b_sound_partial (k : FieldToBits (ZMod p)) (hk : k.WF) (s : Asg (ZMod p)) (hn : 2 ^ k.n ≤ 2 * p) (h : Sat s k.gates) :
    (∀ i < k.n, val s (k.result i) = b2f ((k.element.eval s).val.testBit i)) ∨
      ((k.element.eval s).val + p < 2 ^ k.n ∧ ∀ i < k.n, val s (k.result i) = b2f (((k.element.eval s).val + p).testBit i)) := by
  obtain ⟨bs, hl, hbs, hv⟩ := (f2b_accepts_iff k hk s).1 ⟨s, fun _ _ => rfl, h⟩
  have hlt := bnat_lt bs
  rw [hl] at hlt
  have hb : ∀ i < k.n, val s (k.result i) = b2f ((bnat bs).testBit i) := by
    intro i hi
    have := congrArg (fun l => l[i]?) hbs
    simp only [FieldToBits.bits, List.map_map, List.getElem?_map, List.getElem?_range hi, Option.map_some, Function.comp] at this
    rw [List.getElem?_eq_getElem (by rw [hl]; exact hi), Option.map_some] at this
    rw [Option.some.inj this, bnat_testBit, List.getD_eq_getElem bs false (by rw [hl]; exact hi)]
  have hmod : (k.element.eval s).val = bnat bs % p := by rw [← hv, ZMod.val_natCast]
  by_cases hc : bnat bs < p
  · left; rw [Nat.mod_eq_of_lt hc] at hmod; rw [hmod]; exact hb
  · right
    have e : bnat bs % p = bnat bs - p := by rw [Nat.mod_eq_sub_mod (not_lt.1 hc), Nat.mod_eq_of_lt (by omega)]
    have e2 : (k.element.eval s).val + p = bnat bs := by omega
    rw [e2]
    exact ⟨hlt, hb⟩

/-- The decomposition is not strict: every element that is small enough is also accepted with the bits of the element plus the modulus. -/
theorem f2b_not_strict (k : FieldToBits (ZMod p)) (hk : k.WF) (s : Asg (ZMod p)) (hx : (k.element.eval s).val + p < 2 ^ k.n) :
    ∃ s', k.element.eval s' = k.element.eval s ∧ Sat s' k.gates ∧ ∀ i < k.n, val s' (k.result i) = b2f (((k.element.eval s).val + p).testBit i) := by
  classical
  set x := (k.element.eval s).val with hxd
  set bs := (List.range k.n).map (x + p).testBit with hbs
  set s1 := s.setAll ((List.range k.n).map fun i => (k.result i, (b2f ((x + p).testBit i) : ZMod p))) with hs1
  have hbit : ∀ i < k.n, val s1 (k.result i) = b2f ((x + p).testBit i) := by
    intro i hi
    rw [val_pos _ (hk.bits i hi).1]
    apply Asg.setAll_mem
    · exact List.mem_map.2 ⟨i, List.mem_range.2 hi, rfl⟩
    · intro t ht e
      obtain ⟨j, hj, rfl⟩ := List.mem_map.1 ht
      rw [hk.inj j (List.mem_range.1 hj) i hi e]
  have he : k.element.eval s1 = k.element.eval s := Lc.eval_congr hk.element fun j hj => Asg.setAll_ne _ _ fun t ht => by
    obtain ⟨i, hi, rfl⟩ := List.mem_map.1 ht
    exact (hj.2 i (List.mem_range.1 hi)).symm
  obtain ⟨s', hs', hsat⟩ := (f2b_accepts_iff k hk s1).2 ⟨bs, by simp [hbs], by
    rw [FieldToBits.bits, hbs, List.map_map, List.map_map]
    exact List.map_congr_left fun i hi => hbit i (List.mem_range.1 hi), by
    rw [hbs, bnat_bits _ _ hx, he, Nat.cast_add, ZMod.natCast_self, add_zero, hxd, ZMod.natCast_zmod_val]⟩
  refine ⟨s', ?_, hsat, fun i hi => ?_⟩
  · rw [← he]; exact Lc.eval_congr hk.element fun j hj => hs' j hj.1
  · rw [← hbit i hi]; exact val_congr (hs' _ (hk.bits i hi).2)

/-! ### Packing in chunks and copying -/

theorem horner_bits (bs : List Bool) : horner (bs.map (b2f (p := p))) = ((bnat bs : ℕ) : ZMod p) := by
  induction bs with
  | nil => simp [horner, bnat]
  | cons b bs ih =>
    have : horner ((b :: bs).map (b2f (p := p))) = horner (bs.map (b2f (p := p))) + (horner (bs.map (b2f (p := p))) + b2f b) := rfl
    rw [this, ih, bnat]
    cases b <;> simp <;> ring

/-- Specification of chunk `i`: the elements from `i * c`, at most `c` of them. -/
theorem chunk_get {α : Type*} (l : List α) (c i j : ℕ) : (chunk l c i)[j]? = if j < c then l[i * c + j]? else none := by
  unfold chunk
  rw [List.getElem?_drop]
  by_cases hj : j < c
  · rw [if_pos hj]
    by_cases hl : i * c + j < l.length
    · rw [List.getElem?_take_of_lt]
      have : i * c + j < (i + 1) * c := by rw [Nat.add_mul]; omega
      omega
    · rw [List.getElem?_eq_none (by rw [List.length_take]; omega), List.getElem?_eq_none (by omega)]
  · rw [if_neg hj, List.getElem?_eq_none]
    rw [List.length_take]
    have : (i + 1) * c ≤ i * c + j := by rw [Nat.add_mul]; omega
    omega

theorem chunk_map {α β : Type*} (f : α → β) (l : List α) (c i : ℕ) : chunk (l.map f) c i = (chunk l c i).map f := by
  unfold chunk; rw [List.map_drop, List.map_take, List.length_map]

theorem chunk_length {α : Type*} (l : List α) (c i : ℕ) : (chunk l c i).length ≤ c := by
  unfold chunk
  rw [List.length_drop, List.length_take]
  have : (i + 1) * c = i * c + c := by ring
  omega

theorem mem_of_chunk {α : Type*} {l : List α} {c i : ℕ} {x : α} (h : x ∈ chunk l c i) : x ∈ l :=
  List.mem_of_mem_take (List.mem_of_mem_drop h)

/-- Every position is in one chunk. -/
theorem chunk_index {len c j : ℕ} (hc : 0 < c) (hj : j < len) : j / c < numChunks len c ∧ j / c * c + j % c = j ∧ j % c < c := by
  refine ⟨?_, by rw [mul_comm]; exact Nat.div_add_mod j c, Nat.mod_lt _ hc⟩
  unfold numChunks
  apply (Nat.div_lt_iff_lt_mul hc).2
  have h1 := Nat.div_add_mod (len + (c - 1)) c
  have h2 := Nat.mod_lt (len + (c - 1)) hc
  rw [mul_comm]
  omega

theorem list_eq_of_chunks {α : Type*} {l m : List α} {c : ℕ} (hc : 0 < c) (hlen : l.length = m.length)
    (h : ∀ i < numChunks l.length c, chunk l c i = chunk m c i) : l = m := by
  apply List.ext_getElem hlen
  intro j h1 h2
  obtain ⟨a, b, d⟩ := chunk_index hc h1
  have := congrArg (fun l => l[j % c]?) (h _ a)
  simp only [chunk_get, if_pos d, b] at this
  rwa [List.getElem?_eq_getElem h1, List.getElem?_eq_getElem h2, Option.some.injEq] at this

theorem bnat_inj {a b : List Bool} (hl : a.length = b.length) (h : bnat a = bnat b) : a = b := by
  apply List.ext_getElem hl
  intro i h1 h2
  have := congrArg (fun x => Nat.testBit x i) h
  simpa only [bnat_testBit, List.getD_eq_getElem a false h1, List.getD_eq_getElem b false h2] using this

theorem multi_sat_iff (bits : List (Lc (ZMod p))) (packed : ℕ → Lc (ZMod p)) (c : ℕ) (e : Bool) (s : Asg (ZMod p)) :
    Sat s (multiGates bits packed c e) ↔ ∀ i < numChunks bits.length c,
      (packSum 1 (chunk bits c i)).eval s = (packed i).eval s ∧ (e = true → ∀ l ∈ chunk bits c i, IsBit (l.eval s)) := by
  unfold multiGates
  constructor
  · intro h i hi
    have : Sat s (packGates (chunk bits c i) (packed i) e) := fun k hk => h k (List.mem_flatMap.2 ⟨i, List.mem_range.2 hi, hk⟩)
    rw [packGates, sat_cons] at this
    refine ⟨by simpa [Constraint.Holds] using this.1, fun he => ?_⟩
    have := this.2
    rw [if_pos he, sat_map] at this
    exact fun l hl => (boolean_iff s l).1 (this l hl)
  · intro h k hk
    obtain ⟨i, hi, hk⟩ := List.mem_flatMap.1 hk
    obtain ⟨h1, h2⟩ := h i (List.mem_range.1 hi)
    have : Sat s (packGates (chunk bits c i) (packed i) e) := by
      rw [packGates, sat_cons]
      refine ⟨by simpa [Constraint.Holds] using h1, ?_⟩
      split_ifs with he
      · rw [sat_map]; exact fun l hl => (boolean_iff s l).2 (h2 he l hl)
      · simp
    exact this k hk

/-- The enforced bits are bits. -/
theorem multi_bits {bits : List ℕ} {packed : ℕ → Lc (ZMod p)} {c : ℕ} (hc : 0 < c) {s : Asg (ZMod p)}
    (h : Sat s (multiGates (bits.map Lc.var) packed c true)) : ∀ j ∈ bits, IsBit (val s j) := by
  rw [multi_sat_iff] at h
  intro j hj
  obtain ⟨i, hi, rfl⟩ := List.getElem_of_mem hj
  obtain ⟨a, b, d⟩ := chunk_index hc hi
  have := (h (i / c) (by rw [List.length_map]; exact a)).2 rfl (Lc.var bits[i]) (by
    rw [chunk_map]
    apply List.mem_map_of_mem
    apply List.mem_of_getElem? (i := i % c)
    rw [chunk_get, if_pos d, b, List.getElem?_eq_getElem hi])
  rwa [eval_var] at this

/-- Copying of bits: if the bits on both sides are bits (enforced or known) and the copying is on, the target is the source. -/
theorem bitcopy_sound (k : BitCopy (ZMod p)) (s : Asg (ZMod p)) (eS eT : Bool) (hc : 0 < k.c) (hp' : 2 ^ k.c ≤ p)
    (hlen : k.source.length = k.target.length) (hS : eS = true ∨ ∀ j ∈ k.source, IsBit (val s j)) (hT : eT = true ∨ ∀ j ∈ k.target, IsBit (val s j))
    (h : Sat s (k.gates eS eT)) : k.doCopy.eval s = 0 ∨ k.target.map (val s) = k.source.map (val s) := by
  rw [BitCopy.gates, sat_append, sat_append] at h
  obtain ⟨⟨h1, h2⟩, h3⟩ := h
  rw [or_iff_not_imp_left]
  intro hd
  have bS : ∀ j ∈ k.source, IsBit (val s j) := by
    rcases hS with rfl | hS
    · exact multi_bits hc h1
    · exact hS
  have bT : ∀ j ∈ k.target, IsBit (val s j) := by
    rcases hT with rfl | hT
    · exact multi_bits hc h2
    · exact hT
  rw [multi_sat_iff] at h1 h2
  rw [copyGates, sat_map] at h3
  obtain ⟨bs, hbs⟩ := bits_exist (l := k.source.map (val s)) (by simpa using bS)
  obtain ⟨bt, hbt⟩ := bits_exist (l := k.target.map (val s)) (by simpa using bT)
  have ls : bs.length = k.source.length := by simpa using (congrArg List.length hbs).symm
  have lt : bt.length = k.target.length := by simpa using (congrArg List.length hbt).symm
  have hlen' : bt.length = bs.length := by rw [ls, lt, hlen]
  rw [hbs, hbt, list_eq_of_chunks hc hlen' fun i hi => ?_]
  have hi1 : i < numChunks (k.source.map (Lc.var (F := ZMod p))).length k.c := by rw [List.length_map, hlen, ← lt]; exact hi
  have hi2 : i < numChunks (k.target.map (Lc.var (F := ZMod p))).length k.c := by rw [List.length_map, ← lt]; exact hi
  have hi3 : i ∈ List.range k.m := by
    rw [List.mem_range, BitCopy.m, hlen, ← lt]; exact hi
  have e3 := h3 i hi3
  simp only [Constraint.Holds, eval_sub, eval_var, eval_const, mul_eq_zero, hd, false_or, sub_eq_zero] at e3
  have e1 := (h1 i hi1).1
  have e2 := (h2 i hi2).1
  rw [eval_var, eval_packSum s 1 _ (chunk bs k.c i) (by rw [← chunk_map, ← chunk_map, map_var_eval, hbs]), one_mul] at e1
  rw [eval_var, eval_packSum s 1 _ (chunk bt k.c i) (by rw [← chunk_map, ← chunk_map, map_var_eval, hbt]), one_mul] at e2
  have hcl : (chunk bt k.c i).length = (chunk bs k.c i).length := by
    unfold chunk; rw [List.length_drop, List.length_drop, List.length_take, List.length_take, hlen']
  apply bnat_inj hcl
  have hlt : ∀ l : List Bool, bnat (chunk l k.c i) < p := fun l =>
    lt_of_lt_of_le (lt_of_lt_of_le (bnat_lt _) (Nat.pow_le_pow_right (by norm_num) (chunk_length _ _ _))) hp'
  rw [← ZMod.val_natCast_of_lt (hlt bt), ← ZMod.val_natCast_of_lt (hlt bs), e1, e2, e3]

/-- The variables of the copying component are different. -/
structure BitCopy.WF (k : BitCopy (ZMod p)) : Prop where
  base : 0 < k.base
  len : k.source.length = k.target.length
  source : ∀ j ∈ k.source, j ≠ 0 ∧ j < k.base ∧ j ∉ k.target
  target : ∀ j ∈ k.target, j ≠ 0 ∧ j < k.base
  nodup : k.target.Nodup
  doCopy : k.doCopy.Uses fun j => j < k.base ∧ j ∉ k.target

theorem copyLoop_ne (source target : ℕ → ℕ) (s : Asg (ZMod p)) (m j : ℕ) (h : ∀ i < m, j ≠ target i) : copyLoop source target s m j = s j := by
  induction m with
  | zero => rfl
  | succ m ih => rw [copyLoop, Asg.set_ne _ _ (h m (by omega)), ih fun i hi => h i (by omega)]

theorem copyLoop_eq (source target : ℕ → ℕ) (s : Asg (ZMod p)) (m : ℕ) (h : ∀ i < m, ∀ j < m, source i ≠ target j)
    (hi : ∀ i < m, ∀ j < m, target i = target j → i = j) : ∀ i < m, copyLoop source target s m (target i) = val s (source i) := by
  induction m with
  | zero => intro i hi; omega
  | succ m ih =>
    intro i hi'
    rw [copyLoop]
    by_cases e : i = m
    · subst e
      rw [Asg.set_same]
      exact val_congr (copyLoop_ne _ _ _ _ _ fun j hj => h i (by omega) j (by omega))
    · rw [Asg.set_ne _ _ fun e' => e (hi i hi' m (by omega) e')]
      exact ih (fun i hi j hj => h i (by omega) j (by omega)) (fun i h1 j h2 => hi i (by omega) j (by omega)) i (by omega)

theorem multiFrom_ne (bits : List (Lc (ZMod p))) (packed : ℕ → ℕ) (c : ℕ) (s : Asg (ZMod p)) (m j : ℕ) (h : ∀ i < m, j ≠ packed i) :
    multiFromBits bits packed c s m j = s j := by
  induction m with
  | zero => rfl
  | succ m ih => rw [multiFromBits, packFromBits, Asg.set_ne _ _ (h m (by omega)), ih fun i hi => h i (by omega)]

theorem multiFrom_get (bits : List ℕ) (base c : ℕ) (s : Asg (ZMod p)) (hb : ∀ j ∈ bits, j < base) (m : ℕ) : ∀ i < m,
    multiFromBits (bits.map Lc.var) (fun i => base + i) c s m (base + i) = horner ((chunk bits c i).map (val s)) := by
  induction m with
  | zero => intro i hi; omega
  | succ m ih =>
    intro i hi
    rw [multiFromBits, packFromBits]
    by_cases e : i = m
    · subst e
      rw [Asg.set_same, chunk_map, map_var_eval]
      congr 1
      apply List.map_congr_left
      intro j hj
      have := hb j (mem_of_chunk hj)
      exact val_congr (multiFrom_ne _ _ _ _ _ _ fun a _ => by omega)
    · rw [Asg.set_ne _ _ (by omega)]
      exact ih i (by omega)

/-- The honest assignment of the copying component is accepted and copies when it should. -/
theorem bitcopy_complete (k : BitCopy (ZMod p)) (hk : k.WF) (s : Asg (ZMod p)) (eS eT : Bool) (hd : IsBit (k.doCopy.eval s))
    (hS : ∀ j ∈ k.source, IsBit (val s j)) (hT : ∀ j ∈ k.target, IsBit (val s j)) :
    Sat (k.assign s) (k.gates eS eT) ∧ k.doCopy.eval (k.assign s) = k.doCopy.eval s ∧ k.source.map (val (k.assign s)) = k.source.map (val s) ∧
      k.target.map (val (k.assign s)) = (if k.doCopy.eval s = 1 then k.source else k.target).map (val s) := by
  have h0 := hk.base
  set s1 := if k.doCopy.eval s = 1 then copyLoop (k.source.getD · 0) (k.target.getD · 0) s k.source.length else s with hs1
  set s2 := multiFromBits (k.source.map Lc.var) k.packedSource k.c s1 k.m with hs2
  set n2 := numChunks k.target.length k.c with hn2
  have hm2 : n2 = k.m := by rw [hn2, BitCopy.m, hk.len]
  have hs3 : k.assign s = multiFromBits (k.target.map Lc.var) k.packedTarget k.c s2 n2 := rfl
  have e21 : ∀ j, j < k.base → s2 j = s1 j := fun j hj => multiFrom_ne _ _ _ _ _ _ fun a _ => by unfold BitCopy.packedSource; omega
  have e32 : ∀ j, j < k.base + k.m → k.assign s j = s2 j := fun j hj => by
    rw [hs3]; exact multiFrom_ne _ _ _ _ _ _ fun a _ => by unfold BitCopy.packedTarget; omega
  have e31 : ∀ j, j < k.base → k.assign s j = s1 j := fun j hj => by rw [e32 j (by omega), e21 j hj]
  have htgt : ∀ i < k.source.length, k.target.getD i 0 ∈ k.target := by
    intro i hi
    rw [List.getD_eq_getElem _ _ (by rw [← hk.len]; exact hi)]; exact List.getElem_mem _
  have hsrc : ∀ i < k.source.length, k.source.getD i 0 ∈ k.source := by
    intro i hi
    rw [List.getD_eq_getElem _ _ hi]; exact List.getElem_mem _
  have e10 : ∀ j, j ∉ k.target → s1 j = s j := by
    intro j hj
    rw [hs1]
    split_ifs
    · exact copyLoop_ne _ _ _ _ _ fun i hi e => hj (e ▸ htgt i hi)
    · rfl
  have hdc : k.doCopy.eval (k.assign s) = k.doCopy.eval s := Lc.eval_congr hk.doCopy fun j hj => by rw [e31 j hj.1, e10 j hj.2]
  have hsrc1 : k.source.map (val s1) = k.source.map (val s) := List.map_congr_left fun j hj => val_congr (e10 j (hk.source j hj).2.2)
  have htgt1 : k.target.map (val s1) = (if k.doCopy.eval s = 1 then k.source else k.target).map (val s) := by
    by_cases hc : k.doCopy.eval s = 1
    · rw [hs1, if_pos hc, if_pos hc]
      apply List.ext_getElem (by simp [hk.len])
      intro i h1 h2
      have hi : i < k.source.length := by simpa using h2
      have hi' : i < k.target.length := by rw [← hk.len]; exact hi
      rw [List.getElem_map, List.getElem_map, val_pos _ (hk.target _ (List.getElem_mem hi')).1]
      have := copyLoop_eq (k.source.getD · 0) (k.target.getD · 0) s k.source.length
        (fun a ha b hb e => (hk.source _ (hsrc a ha)).2.2 (by rw [e]; exact htgt b hb))
        (fun a ha b hb e => by
          have ha' : a < k.target.length := by rw [← hk.len]; exact ha
          have hb' : b < k.target.length := by rw [← hk.len]; exact hb
          simp only [List.getD_eq_getElem _ _ ha', List.getD_eq_getElem _ _ hb'] at e
          exact (List.Nodup.getElem_inj_iff hk.nodup).1 e) i hi
      simpa only [List.getD_eq_getElem _ _ hi, List.getD_eq_getElem _ _ hi'] using this
    · rw [hs1, if_neg hc, if_neg hc]
  have hsrcA : k.source.map (val (k.assign s)) = k.source.map (val s1) := List.map_congr_left fun j hj => val_congr (e31 j (hk.source j hj).2.1)
  have htgtA : k.target.map (val (k.assign s)) = k.target.map (val s1) := List.map_congr_left fun j hj => val_congr (e31 j (hk.target j hj).2)
  refine ⟨?_, hdc, by rw [hsrcA, hsrc1], by rw [htgtA, htgt1]⟩
  -- the packed values
  have bS : ∀ j ∈ k.source, IsBit (val (k.assign s) j) := by
    intro j hj
    have hm : val (k.assign s) j ∈ k.source.map (val (k.assign s)) := List.mem_map_of_mem hj
    rw [hsrcA, hsrc1] at hm
    obtain ⟨a, ha, e⟩ := List.mem_map.1 hm
    rw [← e]; exact hS a ha
  have bT : ∀ j ∈ k.target, IsBit (val (k.assign s) j) := by
    intro j hj
    have hm : val (k.assign s) j ∈ k.target.map (val (k.assign s)) := List.mem_map_of_mem hj
    rw [htgtA, htgt1] at hm
    obtain ⟨a, ha, e⟩ := List.mem_map.1 hm
    rw [← e]
    split_ifs at ha
    · exact hS a ha
    · exact hT a ha
  have pS : ∀ i < k.m, val (k.assign s) (k.packedSource i) = horner ((chunk k.source k.c i).map (val (k.assign s))) := by
    intro i hi
    rw [val_pos _ (by unfold BitCopy.packedSource; omega), e32 _ (by unfold BitCopy.packedSource; omega)]
    have := multiFrom_get k.source k.base k.c s1 (fun j hj => (hk.source j hj).2.1) k.m i hi
    rw [hs2, show k.packedSource i = k.base + i from rfl]
    refine Eq.trans this ?_
    rw [← chunk_map, ← chunk_map, hsrcA]
  have pT : ∀ i < k.m, val (k.assign s) (k.packedTarget i) = horner ((chunk k.target k.c i).map (val (k.assign s))) := by
    intro i hi
    rw [val_pos _ (by unfold BitCopy.packedTarget; omega), hs3]
    have := multiFrom_get k.target (k.base + k.m) k.c s2 (fun j hj => by have := (hk.target j hj).2; omega) n2 i (by rw [hm2]; exact hi)
    refine Eq.trans this ?_
    rw [← hs3]
    congr 1
    apply List.map_congr_left
    intro j hj
    have := (hk.target j (mem_of_chunk hj)).2
    exact val_congr (e32 j (by omega)).symm
  have hpk : ∀ (l : List ℕ) (i : ℕ), (∀ j ∈ l, IsBit (val (k.assign s) j)) →
      (packSum 1 (chunk (l.map (Lc.var (F := ZMod p))) k.c i)).eval (k.assign s) = horner ((chunk l k.c i).map (val (k.assign s))) := by
    intro l i hb
    obtain ⟨bs, hbs⟩ := bits_exist (l := (chunk l k.c i).map (val (k.assign s))) (by
      intro x hx
      obtain ⟨j, hj, rfl⟩ := List.mem_map.1 hx
      exact hb j (mem_of_chunk hj))
    rw [eval_packSum _ 1 _ bs (by rw [chunk_map, map_var_eval, hbs]), hbs, horner_bits, one_mul]
  have hbits : ∀ (l : List ℕ) (i : ℕ), (∀ j ∈ l, IsBit (val (k.assign s) j)) →
      ∀ x ∈ chunk (l.map (Lc.var (F := ZMod p))) k.c i, IsBit (x.eval (k.assign s)) := by
    intro l i hb x hx
    obtain ⟨j, hj, rfl⟩ := List.mem_map.1 (mem_of_chunk hx)
    rw [eval_var]; exact hb j hj
  rw [BitCopy.gates, sat_append, sat_append, multi_sat_iff, multi_sat_iff]
  refine ⟨⟨fun i hi => ?_, fun i hi => ?_⟩, ?_⟩
  · rw [List.length_map] at hi
    exact ⟨by rw [hpk _ _ bS, eval_var, pS i hi], fun _ => hbits _ _ bS⟩
  · rw [List.length_map] at hi
    exact ⟨by rw [hpk _ _ bT, eval_var, pT i (by rw [← hm2]; exact hi)], fun _ => hbits _ _ bT⟩
  · rw [copyGates, sat_map]
    intro i hi
    have hi := List.mem_range.1 hi
    simp only [Constraint.Holds, eval_sub, eval_var, eval_const]
    rw [hdc]
    rcases hd with e | e
    · rw [e, zero_mul]
    · rw [pS i hi, pT i hi, ← chunk_map, ← chunk_map, htgtA, htgt1, if_pos e, hsrcA, hsrc1, sub_self, mul_zero]

/-- Copying of field elements. -/
theorem fieldcopy_sound (source target : ℕ → ℕ) (n : ℕ) (doCopy : Lc (ZMod p)) (s : Asg (ZMod p)) (h : Sat s (copyGates source target n doCopy)) :
    doCopy.eval s = 0 ∨ ∀ i < n, val s (target i) = val s (source i) := by
  rw [copyGates, sat_map] at h
  rw [or_iff_not_imp_left]
  intro hd i hi
  have := h i (List.mem_range.2 hi)
  simp only [Constraint.Holds, eval_sub, eval_var, eval_const, mul_eq_zero, hd, false_or, sub_eq_zero] at this
  exact this.symm

theorem fieldcopy_complete (source target : ℕ → ℕ) (n : ℕ) (doCopy : Lc (ZMod p)) (s : Asg (ZMod p)) (h0 : ∀ i < n, target i ≠ 0)
    (hne : ∀ i < n, ∀ j < n, source i ≠ target j) (hi : ∀ i < n, ∀ j < n, target i = target j → i = j) :
    Sat (copyAssign source target n doCopy s) (copyGates source target n doCopy) := by
  rw [copyGates, sat_map]
  intro i hi'
  have hi' := List.mem_range.1 hi'
  simp only [Constraint.Holds, eval_sub, eval_var, eval_const]
  unfold copyAssign
  split_ifs with hz
  · rw [val_pos _ (h0 i hi'), copyLoop_eq source target s n hne hi i hi',
      val_congr (copyLoop_ne source target s n (source i) fun j hj => hne i hi' j hj), sub_self, mul_zero]
  · rw [not_not.1 hz, zero_mul]

end

/-! ### Concrete cases -/

section
local instance : Fact (Nat.Prime 13) := ⟨by norm_num⟩

/-- Variable 1 holds the element, 2 to 5 the four bits, in the field of 13 elements. -/
def f2b0 : FieldToBits (ZMod 13) := ⟨4, Lc.var 1, fun i => i + 2, 6⟩

theorem f2b0_wf : f2b0.WF :=
  ⟨by decide, fun i hi => ⟨Nat.succ_ne_zero _, by have : i < 4 := hi; show i + 2 < 6; omega⟩, fun i _ j _ h => by simpa [f2b0] using h, by
    intro t ht
    simp only [f2b0, Lc.var, List.mem_singleton] at ht
    subst ht
    right
    exact ⟨by decide, fun i _ => by show 1 ≠ i + 2; omega⟩⟩

/-- The element 1 is accepted with the bits of 1 and with the bits of 14. -/
example : (∃ s : Asg (ZMod 13), val s 1 = 1 ∧ Sat s f2b0.gates ∧ val s 2 = 1 ∧ val s 3 = 0) ∧
    ∃ s : Asg (ZMod 13), val s 1 = 1 ∧ Sat s f2b0.gates ∧ val s 2 = 0 ∧ val s 3 = 1 := by
  have e : f2b0.element.eval (fun _ => 1) = 1 := by decide
  have e' : (1 : ZMod 13).val = 1 := by decide
  constructor
  · obtain ⟨h1, h2, h3⟩ := f2b_complete f2b0 f2b0_wf (fun _ => 1) (by decide)
    rw [e] at h2 h3
    refine ⟨_, ?_, h1, (h3 0 (by decide)).trans (by decide), (h3 1 (by decide)).trans (by decide)⟩
    have h := h2; rw [show f2b0.element = Lc.var 1 from rfl, eval_var] at h; exact h
  · obtain ⟨s', h1, h2, h3⟩ := f2b_not_strict f2b0 f2b0_wf (fun _ => 1) (by rw [e, e']; decide)
    rw [e] at h1 h3
    refine ⟨s', ?_, h2, (h3 0 (by decide)).trans (by decide), (h3 1 (by decide)).trans (by decide)⟩
    rw [show f2b0.element = Lc.var 1 from rfl, eval_var] at h1; exact h1

/-- Three bits in chunks of two, copying switched on by the constant 1. -/
def copy0 : BitCopy (ZMod 13) := ⟨[1, 2, 3], [4, 5, 6], Lc.const 1, 2, 7⟩

theorem copy0_wf : copy0.WF := by
  refine ⟨by decide, by decide, by decide, by decide, by decide, ?_⟩
  intro t ht
  simp only [copy0, Lc.const, List.mem_singleton] at ht
  subst ht
  exact Or.inl rfl

example : Sat (copy0.assign fun i => if i = 2 then 1 else 0) (copy0.gates true true) ∧
    copy0.target.map (val (copy0.assign fun i => if i = 2 then 1 else 0)) = [0, 1, 0] := by
  obtain ⟨h1, -, -, h4⟩ := bitcopy_complete copy0 copy0_wf (fun i => if i = 2 then 1 else 0) true true (Or.inr (by decide))
    (by intro j hj; by_cases h : j = 2
        · subst h; exact Or.inr (by decide)
        · left; rw [val_pos _ (copy0_wf.source j hj).1, if_neg h])
    (by intro j hj; by_cases h : j = 2
        · subst h; exact Or.inr (by decide)
        · left; rw [val_pos _ (copy0_wf.target j hj).1, if_neg h])
  refine ⟨h1, ?_⟩
  rw [h4, if_pos (by decide)]
  decide

end

end R1cs
end Verif
