import Verif.Model.R1csVoting
import Verif.Props.R1csMerkle

/-!
# C100, C101: voting with an encrypted input
-/

set_option linter.unusedSectionVars false
set_option linter.unusedSimpArgs false

namespace Verif
namespace R1cs
namespace Voting

open Sha Merkle

section
variable {p : ℕ} [hp : Fact p.Prime]

/-! ### Constraints that depend on some variables only -/

/-- Whether the constraints hold depends on the variables in `U` only. -/
def Local (l : List (Constraint (ZMod p))) (U : ℕ → Prop) : Prop := ∀ s t : Asg (ZMod p), (∀ v, U v → val s v = val t v) → Sat s l → Sat t l

theorem Local.mono {l : List (Constraint (ZMod p))} {U V : ℕ → Prop} (h : Local l U) (hUV : ∀ v, U v → V v) : Local l V :=
  fun s t hs => h s t fun v hv => hs v (hUV v hv)

theorem Local.append {l m : List (Constraint (ZMod p))} {U : ℕ → Prop} (h1 : Local l U) (h2 : Local m U) : Local (l ++ m) U := by
  intro s t hs h
  rw [sat_append] at h ⊢
  exact ⟨h1 s t hs h.1, h2 s t hs h.2⟩

theorem Local.flatMap {α : Type*} {l : List α} {f : α → List (Constraint (ZMod p))} {U : ℕ → Prop} (h : ∀ x ∈ l, Local (f x) U) : Local (l.flatMap f) U := by
  intro s t hs h'
  rw [sat_flatMap] at h' ⊢
  exact fun x hx => h x hx s t hs (h' x hx)

theorem packSum_congr {s t : Asg (ZMod p)} (w : ZMod p) (L : List (Lc (ZMod p))) (h : ∀ l ∈ L, l.eval s = l.eval t) :
    (packSum w L).eval s = (packSum w L).eval t := by
  induction L generalizing w with
  | nil => rfl
  | cons l L ih =>
    rw [packSum, eval_append, eval_append, eval_smul, eval_smul, h l List.mem_cons_self, ih _ fun l hl => h l (List.mem_cons_of_mem _ hl)]

theorem bitcopy_local (k : BitCopy (ZMod p)) (hl : k.source.length = k.target.length) {U : ℕ → Prop} (hs : ∀ v ∈ k.source, U v) (ht : ∀ v ∈ k.target, U v)
    (hd : k.doCopy.Uses U) (hb : ∀ v, k.base ≤ v → v < k.base + 2 * k.m → U v) : Local (k.gates false false) U := by
  intro s t hst h
  have hm : numChunks (k.target.map (Lc.var (F := ZMod p))).length k.c = k.m := by rw [List.length_map, ← hl]; rfl
  have hm' : numChunks (k.source.map (Lc.var (F := ZMod p))).length k.c = k.m := by rw [List.length_map]; rfl
  have e1 : ∀ (l : List ℕ), (∀ v ∈ l, U v) → ∀ i, (packSum 1 (chunk (l.map (Lc.var (F := ZMod p))) k.c i)).eval s =
      (packSum 1 (chunk (l.map (Lc.var (F := ZMod p))) k.c i)).eval t := by
    intro l hl i
    refine packSum_congr _ _ fun x hx => ?_
    obtain ⟨v, hv, rfl⟩ := List.mem_map.1 (mem_of_chunk hx)
    rw [eval_var, eval_var]
    exact hst v (hl v hv)
  have e2 : ∀ i < k.m, val s (k.packedSource i) = val t (k.packedSource i) := fun i hi =>
    hst _ (hb _ (by unfold BitCopy.packedSource; omega) (by unfold BitCopy.packedSource; omega))
  have e3 : ∀ i < k.m, val s (k.packedTarget i) = val t (k.packedTarget i) := fun i hi =>
    hst _ (hb _ (by unfold BitCopy.packedTarget; omega) (by unfold BitCopy.packedTarget; omega))
  have e4 : k.doCopy.eval s = k.doCopy.eval t := eval_agree hd hst
  rw [BitCopy.gates, sat_append, sat_append, multi_sat_iff, multi_sat_iff, hm, hm'] at h ⊢
  simp only [eval_var, Bool.false_eq_true, false_implies, and_true] at h ⊢
  obtain ⟨⟨h1, h2⟩, h3⟩ := h
  refine ⟨⟨fun i hi => ?_, fun i hi => ?_⟩, ?_⟩
  · rw [← e1 _ hs, ← e2 i hi]; exact h1 i hi
  · rw [← e1 _ ht, ← e3 i hi]; exact h2 i hi
  · rw [copyGates, sat_map] at h3 ⊢
    intro i hi
    have := h3 i hi
    have hi := List.mem_range.1 hi
    simp only [Constraint.Holds, eval_sub, eval_var, eval_const] at this ⊢
    rw [← e2 i hi, ← e3 i hi, ← e4]
    exact this

theorem sel_local {d : ℕ} {input left right : ℕ → ℕ} {isRight : Lc (ZMod p)} {U : ℕ → Prop} (hi : ∀ q < d, U (input q)) (hl : ∀ q < d, U (left q))
    (hr : ∀ q < d, U (right q)) (hb : isRight.Uses U) : Local (selGates d input isRight left right) U := by
  intro s t hst h
  rw [selGates, sat_map] at h ⊢
  intro q hq
  have := h q hq
  have hq := List.mem_range.1 hq
  simp only [Constraint.Holds, eval_sub, eval_var] at this ⊢
  rw [← hst _ (hi q hq), ← hst _ (hl q hq), ← hst _ (hr q hq), ← eval_agree hb hst]
  exact this

theorem digest_local {d : ℕ} {v : ℕ → ℕ} {U : ℕ → Prop} (h : ∀ q < d, U (v q)) : Local (p := p) (digestGates d v) U := by
  intro s t hst hs
  rw [digestGates, sat_map] at hs ⊢
  intro q hq
  have := hs q hq
  rw [boolean_iff, eval_var] at this ⊢
  rw [← hst _ (h q (List.mem_range.1 hq))]
  exact this

/-! ### Hash components -/

/-- Block and output fit together. -/
structure AnyFits (d : ℕ) (block out : List ℕ) (base : ℕ) : Prop where
  block0 : block ≠ []
  outLen : out.length = d
  nodup : out.Nodup
  outVar : ∀ v ∈ out, v ≠ 0 ∧ v < base
  blockVar : ∀ v ∈ block, v < base ∧ v ∉ out

/-- The hash component is correct for blocks of every length but 0: the output is a hash value of the block, the constraints are about its own variables, and
the assignment satisfies them. -/
structure AnyLaw (H : AnyHash p) (rel : List Bool → List Bool → Prop) : Prop where
  sound : ∀ (s : Asg (ZMod p)) (block out : List ℕ) (base : ℕ) (m : List Bool), block ≠ [] → out.length = H.d →
    block.map (val s) = m.map b2f → Sat s (H.gates block out base) → ∃ o : List Bool, out.map (val s) = o.map b2f ∧ rel m o
  loc : ∀ (block out : List ℕ) (base : ℕ), block ≠ [] → out.length = H.d →
    Local (H.gates block out base) (fun v => v ∈ block ∨ v ∈ out ∨ base ≤ v ∧ v < base + H.size block.length)
  blk : ∀ (block out : List ℕ) (base : ℕ), AnyFits H.d block out base →
    Blk (H.steps block out base) (fun v => v ∈ block ∨ v ∈ out ∨ base ≤ v ∧ v < base + H.size block.length)
      (fun v => v ∈ out ∨ base ≤ v ∧ v < base + H.size block.length)
  eqs : ∀ (s : Asg (ZMod p)) (block out : List ℕ) (base : ℕ) (m : List Bool), block ≠ [] → out.length = H.d →
    block.map (val s) = m.map b2f → Eqs s (H.steps block out base) → Sat s (H.gates block out base)

theorem AnyLaw.two {H : AnyHash p} {rel : List Bool → List Bool → Prop} (L : AnyLaw H rel) (hd : 0 < H.d) : Law H.two rel := by
  have ne : ∀ {block : List ℕ}, block.length = 2 * H.d → block ≠ [] := by
    intro block h e
    rw [e, List.length_nil] at h
    omega
  refine ⟨fun s block out base m hb => L.sound s block out base m (ne hb), fun block out base hf => ?_, fun s block out base m hb => L.eqs s block out base m (ne hb)⟩
  have := L.blk block out base ⟨ne hf.blockLen, hf.outLen, hf.nodup, hf.outVar, hf.blockVar⟩
  rw [show block.length = 2 * H.d from hf.blockLen] at this
  exact this

/-! ### Soundness -/

theorem eval_sum (s : Asg (ZMod p)) (l : List ℕ) : Lc.eval s (l.map fun v => (v, (1 : ZMod p))) = (l.map (val s)).sum := by
  induction l with
  | nil => rfl
  | cons v l ih => rw [List.map_cons, eval_cons, ih, List.map_cons, List.sum_cons, one_mul]

theorem sum_b2f (b : List Bool) : (b.map (b2f : Bool → ZMod p)).sum = ((b.count true : ℕ) : ZMod p) := by
  induction b with
  | nil => simp
  | cons x b ih =>
    rw [List.map_cons, List.sum_cons, ih, List.count_cons]
    cases x <;> simp [add_comm]

namespace Vote
variable {k : Vote p} {rel relT : List Bool → List Bool → Prop}

/-- The constraints on the ballot: exactly one entry is one and the others are zero. -/
theorem ballot_iff (s : Asg (ZMod p)) (hm : k.m.length ≤ p) :
    Sat s k.ballotGates ↔ ∃ i < k.m.length, ∀ j < k.m.length, val s (k.m.getD j 0) = b2f (decide (j = i)) := by
  have get : ∀ (b : List Bool), k.m.map (val s) = b.map b2f → ∀ j < k.m.length, val s (k.m.getD j 0) = b2f (b.getD j false) := by
    intro b hb j hj
    have hlen : b.length = k.m.length := by simpa using (congrArg List.length hb).symm
    have := congrArg (fun l => l.getD j 0) hb
    simp only [List.getD_eq_getElem?_getD, List.getElem?_map] at this ⊢
    rw [List.getElem?_eq_getElem hj, List.getElem?_eq_getElem (by omega)] at this ⊢
    exact this
  have hp2 := hp.out.two_le
  rw [ballotGates, sat_append, sat_map]
  simp only [boolean_iff, eval_var]
  simp only [sat_cons, sat_nil, and_true, Constraint.Holds, eval_const, one_mul, eval_sum]
  constructor
  · rintro ⟨h1, h2⟩
    obtain ⟨b, hb⟩ := bits_exist (l := k.m.map (val s)) (by
      intro x hx
      obtain ⟨v, hv, rfl⟩ := List.mem_map.1 hx
      exact h1 v hv)
    have hlen : b.length = k.m.length := by simpa using (congrArg List.length hb).symm
    rw [hb, sum_b2f] at h2
    have hc : b.count true = 1 := by
      have hle : b.count true ≤ p := le_trans List.count_le_length (by omega)
      rcases hle.lt_or_eq with hlt | heq
      · have := congrArg ZMod.val h2
        rwa [ZMod.val_natCast_of_lt hlt, ZMod.val_one] at this
      · rw [heq, ZMod.natCast_self] at h2
        exact absurd h2 zero_ne_one
    obtain ⟨i, hi, hbi⟩ : ∃ i, ∃ hi : i < b.length, b[i] = true := List.mem_iff_getElem.1 (List.count_pos_iff.1 (by omega))
    refine ⟨i, by omega, fun j hj => ?_⟩
    rw [get b hb j hj]
    congr 1
    by_cases e : j = i
    · subst e
      rw [List.getD_eq_getElem _ _ (by omega), hbi]; simp
    · rw [decide_eq_false e]
      by_contra hne
      have hbj : b[j]'(by omega) = true := by
        rw [List.getD_eq_getElem _ _ (by omega)] at hne
        simpa using hne
      have h2' : 2 ≤ b.count true := by
        rw [← List.duplicate_iff_two_le_count, List.duplicate_iff_exists_distinct_get]
        rcases lt_or_gt_of_ne e with h | h
        · exact ⟨⟨j, by omega⟩, ⟨i, hi⟩, h, hbj.symm, hbi.symm⟩
        · exact ⟨⟨i, hi⟩, ⟨j, by omega⟩, h, hbi.symm, hbj.symm⟩
      omega
  · rintro ⟨i, hi, h⟩
    have hmem : ∀ v ∈ k.m, IsBit (val s v) := by
      intro v hv
      obtain ⟨j, hj, rfl⟩ := List.mem_iff_getElem.1 hv
      have := h j hj
      rw [List.getD_eq_getElem _ _ hj] at this
      rw [this]; exact isBit_b2f _
    refine ⟨hmem, ?_⟩
    have hb : k.m.map (val s) = ((List.range k.m.length).map fun j => decide (j = i)).map b2f := by
      apply List.ext_getElem (by simp)
      intro j h1 h2
      have hj : j < k.m.length := by simpa using h1
      have := h j hj
      rw [List.getD_eq_getElem _ _ hj] at this
      simpa using this
    rw [hb, sum_b2f]
    have : ((List.range k.m.length).map fun j => decide (j = i)).count true = 1 := by
      rw [List.count, List.countP_map]
      have : (List.range k.m.length).countP ((fun x => x == true) ∘ fun j => decide (j = i)) = (List.range k.m.length).count i := by
        rw [List.count]
        refine List.countP_congr fun x _ => ?_
        simp
      rw [this]
      exact List.count_eq_one_of_mem List.nodup_range (List.mem_range.2 hi)
    rw [this, Nat.cast_one]

/-- **C100**, what holds: for a secret key and an election identifier that are bits, an accepted assignment knows a public key that is the hash of the
secret key, whose hash is a leaf of the tree under the root, and the serial number is the hash of identifier and secret key; root and serial number only as
packed numbers modulo `p`. Nothing is assumed about the address. Exactly one entry of the ballot is one. -/
theorem vote_sound_partial (k : Vote p) (LH : AnyLaw k.hash rel) (LT : AnyLaw k.tree relT) (hd : 0 < k.depth) (hh : 0 < k.hash.d) (ht : 0 < k.tree.d)
    (hm : k.m.length ≤ p) (s : Asg (ZMod p)) (sk eid root sn : List Bool) (hsk0 : sk ≠ []) (hsk : k.sk.map (val s) = sk.map b2f)
    (heid : k.eid.map (val s) = eid.map b2f) (hroot : (vlist k.tree.d k.root).map (val s) = root.map b2f)
    (hsn : (vlist k.hash.d k.sn).map (val s) = sn.map b2f) (hpath : Sat s (pathGates k.tree.d k.depth k.path)) (h : Sat s k.gates) :
    ∃ (pk leaf : List Bool) (addr : ℕ → Bool) (sib : ℕ → List Bool) (x y : List Bool), rel sk pk ∧ relT pk leaf ∧ IsNode relT addr sib leaf k.depth x ∧
      rel (eid ++ sk) y ∧ x.length = root.length ∧ y.length = sn.length ∧ (k.success.eval s = 0 ∨ PackedEq p k.c x root ∧ PackedEq p k.c y sn) ∧
      ∃ i < k.m.length, ∀ j < k.m.length, val s (k.m.getD j 0) = b2f (decide (j = i)) := by
  simp only [gates, sat_append] at h
  obtain ⟨⟨⟨⟨⟨h1, h2⟩, h3⟩, h4⟩, h5⟩, h6⟩ := h
  have hsk' : k.sk ≠ [] := by
    intro e
    rw [e] at hsk
    exact hsk0 (by simpa using hsk.symm)
  obtain ⟨pk, e1, r1⟩ := LH.sound s _ _ _ sk hsk' (vlist_length _ _) hsk h1
  obtain ⟨leaf, e2, r2⟩ := LT.sound s _ _ _ pk (by
    intro e
    have := congrArg List.length e
    rw [vlist_length, List.length_nil] at this
    omega) (vlist_length _ _) e1 h2
  obtain ⟨addr, sib, x, -, -, hlx, hn, hx⟩ := Read.read_sound_any_address k.read (LT.two ht) hd s leaf root e2 hroot hpath h3
  obtain ⟨y, e3, r3⟩ := LH.sound s _ _ _ (eid ++ sk) (by simp [hsk']) (vlist_length _ _) (by rw [List.map_append, List.map_append, heid, hsk]) h4
  have hy := ((bitcopy_iff k.check s y sn e3 hsn (by simp [check, vlist_length])).1 h5).2.2
  refine ⟨pk, leaf, addr, sib, x, y, r1, r2, hn, r3, hlx, ?_, ?_, (ballot_iff s hm).1 h6⟩
  · have h1 := congrArg List.length e3
    have h2 := congrArg List.length hsn
    simp only [List.length_map, vlist_length] at h1 h2
    omega
  · rcases hx with hx | hx
    · exact Or.inl hx
    · exact hy.imp_right fun hy => ⟨hx, hy⟩

/-- If the chunks fit in the field: root and serial number are the computed ones. -/
theorem vote_sound_small_chunks (k : Vote p) (LH : AnyLaw k.hash rel) (LT : AnyLaw k.tree relT) (hd : 0 < k.depth) (hh : 0 < k.hash.d) (ht : 0 < k.tree.d)
    (hc : 0 < k.c) (hp' : 2 ^ k.c ≤ p) (hm : k.m.length ≤ p) (s : Asg (ZMod p)) (sk eid root sn : List Bool) (hsk0 : sk ≠ [])
    (hsk : k.sk.map (val s) = sk.map b2f) (heid : k.eid.map (val s) = eid.map b2f) (hroot : (vlist k.tree.d k.root).map (val s) = root.map b2f)
    (hsn : (vlist k.hash.d k.sn).map (val s) = sn.map b2f) (hpath : Sat s (pathGates k.tree.d k.depth k.path)) (h : Sat s k.gates) (hs : k.success.eval s ≠ 0) :
    ∃ (pk leaf : List Bool) (addr : ℕ → Bool) (sib : ℕ → List Bool), rel sk pk ∧ relT pk leaf ∧ IsNode relT addr sib leaf k.depth root ∧
      rel (eid ++ sk) sn ∧ ∃ i < k.m.length, ∀ j < k.m.length, val s (k.m.getD j 0) = b2f (decide (j = i)) := by
  obtain ⟨pk, leaf, addr, sib, x, y, r1, r2, r3, r4, hx, hy, he, hb⟩ := vote_sound_partial k LH LT hd hh ht hm s sk eid root sn hsk0 hsk heid hroot hsn hpath h
  obtain ⟨e1, e2⟩ := he.resolve_left hs
  rw [packedEq_small hc hp' hx e1] at r3
  rw [packedEq_small hc hp' hy e2] at r4
  exact ⟨pk, leaf, addr, sib, r1, r2, r3, r4, hb⟩

/-- **C101**, what holds: for a hash function and chunks that fit in the field, two accepted ballots of the same key in the same election have the same serial
number. -/
theorem serial_unique_partial (k k' : Vote p) (H : List Bool → List Bool) (LH : AnyLaw k.hash fun m o => o = H m) (LH' : AnyLaw k'.hash fun m o => o = H m)
    (LT : AnyLaw k.tree relT) (LT' : AnyLaw k'.tree relT) (hd : 0 < k.depth) (hd' : 0 < k'.depth) (hh : 0 < k.hash.d) (hh' : 0 < k'.hash.d) (ht : 0 < k.tree.d)
    (ht' : 0 < k'.tree.d) (hc : 0 < k.c) (hc' : 0 < k'.c) (hp1 : 2 ^ k.c ≤ p) (hp2 : 2 ^ k'.c ≤ p) (hm : k.m.length ≤ p) (hm' : k'.m.length ≤ p)
    (s s' : Asg (ZMod p)) (sk eid root sn root' sn' : List Bool) (hsk0 : sk ≠ [])
    (hsk : k.sk.map (val s) = sk.map b2f) (heid : k.eid.map (val s) = eid.map b2f) (hroot : (vlist k.tree.d k.root).map (val s) = root.map b2f)
    (hsn : (vlist k.hash.d k.sn).map (val s) = sn.map b2f) (hpath : Sat s (pathGates k.tree.d k.depth k.path)) (h : Sat s k.gates) (hs : k.success.eval s ≠ 0)
    (hsk' : k'.sk.map (val s') = sk.map b2f) (heid' : k'.eid.map (val s') = eid.map b2f) (hroot' : (vlist k'.tree.d k'.root).map (val s') = root'.map b2f)
    (hsn' : (vlist k'.hash.d k'.sn).map (val s') = sn'.map b2f) (hpath' : Sat s' (pathGates k'.tree.d k'.depth k'.path)) (h' : Sat s' k'.gates)
    (hs' : k'.success.eval s' ≠ 0) : sn = sn' := by
  obtain ⟨_, _, _, _, -, -, -, e, -⟩ := vote_sound_small_chunks k LH LT hd hh ht hc hp1 hm s sk eid root sn hsk0 hsk heid hroot hsn hpath h hs
  obtain ⟨_, _, _, _, -, -, -, e', -⟩ := vote_sound_small_chunks k' LH' LT' hd' hh' ht' hc' hp2 hm' s' sk eid root' sn' hsk0 hsk' heid' hroot' hsn' hpath' h' hs'
  rw [e, e']

/-! ### Another serial number -/

/-- How the component is put together: the variables of path, root and serial number are different and allocated before, those of key, identifier and ballot
are others, and address and success are computed from others. -/
structure WF (k : Vote p) : Prop where
  base : k.base ≠ 0
  depth : 0 < k.depth
  chunk : 0 < k.c
  hashD : 0 < k.hash.d
  treeD : 0 < k.tree.d
  sk0 : k.sk ≠ []
  pathVar : ∀ i < k.depth, ∀ b, ∀ q < k.tree.d, k.path i b q ≠ 0 ∧ k.path i b q < k.base
  pathInj : ∀ i < k.depth, ∀ b, ∀ q < k.tree.d, ∀ i' < k.depth, ∀ b', ∀ q' < k.tree.d, k.path i b q = k.path i' b' q' → i = i' ∧ b = b' ∧ q = q'
  rootVar : ∀ q < k.tree.d, k.root q ≠ 0 ∧ k.root q < k.base ∧ ¬ k.read.IsPath (k.root q)
  rootInj : ∀ q < k.tree.d, ∀ q' < k.tree.d, k.root q = k.root q' → q = q'
  snVar : ∀ q < k.hash.d, k.sn q ≠ 0 ∧ k.sn q < k.base ∧ ¬ k.read.IsPath (k.sn q) ∧ ¬ k.read.IsRootVar (k.sn q)
  snInj : ∀ q < k.hash.d, ∀ q' < k.hash.d, k.sn q = k.sn q' → q = q'
  inVar : ∀ v, v ∈ k.sk ∨ v ∈ k.eid ∨ v ∈ k.m → v < k.base ∧ ¬ k.read.IsPath v ∧ ¬ k.read.IsRootVar v ∧ v ∉ vlist k.hash.d k.sn
  addressUse : ∀ n < k.depth, (k.address n).Uses fun v => v < k.base ∧ ¬ k.read.IsPath v ∧ ¬ k.read.IsRootVar v ∧ v ∉ vlist k.hash.d k.sn
  successUse : k.success.Uses fun v => v < k.base ∧ ¬ k.read.IsPath v ∧ ¬ k.read.IsRootVar v ∧ v ∉ vlist k.hash.d k.sn

/-- The variables that the component uses apart from the serial number. -/
def Rest (k : Vote p) (v : ℕ) : Prop := v ∉ vlist k.hash.d k.sn

theorem hBase_le (k : Vote p) : k.readBase ≤ k.read.hBase k.depth := le_trans (Nat.le_add_right _ _) (k.read.hBase_ge k.depth)

theorem order (k : Vote p) : k.base + 2 * k.hash.d + k.tree.d ≤ k.pkBase ∧ k.pkBase ≤ k.leafBase ∧ k.leafBase ≤ k.readBase ∧ k.readBase ≤ k.snBase ∧
    k.snBase ≤ k.check.base := by
  have := k.hBase_le
  refine ⟨le_rfl, Nat.le_add_right _ _, Nat.le_add_right _ _, ?_, Nat.le_add_right _ _⟩
  unfold snBase
  omega

theorem sn_lt (h : k.WF) {v : ℕ} (hv : v ∈ vlist k.hash.d k.sn) : v ≠ 0 ∧ v < k.base ∧ ¬ k.read.IsPath v ∧ ¬ k.read.IsRootVar v := by
  obtain ⟨q, hq, rfl⟩ := vlist_mem.1 hv
  exact h.snVar q hq

theorem rest_of_ge (h : k.WF) {v : ℕ} (hv : k.base ≤ v) : k.Rest v := fun e => absurd (sn_lt h e).2.1 (by omega)

/-- What the root validator uses. -/
def ReadU (k : Vote p) (v : ℕ) : Prop :=
  k.read.IsPath v ∨ k.read.IsRootVar v ∨ k.base + 2 * k.hash.d ≤ v ∧ v < k.base + 2 * k.hash.d + k.tree.d ∨ k.readBase ≤ v ∧ v < k.snBase ∨
    v < k.base ∧ ¬ k.read.IsPath v ∧ ¬ k.read.IsRootVar v ∧ v ∉ vlist k.hash.d k.sn

theorem read_local (LT : AnyLaw k.tree relT) (h : k.WF) : Local k.read.gates k.ReadU := by
  have ho := k.hBase_le
  have hsb : k.snBase = k.read.hBase k.depth + 2 * numChunks k.tree.d k.c := rfl
  have hbd : k.read.depth = k.depth := rfl
  have hbs : k.read.base = k.readBase := rfl
  have hout : ∀ i < k.depth, ∀ q < k.tree.d, k.ReadU (k.read.out i q) := by
    intro i hi q hq
    have h1 := Read.out_lt (k := k.read) hi hq
    have h2 := k.read.out_ge i q
    have h3 := k.read.hBase_ge k.depth
    rw [hbd] at h1 h3
    exact Or.inr (Or.inr (Or.inr (Or.inl ⟨by omega, by omega⟩)))
  have hpath : ∀ i < k.depth, ∀ b, ∀ q < k.tree.d, k.ReadU (k.path i b q) := fun i hi b q hq => Or.inl ⟨i, hi, b, q, hq, rfl⟩
  have hleaf : ∀ q < k.tree.d, k.ReadU (k.leaf q) := fun q hq => Or.inr (Or.inr (Or.inl ⟨by unfold leaf; omega, by unfold leaf; omega⟩))
  have hne : ∀ i, k.read.block i ≠ [] := by
    intro i e
    have := congrArg List.length e
    rw [Read.block, List.length_append, vlist_length, vlist_length, List.length_nil] at this
    have h0 := h.treeD
    have : k.tree.d + k.tree.d = 0 := this
    omega
  have hlen : ∀ i, (k.read.block i).length = 2 * k.tree.d := by
    intro i
    rw [Read.block, List.length_append, vlist_length, vlist_length]
    show k.tree.d + k.tree.d = _
    omega
  refine Local.append (Local.append (Local.flatMap fun i hi => ?_) (Local.flatMap fun i hi => ?_)) ?_
  · have hi : i < k.depth := List.mem_range.1 hi
    refine (LT.loc (k.read.block i) (vlist k.tree.d (k.read.out i)) (k.read.hBase i) (hne i) (vlist_length _ _)).mono ?_
    rintro v (hv | hv | hv)
    · rw [Read.block, List.mem_append] at hv
      rcases hv with hv | hv <;> obtain ⟨q, hq, rfl⟩ := vlist_mem.1 hv <;> exact hpath i hi _ q hq
    · obtain ⟨q, hq, rfl⟩ := vlist_mem.1 hv
      exact hout i hi q hq
    · rw [hlen] at hv
      have h1 := k.read.hBase_ge i
      have h2 := k.read.hBase_mono hi
      have h3 : k.read.hash.size = k.tree.size (2 * k.tree.d) := rfl
      exact Or.inr (Or.inr (Or.inr (Or.inl ⟨by omega, by omega⟩)))
  · have hi : i < k.depth := List.mem_range.1 hi
    refine sel_local (d := k.tree.d) (fun q hq => ?_) (fun q hq => hpath i hi false q hq) (fun q hq => hpath i hi true q hq) ?_
    · unfold Read.inp
      split_ifs with hlt
      · rw [hbd] at hlt
        exact hout (i + 1) (by omega) q hq
      · exact hleaf q hq
    · intro t ht
      exact (h.addressUse (k.depth - 1 - i) (by omega) t ht).imp_right fun hv => Or.inr (Or.inr (Or.inr (Or.inr hv)))
  · have hm : k.read.check.m = numChunks k.tree.d k.c := by unfold BitCopy.m Read.check; rw [vlist_length]; rfl
    have hcb : k.read.check.base = k.read.hBase k.depth := rfl
    refine bitcopy_local _ (by simp [Read.check, vlist_length]) ?_ ?_ ?_ ?_
    · intro v hv
      obtain ⟨q, hq, rfl⟩ := vlist_mem.1 (show v ∈ vlist k.tree.d (k.read.out 0) from hv)
      exact hout 0 h.depth q hq
    · intro v hv
      obtain ⟨q, hq, rfl⟩ := vlist_mem.1 (show v ∈ vlist k.tree.d k.root from hv)
      exact Or.inr (Or.inl ⟨q, hq, rfl⟩)
    · intro t ht
      exact (h.successUse t ht).imp_right fun hv => Or.inr (Or.inr (Or.inr (Or.inr hv)))
    · intro v h1 h2
      exact Or.inr (Or.inr (Or.inr (Or.inl ⟨by omega, by omega⟩)))

theorem readU_rest (h : k.WF) {v : ℕ} (hv : k.ReadU v) : k.Rest v := by
  intro e
  have h1 := sn_lt h e
  have h2 := k.order
  rcases hv with hv | hv | hv | hv | hv
  · exact h1.2.2.1 hv
  · exact h1.2.2.2 hv
  · omega
  · omega
  · exact hv.2.2.2 e

theorem pk_local (LH : AnyLaw k.hash rel) (h : k.WF) :
    Local k.pkGates (fun v => v ∈ k.sk ∨ v ∈ vlist k.hash.d k.pk ∨ k.pkBase ≤ v ∧ v < k.leafBase) := LH.loc _ _ _ h.sk0 (vlist_length _ _)

theorem pk_ne (h : k.WF) : vlist k.hash.d k.pk ≠ [] := by
  intro e
  have := congrArg List.length e
  rw [vlist_length, List.length_nil] at this
  have := h.hashD
  omega

theorem leaf_local (LT : AnyLaw k.tree relT) (h : k.WF) :
    Local k.leafGates (fun v => v ∈ vlist k.hash.d k.pk ∨ v ∈ vlist k.tree.d k.leaf ∨ k.leafBase ≤ v ∧ v < k.readBase) := by
  have := LT.loc (vlist k.hash.d k.pk) (vlist k.tree.d k.leaf) k.leafBase (pk_ne h) (vlist_length _ _)
  rw [vlist_length] at this
  exact this

theorem sn_local (LH : AnyLaw k.hash rel) (h : k.WF) :
    Local k.snGates (fun v => v ∈ k.eid ++ k.sk ∨ v ∈ vlist k.hash.d k.snc ∨ k.snBase ≤ v ∧ v < k.check.base) := by
  have := LH.loc (k.eid ++ k.sk) (vlist k.hash.d k.snc) k.snBase (by simp [h.sk0]) (vlist_length _ _)
  rw [List.length_append] at this
  exact this

theorem ballot_local : Local k.ballotGates (fun v => v ∈ k.m) := by
  intro s t hst hs
  rw [ballotGates, sat_append, sat_map] at hs ⊢
  simp only [boolean_iff, eval_var] at hs ⊢
  simp only [sat_cons, sat_nil, and_true, Constraint.Holds, eval_const, one_mul, eval_sum] at hs ⊢
  rw [List.map_congr_left hst] at hs
  exact ⟨fun v hv => hst v hv ▸ hs.1 v hv, hs.2⟩

/-- **C101**, negation: the serial number is not determined. A serial number that agrees with the accepted one only as packed numbers modulo `p` is accepted
too, with everything else unchanged. -/
theorem vote_other_sn (k : Vote p) (LH : AnyLaw k.hash rel) (LT : AnyLaw k.tree relT) (h : k.WF) (s : Asg (ZMod p)) (sk eid sn sn' : List Bool)
    (hsk : k.sk.map (val s) = sk.map b2f) (heid : k.eid.map (val s) = eid.map b2f)
    (hsn : (vlist k.hash.d k.sn).map (val s) = sn.map b2f) (hlen : sn'.length = sn.length) (he : PackedEq p k.c sn sn') (hs : Sat s k.gates) :
    ∃ t : Asg (ZMod p), Sat t k.gates ∧ (vlist k.hash.d k.sn).map (val t) = sn'.map b2f ∧ ∀ v, v ∉ vlist k.hash.d k.sn → t v = s v := by
  have hd : sn.length = k.hash.d := by simpa [vlist_length] using (congrArg List.length hsn).symm
  have hnd : (vlist k.hash.d k.sn).Nodup := by
    unfold vlist
    refine List.Nodup.map_on ?_ List.nodup_range
    intro x hx y hy e
    exact h.snInj x (List.mem_range.1 hx) y (List.mem_range.1 hy) e
  let t : Asg (ZMod p) := fun v => if v ∈ vlist k.hash.d k.sn then b2f (sn'.getD ((vlist k.hash.d k.sn).idxOf v) false) else s v
  have old : ∀ v, v ∉ vlist k.hash.d k.sn → t v = s v := fun v hv => if_neg hv
  have oldv : ∀ v, k.Rest v → val s v = val t v := fun v hv => (val_congr (old v hv)).symm
  have new : (vlist k.hash.d k.sn).map (val t) = sn'.map b2f := by
    apply List.ext_getElem (by simp [vlist_length, hlen, hd])
    intro i h1 h2
    have hi : i < k.hash.d := by simpa [vlist_length] using h1
    have hi' : i < (vlist k.hash.d k.sn).length := by simpa using h1
    have hm : (vlist k.hash.d k.sn)[i] ∈ vlist k.hash.d k.sn := List.getElem_mem _
    have h2' : i < sn'.length := by simpa using h2
    rw [List.getElem_map, List.getElem_map, val_pos _ (sn_lt h hm).1]
    show (if _ then _ else _) = _
    rw [if_pos hm, hnd.idxOf_getElem i hi', List.getD_eq_getElem _ _ h2']
  refine ⟨t, ?_, new, old⟩
  have inRest : ∀ v, v ∈ k.sk ∨ v ∈ k.eid ∨ v ∈ k.m → k.Rest v := fun v hv => (h.inVar v hv).2.2.2
  have ho := k.order
  simp only [gates, sat_append] at hs ⊢
  obtain ⟨⟨⟨⟨⟨h1, h2⟩, h3⟩, h4⟩, h5⟩, h6⟩ := hs
  have big : ∀ {d : ℕ} {f : ℕ → ℕ}, (∀ q, k.base ≤ f q) → ∀ v ∈ vlist d f, k.Rest v := by
    intro d f hf v hv
    obtain ⟨q, hq, rfl⟩ := vlist_mem.1 hv
    exact rest_of_ge h (hf q)
  refine ⟨⟨⟨⟨⟨pk_local LH h s t ?_ h1, leaf_local LT h s t ?_ h2⟩, read_local LT h s t (fun v hv => oldv v (readU_rest h hv)) h3⟩, sn_local LH h s t ?_ h4⟩, ?_⟩,
    ballot_local s t (fun v hv => oldv v (inRest v (Or.inr (Or.inr hv)))) h6⟩
  · rintro v (hv | hv | hv)
    · exact oldv v (inRest v (Or.inl hv))
    · exact oldv v (big (fun q => by unfold pk; omega) v hv)
    · exact oldv v (rest_of_ge h (by omega))
  · rintro v (hv | hv | hv)
    · exact oldv v (big (fun q => by unfold pk; omega) v hv)
    · exact oldv v (big (fun q => by unfold leaf; omega) v hv)
    · exact oldv v (rest_of_ge h (by omega))
  · rintro v (hv | hv | hv)
    · rcases List.mem_append.1 hv with hv | hv
      · exact oldv v (inRest v (Or.inr (Or.inl hv)))
      · exact oldv v (inRest v (Or.inl hv))
    · exact oldv v (big (fun q => by unfold snc; omega) v hv)
    · exact oldv v (rest_of_ge h (by omega))
  · obtain ⟨y, e3, -⟩ := LH.sound s _ _ _ (eid ++ sk) (by simp [h.sk0]) (vlist_length _ _) (by rw [List.map_append, List.map_append, heid, hsk]) h4
    have e3' : (vlist k.hash.d k.snc).map (val t) = y.map b2f := by
      rw [← e3]
      exact List.map_congr_left fun v hv => (oldv v (big (fun q => by unfold snc; omega) v hv)).symm
    have hl : k.check.source.length = k.check.target.length := by simp [check, vlist_length]
    have hy : y.length = k.hash.d := by simpa [vlist_length] using (congrArg List.length e3).symm
    have hm : numChunks y.length k.c = k.check.m := by unfold BitCopy.m check; rw [vlist_length, hy]
    have hm' : numChunks sn.length k.c = k.check.m := by unfold BitCopy.m check; rw [vlist_length, hd]
    obtain ⟨g1, g2, g3⟩ := (bitcopy_iff k.check s y sn e3 hsn hl).1 h5
    have he' : ∀ i < k.check.m, ((bnat (chunk sn k.c i) : ℕ) : ZMod p) = ((bnat (chunk sn' k.c i) : ℕ) : ZMod p) := fun i hi => he i (by rw [hm']; exact hi)
    refine (bitcopy_iff k.check t y sn' e3' new hl).2 ⟨fun i hi => ?_, fun i hi => ?_, ?_⟩
    · rw [← oldv _ (rest_of_ge h (by unfold BitCopy.packedSource; omega))]; exact g1 i hi
    · rw [← oldv _ (rest_of_ge h (by unfold BitCopy.packedTarget; omega)), g2 i hi]; exact he' i hi
    · rcases g3 with g3 | g3
      · left
        rw [← g3]
        exact (eval_agree h.successUse fun v hv => oldv v hv.2.2.2).symm
      · right
        intro i hi
        rw [g3 i hi]
        exact he' i (by rw [← hm]; exact hi)

/-! ### Completeness -/

theorem read_wf (h : k.WF) : k.read.WF := by
  have ho := k.order
  have hb : k.read.base = k.readBase := rfl
  refine ⟨by rw [hb]; have := h.base; omega, h.depth, h.chunk, ?_, h.pathInj, ?_, ?_, h.rootInj, ?_, ?_⟩
  · intro i hi b q hq
    have := h.pathVar i hi b q hq
    exact ⟨this.1, lt_of_lt_of_le this.2 (by omega)⟩
  · intro q hq
    have e : k.read.leaf q = k.base + 2 * k.hash.d + q := rfl
    have hq : q < k.tree.d := hq
    refine ⟨by omega, ?_, ?_⟩
    · rintro ⟨i, hi, b, r, hr, e'⟩
      have := (h.pathVar i hi b r hr).2
      have e' : k.read.leaf q = k.path i b r := e'
      omega
    · rintro ⟨r, hr, e'⟩
      have := (h.rootVar r hr).2.1
      have e' : k.read.leaf q = k.root r := e'
      omega
  · intro q hq
    have := h.rootVar q hq
    exact ⟨this.1, lt_of_lt_of_le this.2.1 (by omega), this.2.2⟩
  · intro n hn t ht
    exact (h.addressUse n hn t ht).imp_right fun hv => ⟨by omega, hv.2.1, hv.2.2.1⟩
  · intro t ht
    exact (h.successUse t ht).imp_right fun hv => ⟨by omega, hv.2.1, hv.2.2.1⟩

/-- The root validator does not change the variables allocated before other than path and root. -/
theorem read_keep (LT : AnyLaw k.tree relT) (h : k.WF) (s : Asg (ZMod p)) (a : ℕ → Bool) (ha : ∀ n < k.depth, (k.address n).eval s = b2f (a n)) {v : ℕ}
    (hv : v < k.readBase) (h1 : ¬ k.read.IsPath v) (h2 : ¬ k.read.IsRootVar v) : val (k.read.assign s) v = val s v := by
  have hw := Read.check_wf (read_wf h)
  have hb := k.hBase_le
  have hw' := read_wf h
  have e1 : val (k.read.assign s) v = val (k.read.layers s k.depth) v :=
    val_congr (BitCopy.assign_keep k.read.check hw _ (by show v < k.read.hBase k.depth; omega) fun e => h2 (vlist_mem.1 (show v ∈ vlist k.tree.d k.root from e)))
  rw [e1, Read.layers_run (LT.two h.treeD) hw' s a ha k.depth le_rfl]
  refine run_keep _ _ (Read.lvls_blk (LT.two h.treeD) hw' a k.depth le_rfl).writes ?_
  rintro ⟨i, hi, hT⟩
  exact Read.lvlT_old a hi hv h1 hT

theorem check_wf (h : k.WF) : k.check.WF := by
  have ho := k.order
  have h0 := h.base
  have hpd : ∀ q, k.snc q = k.base + q := fun _ => rfl
  refine ⟨by omega, by simp [check, vlist_length], ?_, ?_, ?_, ?_⟩
  · intro v hv
    obtain ⟨q, hq, rfl⟩ := vlist_mem.1 (show v ∈ vlist k.hash.d k.snc from hv)
    refine ⟨by rw [hpd]; omega, by rw [hpd]; omega, fun e => ?_⟩
    have := (sn_lt h (show _ ∈ vlist k.hash.d k.sn from e)).2.1
    rw [hpd] at this
    omega
  · intro v hv
    have := sn_lt h (show v ∈ vlist k.hash.d k.sn from hv)
    exact ⟨this.1, by omega⟩
  · show (vlist k.hash.d k.sn).Nodup
    unfold vlist
    refine List.Nodup.map_on ?_ List.nodup_range
    intro x hx y hy e
    exact h.snInj x (List.mem_range.1 hx) y (List.mem_range.1 hy) e
  · intro t ht
    exact (h.successUse t ht).imp_right fun hv => ⟨by omega, hv.2.2.2⟩

theorem vlist_nodup {d b : ℕ} {f : ℕ → ℕ} (hf : ∀ q, f q = b + q) : (vlist d f).Nodup := by
  unfold vlist
  refine List.Nodup.map_on ?_ List.nodup_range
  intro x _ y _ e
  rw [hf, hf] at e
  omega

/-- The honest assignment is accepted: for a key and an identifier that are bits, an address and siblings, and a ballot with one entry, the assignment of the
component satisfies all constraints, and root and serial number become the computed ones. -/
theorem vote_complete (k : Vote p) (LH : AnyLaw k.hash rel) (LT : AnyLaw k.tree relT) (h : k.WF) (hm : k.m.length ≤ p) (s : Asg (ZMod p))
    (sk eid root sn : List Bool) (a : ℕ → Bool) (sib : ℕ → List Bool) (hsk : k.sk.map (val s) = sk.map b2f) (heid : k.eid.map (val s) = eid.map b2f)
    (ha : ∀ n < k.depth, (k.address n).eval s = b2f (a n)) (hsib : ∀ n < k.depth, (k.read.sibVars a n).map (val s) = (sib n).map b2f)
    (hroot : (vlist k.tree.d k.root).map (val s) = root.map b2f) (hsn : (vlist k.hash.d k.sn).map (val s) = sn.map b2f) (hs : k.success.eval s = 1)
    (hb : ∃ i < k.m.length, ∀ j < k.m.length, val s (k.m.getD j 0) = b2f (decide (j = i))) :
    Sat (k.assign s) (pathGates k.tree.d k.depth k.path) ∧ Sat (k.assign s) k.gates ∧ ∃ pk leaf x y : List Bool, rel sk pk ∧ relT pk leaf ∧
      IsNode relT a sib leaf k.depth x ∧ rel (eid ++ sk) y ∧ (vlist k.tree.d k.root).map (val (k.assign s)) = x.map b2f ∧
      (vlist k.hash.d k.sn).map (val (k.assign s)) = y.map b2f := by
  have ho := k.order
  have h0 := h.base
  have hrw := read_wf h
  have hcw := check_wf h
  have pkq : ∀ q, k.pk q = k.base + k.hash.d + q := fun _ => rfl
  have lq : ∀ q, k.leaf q = k.base + 2 * k.hash.d + q := fun _ => rfl
  have sq : ∀ q, k.snc q = k.base + q := fun _ => rfl
  have mpk : ∀ {v}, v ∈ vlist k.hash.d k.pk ↔ k.base + k.hash.d ≤ v ∧ v < k.base + 2 * k.hash.d := by
    intro v
    rw [vlist_mem]
    exact ⟨fun ⟨q, hq, e⟩ => by rw [e, pkq]; omega, fun hv => ⟨v - (k.base + k.hash.d), by omega, by rw [pkq]; omega⟩⟩
  have mleaf : ∀ {v}, v ∈ vlist k.tree.d k.leaf ↔ k.base + 2 * k.hash.d ≤ v ∧ v < k.base + 2 * k.hash.d + k.tree.d := by
    intro v
    rw [vlist_mem]
    exact ⟨fun ⟨q, hq, e⟩ => by rw [e, lq]; omega, fun hv => ⟨v - (k.base + 2 * k.hash.d), by omega, by rw [lq]; omega⟩⟩
  have msnc : ∀ {v}, v ∈ vlist k.hash.d k.snc ↔ k.base ≤ v ∧ v < k.base + k.hash.d := by
    intro v
    rw [vlist_mem]
    exact ⟨fun ⟨q, hq, e⟩ => by rw [e, sq]; omega, fun hv => ⟨v - k.base, by omega, by rw [sq]; omega⟩⟩
  -- the three hashers
  have blk1 := LH.blk k.sk (vlist k.hash.d k.pk) k.pkBase ⟨h.sk0, vlist_length _ _, vlist_nodup pkq, fun v hv => by rw [mpk] at hv; omega,
    fun v hv => by have := (h.inVar v (Or.inl hv)).1; rw [mpk]; omega⟩
  have blk2 := LT.blk (vlist k.hash.d k.pk) (vlist k.tree.d k.leaf) k.leafBase ⟨pk_ne h, vlist_length _ _, vlist_nodup lq,
    fun v hv => by rw [mleaf] at hv; omega, fun v hv => by rw [mpk] at hv; rw [mleaf]; omega⟩
  have blk3 := LH.blk (k.eid ++ k.sk) (vlist k.hash.d k.snc) k.snBase ⟨by simp [h.sk0], vlist_length _ _, vlist_nodup sq,
    fun v hv => by rw [msnc] at hv; omega, fun v hv => by
      have := (h.inVar v ((List.mem_append.1 hv).elim (fun e => Or.inr (Or.inl e)) Or.inl)).1
      rw [msnc]; omega⟩
  rw [vlist_length] at blk2
  rw [List.length_append] at blk3
  set s0 := run (k.hash.steps k.sk (vlist k.hash.d k.pk) k.pkBase) s with hs0
  set s1 := run (k.tree.steps (vlist k.hash.d k.pk) (vlist k.tree.d k.leaf) k.leafBase) s0 with hs1
  set s2 := k.read.assign s1 with hs2
  set s3 := run (k.hash.steps (k.eid ++ k.sk) (vlist k.hash.d k.snc) k.snBase) s2 with hs3
  have hfin : k.assign s = k.check.assign s3 := by
    rw [hs3, hs2, hs1, hs0, assign, keySteps, run_append]
  rw [hfin]
  set s4 := k.check.assign s3 with hs4
  have k0 : ∀ v, ¬ (v ∈ vlist k.hash.d k.pk ∨ k.pkBase ≤ v ∧ v < k.leafBase) → val s0 v = val s v := fun v hv => run_keep _ _ blk1.writes hv
  have k1 : ∀ v, ¬ (v ∈ vlist k.tree.d k.leaf ∨ k.leafBase ≤ v ∧ v < k.readBase) → val s1 v = val s0 v := fun v hv => run_keep _ _ blk2.writes hv
  have low1 : ∀ v, v < k.base → val s1 v = val s v := by
    intro v hv
    rw [k1 v (by rw [mleaf]; omega), k0 v (by rw [mpk]; omega)]
  have ev : ∀ {l : Lc (ZMod p)} {P : ℕ → Prop}, (l.Uses fun v => v < k.base ∧ P v) → l.eval s1 = l.eval s := fun hl =>
    eval_agree hl fun v hv => low1 v hv.1
  have ha1 : ∀ n < k.depth, (k.address n).eval s1 = b2f (a n) := fun n hn => by rw [ev (h.addressUse n hn)]; exact ha n hn
  have k2 : ∀ v, v < k.readBase → ¬ k.read.IsPath v → ¬ k.read.IsRootVar v → val s2 v = val s1 v := fun v h1 h2 h3 => read_keep LT h s1 a ha1 h1 h2 h3
  have k3 : ∀ v, ¬ (v ∈ vlist k.hash.d k.snc ∨ k.snBase ≤ v ∧ v < k.check.base) → val s3 v = val s2 v := fun v hv => run_keep _ _ blk3.writes hv
  have k4 : ∀ v, v < k.check.base → v ∉ vlist k.hash.d k.sn → val s4 v = val s3 v := fun v h1 h2 => val_congr (BitCopy.assign_keep k.check hcw _ h1 h2)
  have npath : ∀ v, k.base ≤ v → ¬ k.read.IsPath v ∧ ¬ k.read.IsRootVar v ∧ v ∉ vlist k.hash.d k.sn := by
    intro v hv
    refine ⟨?_, ?_, fun e => absurd (sn_lt h e).2.1 (by omega)⟩
    · rintro ⟨i, hi, b, q, hq, e⟩
      have := (h.pathVar i hi b q hq).2
      have e : v = k.path i b q := e
      omega
    · rintro ⟨q, hq, e⟩
      have := (h.rootVar q hq).2.1
      have e : v = k.root q := e
      omega
  -- values from the first states up to the last
  have up1 : ∀ v, k.base + k.hash.d ≤ v → v < k.readBase → val s4 v = val s1 v := by
    intro v h1 h2
    obtain ⟨n1, n2, n3⟩ := npath v (by omega)
    rw [k4 v (by omega) n3, k3 v (by rw [msnc]; omega), k2 v h2 n1 n2]
  have inp : ∀ v, v < k.base ∧ ¬ k.read.IsPath v ∧ ¬ k.read.IsRootVar v ∧ v ∉ vlist k.hash.d k.sn →
      val s0 v = val s v ∧ val s1 v = val s v ∧ val s2 v = val s v ∧ val s3 v = val s v ∧ val s4 v = val s v := by
    rintro v ⟨n0, n1, n2, n3⟩
    have e1 := low1 v n0
    have e2 : val s2 v = val s v := (k2 v (by omega) n1 n2).trans e1
    have e3 : val s3 v = val s v := (k3 v (by rw [msnc]; omega)).trans e2
    exact ⟨k0 v (by rw [mpk]; omega), e1, e2, e3, (k4 v (by omega) n3).trans e3⟩
  have inL : ∀ {l : List ℕ} {b : List Bool}, (∀ v ∈ l, v ∈ k.sk ∨ v ∈ k.eid ∨ v ∈ k.m) → l.map (val s) = b.map b2f →
      l.map (val s0) = b.map b2f ∧ l.map (val s3) = b.map b2f ∧ l.map (val s4) = b.map b2f := by
    intro l b hl hb
    refine ⟨?_, ?_, ?_⟩ <;> rw [← hb] <;> refine List.map_congr_left fun v hv => ?_
    · exact (inp v (h.inVar v (hl v hv))).1
    · exact (inp v (h.inVar v (hl v hv))).2.2.2.1
    · exact (inp v (h.inVar v (hl v hv))).2.2.2.2
  obtain ⟨sk0, sk3, sk4⟩ := inL (l := k.sk) (fun v hv => Or.inl hv) hsk
  obtain ⟨-, eid3, -⟩ := inL (l := k.eid) (fun v hv => Or.inr (Or.inl hv)) heid
  -- public key
  have g1 : Sat s0 k.pkGates := LH.eqs s0 _ _ _ sk h.sk0 (vlist_length _ _) sk0 (run_eq _ blk1.ssa s)
  obtain ⟨pk, hpk, rpk⟩ := LH.sound s0 _ _ _ sk h.sk0 (vlist_length _ _) sk0 g1
  have hpk1 : (vlist k.hash.d k.pk).map (val s1) = pk.map b2f := by
    rw [← hpk]
    refine List.map_congr_left fun v hv => ?_
    rw [mpk] at hv
    exact k1 v (by rw [mleaf]; omega)
  -- leaf
  have g2 : Sat s1 k.leafGates := LT.eqs s1 _ _ _ pk (pk_ne h) (vlist_length _ _) hpk1 (run_eq _ blk2.ssa s0)
  obtain ⟨leaf, hleaf, rleaf⟩ := LT.sound s1 _ _ _ pk (pk_ne h) (vlist_length _ _) hpk1 g2
  -- root
  have hin : k.read.Inputs s1 a sib leaf := by
    refine ⟨ha1, fun n hn => ?_, hleaf⟩
    rw [← hsib n hn]
    refine List.map_congr_left fun v hv => ?_
    obtain ⟨q, hq, rfl⟩ := vlist_mem.1 hv
    exact low1 _ (h.pathVar (k.depth - 1 - n) (by have := h.depth; omega) _ q hq).2
  have hroot1 : (vlist k.tree.d k.root).map (val s1) = root.map b2f := by
    rw [← hroot]
    refine List.map_congr_left fun v hv => ?_
    obtain ⟨q, hq, rfl⟩ := vlist_mem.1 hv
    exact low1 _ (h.rootVar q hq).2.1
  have hs1' : k.read.success.eval s1 = 1 := by rw [← hs]; exact ev h.successUse
  obtain ⟨g3, g4, -, -, x, hx, hxr⟩ := Read.read_complete k.read (LT.two h.treeD) hrw s1 a sib leaf hin (Or.inr hs1') root hroot1
  rw [if_pos hs1'] at hxr
  -- from the root validator to the end
  have up2 : ∀ v, k.ReadU v ∨ k.read.IsPath v → val s2 v = val s4 v := by
    intro v hv
    have hv' : k.ReadU v := hv.elim id Or.inl
    have hr := readU_rest h hv'
    have hlt : v < k.check.base ∧ ¬ (v ∈ vlist k.hash.d k.snc ∨ k.snBase ≤ v ∧ v < k.check.base) := by
      rw [msnc]
      have hd := h.hashD
      rcases hv' with hv | hv | hv | hv | hv
      · obtain ⟨i, hi, b, q, hq, e⟩ := hv
        have := (h.pathVar i hi b q hq).2
        have e : v = k.path i b q := e
        omega
      · obtain ⟨q, hq, e⟩ := hv
        have := (h.rootVar q hq).2.1
        have e : v = k.root q := e
        omega
      · omega
      · omega
      · omega
    rw [k4 v hlt.1 hr, k3 v hlt.2]
  -- serial number
  have hblock : (k.eid ++ k.sk).map (val s3) = (eid ++ sk).map b2f := by rw [List.map_append, List.map_append, eid3, sk3]
  have g5 : Sat s3 k.snGates := LH.eqs s3 _ _ _ (eid ++ sk) (by simp [h.sk0]) (vlist_length _ _) hblock (run_eq _ blk3.ssa s2)
  obtain ⟨y, hy, ry⟩ := LH.sound s3 _ _ _ (eid ++ sk) (by simp [h.sk0]) (vlist_length _ _) hblock g5
  have hsn3 : (vlist k.hash.d k.sn).map (val s3) = sn.map b2f := by
    rw [← hsn]
    refine List.map_congr_left fun v hv => ?_
    obtain ⟨n0, n1, n2, n3⟩ := sn_lt h hv
    rw [k3 v (by rw [msnc]; omega), k2 v (by omega) n2 n3, low1 v n1]
  have hdc : k.check.doCopy.eval s3 = 1 := by
    rw [← hs]
    exact eval_agree h.successUse fun v hv => (inp v hv).2.2.2.1
  obtain ⟨g6, -, -, g7⟩ := bitcopy_complete k.check hcw s3 false false (Or.inr hdc) (Read.bits_isBit (show k.check.source.map (val s3) = y.map b2f from hy))
    (Read.bits_isBit (show k.check.target.map (val s3) = sn.map b2f from hsn3))
  rw [if_pos hdc] at g7
  refine ⟨?_, ?_, pk, leaf, x, y, rpk, rleaf, hx, ry, ?_, g7.trans hy⟩
  · refine (Local.flatMap (U := k.read.IsPath) fun i hi => ?_) s2 s4 (fun v hv => up2 v (Or.inr hv)) g3
    have hi : i < k.depth := List.mem_range.1 hi
    exact (digest_local fun q hq => ⟨i, hi, false, q, hq, rfl⟩).append (digest_local fun q hq => ⟨i, hi, true, q, hq, rfl⟩)
  · simp only [gates, sat_append]
    refine ⟨⟨⟨⟨⟨pk_local LH h s0 s4 ?_ g1, leaf_local LT h s1 s4 ?_ g2⟩, read_local LT h s2 s4 (fun v hv => up2 v (Or.inl hv)) g4⟩, sn_local LH h s3 s4 ?_ g5⟩, g6⟩,
      ballot_local s s4 (fun v hv => ((inp v (h.inVar v (Or.inr (Or.inr hv)))).2.2.2.2).symm) ((ballot_iff s hm).2 hb)⟩
    · rintro v (hv | hv | hv)
      · have := inp v (h.inVar v (Or.inl hv))
        rw [this.1, this.2.2.2.2]
      · rw [mpk] at hv
        rw [up1 v (by omega) (by omega), k1 v (by rw [mleaf]; omega)]
      · rw [up1 v (by omega) (by omega), k1 v (by rw [mleaf]; omega)]
    · rintro v (hv | hv | hv)
      · rw [mpk] at hv
        rw [up1 v (by omega) (by omega)]
      · rw [mleaf] at hv
        rw [up1 v (by omega) (by omega)]
      · rw [up1 v (by omega) (by omega)]
    · have hd := h.hashD
      rintro v (hv | hv | hv)
      · have := inp v (h.inVar v ((List.mem_append.1 hv).elim (fun e => Or.inr (Or.inl e)) Or.inl))
        rw [this.2.2.2.1, this.2.2.2.2]
      · rw [msnc] at hv
        exact (k4 v (by omega) (npath v (by omega)).2.2).symm
      · exact (k4 v (by omega) (npath v (by omega)).2.2).symm
  · rw [← show (vlist k.tree.d k.root).map (val s2) = x.map b2f from hxr]
    refine List.map_congr_left fun v hv => ?_
    exact (up2 v (Or.inl (Or.inr (Or.inl (vlist_mem.1 hv))))).symm

end Vote

/-! ### A concrete case -/

/-- A hash component for examples: bit `q` of the digest of three bits is bit `q` of the block, which is repeated if it is too short. -/
def toy : AnyHash p where
  d := 3
  gates block out _ := (List.range 3).map fun q => ⟨Lc.const 1, Lc.var (block.getD (q % block.length) 0), Lc.var (out.getD q 0)⟩
  steps block out _ := (List.range 3).map fun q => (out.getD q 0, fun s => val s (block.getD (q % block.length) 0))
  size _ := 0

def toyHash (m : List Bool) : List Bool := (List.range 3).map fun q => m.getD (q % m.length) false

theorem toy_law : AnyLaw (toy : AnyHash p) (fun m o => o = toyHash m) := by
  have len0 : ∀ {block : List ℕ}, block ≠ [] → ∀ q, q % block.length < block.length := fun h q => Nat.mod_lt _ (List.length_pos_iff.2 h)
  have mem : ∀ {l : List ℕ} {i : ℕ}, i < l.length → l.getD i 0 ∈ l := by
    intro l i hi
    rw [List.getD_eq_getElem _ _ hi]; exact List.getElem_mem _
  have iff : ∀ (s : Asg (ZMod p)) (block out : List ℕ) (base : ℕ), Sat s ((toy : AnyHash p).gates block out base) ↔
      ∀ q < 3, val s (block.getD (q % block.length) 0) = val s (out.getD q 0) := by
    intro s block out base
    simp only [toy, sat_map, Constraint.Holds, eval_const, eval_var, one_mul, List.mem_range]
  refine ⟨?_, ?_, ?_, ?_⟩
  · intro s block out base m hb ho hm hs
    rw [iff] at hs
    have hlen : m.length = block.length := by simpa using (congrArg List.length hm).symm
    refine ⟨toyHash m, ?_, rfl⟩
    have ho : out.length = 3 := ho
    apply List.ext_getElem (by simp [toyHash, ho])
    intro q h1 h2
    have hq : q < 3 := by simpa [ho] using h1
    have := hs q hq
    have hm' := congrArg (fun l => l[q % block.length]?) hm
    simp only [List.getElem?_map, List.getElem?_eq_getElem (len0 hb q), List.getElem?_eq_getElem (show q % block.length < m.length by rw [hlen]; exact len0 hb q),
      Option.map_some, Option.some.injEq] at hm'
    rw [List.getD_eq_getElem _ _ (len0 hb q), hm', List.getD_eq_getElem _ _ (by omega)] at this
    simp only [toyHash, List.getElem_map, List.getElem_range]
    rw [List.getD_eq_getElem _ _ (by rw [hlen]; exact len0 hb q), ← this]
    simp only [hlen]
  · intro block out base hb ho s t hst hs
    rw [iff] at hs ⊢
    intro q hq
    have ho : out.length = 3 := ho
    rw [← hst _ (Or.inl (mem (len0 hb q))), ← hst _ (Or.inr (Or.inl (mem (by omega))))]
    exact hs q hq
  · intro block out base hf
    have ho : out.length = 3 := hf.outLen
    refine (Blk.mapLoop (f := fun q => (out.getD q 0, fun s => val s (block.getD (q % block.length) 0))) 3 (fun v => v ∈ block) ?_ ?_ ?_ ?_).mono ?_ ?_
    · intro q hq; exact (hf.outVar _ (mem (by omega))).1
    · intro i hi j hj e
      have e : out.getD i 0 = out.getD j 0 := e
      rw [List.getD_eq_getElem _ _ (by omega), List.getD_eq_getElem _ _ (by omega)] at e
      exact (List.Nodup.getElem_inj_iff hf.nodup).1 e
    · intro q _; exact reads_val (mem (len0 hf.block0 q))
    · intro q hq e
      exact (hf.blockVar _ e).2 (mem (by omega))
    · rintro v (hv | ⟨q, hq, rfl⟩)
      · exact Or.inl hv
      · exact Or.inr (Or.inl (mem (by omega)))
    · rintro v ⟨q, hq, rfl⟩
      exact Or.inl (mem (by omega))
  · intro s block out base m hb ho hm he
    rw [iff]
    intro q hq
    exact (he (out.getD q 0, fun s => val s (block.getD (q % block.length) 0)) (List.mem_map.2 ⟨q, List.mem_range.2 hq, rfl⟩)).symm

end

namespace Ex

instance fact_prime_5 : Fact (Nat.Prime 5) := ⟨by norm_num⟩

/-- Digests of three bits over the field of five elements, chunks of three bits, a tree of depth 1. -/
def vote : Vote 5 := ⟨toy, toy, [5, 6], [4], fun q => 7 + q, fun q => 10 + q, 1, fun _ => Lc.var 19, fun _ b q => 13 + 3 * b.toNat + q, [1, 2, 3], Lc.const 1, 3, 20⟩

theorem vote_wf : vote.WF := by
  refine ⟨by decide, by decide, by decide, by decide, by decide, by decide, by decide, ?_, ?_, by decide, ?_, by decide, ?_, ?_, ?_⟩
  · intro i hi b q hq i' hi' b' q' hq' e
    have e : 13 + 3 * b.toNat + q = 13 + 3 * b'.toNat + q' := e
    have hi : i < 1 := hi
    have hi' : i' < 1 := hi'
    have hq : q < 3 := hq
    have hq' : q' < 3 := hq'
    have e2 : b.toNat = b'.toNat := by omega
    refine ⟨by omega, ?_, by omega⟩
    cases b <;> cases b' <;> simp_all
  · intro q hq
    have hq : q < 3 := hq
    refine ⟨by show 10 + q ≠ 0; omega, by show 10 + q < 20; omega, ?_⟩
    rintro ⟨i, _, b, r, _, e⟩
    have e : 10 + q = 13 + 3 * b.toNat + r := e
    omega
  · intro q hq
    have hq : q < 3 := hq
    refine ⟨by show 7 + q ≠ 0; omega, by show 7 + q < 20; omega, ?_, ?_⟩
    · rintro ⟨i, _, b, r, _, e⟩
      have e : 7 + q = 13 + 3 * b.toNat + r := e
      omega
    · rintro ⟨r, _, e⟩
      have e : 7 + q = 10 + r := e
      omega
  · intro v hv
    have hv' : 1 ≤ v ∧ v ≤ 6 := by
      simp only [vote, List.mem_cons, List.not_mem_nil, or_false] at hv
      omega
    refine ⟨by show v < 20; omega, ?_, ?_, ?_⟩
    · rintro ⟨i, _, b, r, _, e⟩
      have e : v = 13 + 3 * b.toNat + r := e
      omega
    · rintro ⟨r, _, e⟩
      have e : v = 10 + r := e
      omega
    · intro e
      obtain ⟨q, _, e⟩ := vlist_mem.1 e
      have e : v = 7 + q := e
      omega
  · intro n _ t ht
    have ht : t ∈ [((19 : ℕ), (1 : ZMod 5))] := ht
    rw [List.mem_singleton] at ht
    subst ht
    refine Or.inr ⟨by decide, ?_, ?_, by decide⟩
    · rintro ⟨i, _, b, r, hr, e⟩
      have e : 19 = 13 + 3 * b.toNat + r := e
      have hr : r < 3 := hr
      have := Bool.toNat_le b
      omega
    · rintro ⟨r, hr, e⟩
      have e : 19 = 10 + r := e
      have hr : r < 3 := hr
      omega
  · intro t ht
    left
    simp only [vote, Lc.const, List.mem_singleton] at ht
    rw [ht]

/-- Secret key 0, 0, 0, identifier 0, vote for the first candidate. -/
def start : Asg (ZMod 5) := fun v => if v = 5 then 1 else 0

theorem accepted : Sat (vote.assign start) (pathGates 3 1 vote.path) ∧ Sat (vote.assign start) vote.gates ∧ ∃ pk leaf x y : List Bool,
    pk = toyHash [false, false, false] ∧ leaf = toyHash pk ∧ IsNode (fun m o => o = toyHash m) (fun _ => false) (fun _ => [false, false, false]) leaf 1 x ∧
      y = toyHash ([false] ++ [false, false, false]) ∧ (vlist 3 vote.root).map (val (vote.assign start)) = x.map b2f ∧
      (vlist 3 vote.sn).map (val (vote.assign start)) = y.map b2f :=
  Vote.vote_complete vote toy_law toy_law vote_wf (by decide) start [false, false, false] [false] [false, false, false] [false, false, false] (fun _ => false)
    (fun _ => [false, false, false]) (by decide) (by decide) (by decide) (by decide) (by decide) (by decide) (by decide) ⟨0, by decide, by decide⟩

/-- Two accepted ballots of the same key for the same election with different serial numbers. -/
theorem double_vote : ∃ s t : Asg (ZMod 5), Sat s vote.gates ∧ Sat t vote.gates ∧ (∀ v, v ∉ vlist 3 vote.sn → t v = s v) ∧
    (vlist 3 vote.sn).map (val s) = [0, 0, 0] ∧ (vlist 3 vote.sn).map (val t) = [1, 0, 1] := by
  obtain ⟨-, h, pk, leaf, x, y, -, -, -, hy, -, hsn⟩ := accepted
  subst hy
  have e1 : vote.sk.map (val (vote.assign start)) = [false, false, false].map b2f := by decide +kernel
  have e2 : vote.eid.map (val (vote.assign start)) = [false].map b2f := by decide +kernel
  obtain ⟨t, h1, h2, h3⟩ := Vote.vote_other_sn vote toy_law toy_law vote_wf _ _ _ _ [true, false, true] e1 e2 hsn (by decide)
    (by unfold PackedEq; decide) h
  exact ⟨_, t, h, h1, h3, hsn, h2⟩

/-- What is known about the accepted ballot. -/
example : ∃ (pk leaf : List Bool) (addr : ℕ → Bool) (sib : ℕ → List Bool) (x y : List Bool), pk = toyHash [false, false, false] ∧ leaf = toyHash pk ∧
    IsNode (fun m o => o = toyHash m) addr sib leaf 1 x ∧ y = toyHash ([false] ++ [false, false, false]) := by
  obtain ⟨h0, h, _, _, x, y, -, -, -, -, hr, hsn⟩ := accepted
  obtain ⟨pk, leaf, addr, sib, x', y', r1, r2, r3, r4, -⟩ := Vote.vote_sound_partial vote toy_law toy_law (by decide) (by decide) (by decide) (by decide)
    _ [false, false, false] [false] x y (by decide) (by decide +kernel) (by decide +kernel) hr hsn h0 h
  exact ⟨pk, leaf, addr, sib, x', y', r1, r2, r3, r4⟩

end Ex
end Voting
end R1cs
end Verif
