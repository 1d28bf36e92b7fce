import Verif.Model.R1csMerkle
import Verif.Props.R1csHmac

/-!
# C93: the r1cs Merkle tree path check
-/

set_option linter.unusedSectionVars false

namespace Verif
namespace R1cs
namespace Merkle

open Sha

/-! ### Specification -/

/-- `x` is the node `n` layers above the leaf, for the address bits `addr` (least significant first) and the siblings `sib` (lowest first).
`rel m o`: the hash value of `m` is `o`. -/
def IsNode (rel : List Bool → List Bool → Prop) (addr : ℕ → Bool) (sib : ℕ → List Bool) (leaf : List Bool) : ℕ → List Bool → Prop
  | 0, x => x = leaf
  | n + 1, x => ∃ y, IsNode rel addr sib leaf n y ∧ rel (if addr n then sib n ++ y else y ++ sib n) x

/-- The same for a hash function. -/
def node (h : List Bool → List Bool) (addr : ℕ → Bool) (sib : ℕ → List Bool) (leaf : List Bool) : ℕ → List Bool
  | 0 => leaf
  | n + 1 => if addr n then h (sib n ++ node h addr sib leaf n) else h (node h addr sib leaf n ++ sib n)

theorem isNode_fun (h : List Bool → List Bool) (addr : ℕ → Bool) (sib : ℕ → List Bool) (leaf : List Bool) (n : ℕ) (x : List Bool) :
    IsNode (fun m o => o = h m) addr sib leaf n x ↔ x = node h addr sib leaf n := by
  induction n generalizing x with
  | zero => rfl
  | succ n ih =>
    simp only [IsNode, node, ih, exists_eq_left]
    split_ifs <;> rfl

section
variable {p : ℕ} [hp : Fact p.Prime]

/-! ### Hash components -/

/-- Block and output fit together. -/
structure Fits (d : ℕ) (block out : List ℕ) (base : ℕ) : Prop where
  blockLen : block.length = 2 * d
  outLen : out.length = d
  nodup : out.Nodup
  outVar : ∀ v ∈ out, v ≠ 0 ∧ v < base
  blockVar : ∀ v ∈ block, v < base ∧ v ∉ out

/-- The hash component is correct: the output is a hash value of the block, and the assignment satisfies the constraints. -/
structure Law (H : HashComp p) (rel : List Bool → List Bool → Prop) : Prop where
  sound : ∀ (s : Asg (ZMod p)) (block out : List ℕ) (base : ℕ) (m : List Bool), block.length = 2 * H.d → out.length = H.d →
    block.map (val s) = m.map b2f → Sat s (H.gates block out base) → ∃ o : List Bool, out.map (val s) = o.map b2f ∧ rel m o
  blk : ∀ (block out : List ℕ) (base : ℕ), Fits H.d block out base →
    Blk (H.steps block out base) (fun v => v ∈ block ∨ v ∈ out ∨ base ≤ v ∧ v < base + H.size) (fun v => v ∈ out ∨ base ≤ v ∧ v < base + H.size)
  eqs : ∀ (s : Asg (ZMod p)) (block out : List ℕ) (base : ℕ) (m : List Bool), block.length = 2 * H.d → out.length = H.d →
    block.map (val s) = m.map b2f → Eqs s (H.steps block out base) → Sat s (H.gates block out base)

theorem vlist_length (d : ℕ) (f : ℕ → ℕ) : (vlist d f).length = d := by simp [vlist]

theorem vlist_mem {d : ℕ} {f : ℕ → ℕ} {v : ℕ} : v ∈ vlist d f ↔ ∃ q < d, v = f q := by
  simp only [vlist, List.mem_map, List.mem_range]
  constructor
  · rintro ⟨q, h, rfl⟩; exact ⟨q, h, rfl⟩
  · rintro ⟨q, h, rfl⟩; exact ⟨q, h, rfl⟩

theorem vlist_map {s : Asg (ZMod p)} {d : ℕ} {f : ℕ → ℕ} : (vlist d f).map (val s) = (List.range d).map fun q => val s (f q) := by
  rw [vlist, List.map_map]; rfl

theorem vlist_congr {s : Asg (ZMod p)} {d : ℕ} {f g : ℕ → ℕ} (h : ∀ q < d, val s (f q) = val s (g q)) : (vlist d f).map (val s) = (vlist d g).map (val s) := by
  rw [vlist_map, vlist_map]
  exact List.map_congr_left fun q hq => h q (List.mem_range.1 hq)

theorem vlist_of_map {s : Asg (ZMod p)} {d : ℕ} {f g : ℕ → ℕ} (h : (vlist d f).map (val s) = (vlist d g).map (val s)) : ∀ q < d, val s (f q) = val s (g q) := by
  intro q hq
  have := congrArg (fun l => l[q]?) h
  simp only [vlist_map, List.getElem?_map, List.getElem?_range hq, Option.map_some, Option.some.injEq] at this
  exact this

/-! ### The selector -/

theorem sel_iff {s : Asg (ZMod p)} {d : ℕ} {input left right : ℕ → ℕ} {isRight : Lc (ZMod p)} {b : Bool} (hb : isRight.eval s = b2f b) :
    Sat s (selGates d input isRight left right) ↔ ∀ q < d, val s (input q) = val s (if b then right q else left q) := by
  rw [selGates, sat_map]
  constructor
  · intro h q hq
    have := h q (List.mem_range.2 hq)
    simp only [Constraint.Holds, eval_sub, eval_var, hb] at this
    cases b
    · simp at this
      simpa using (sub_eq_zero.1 this.symm)
    · simp at this
      simpa using this.symm
  · intro h q hq
    have := h q (List.mem_range.1 hq)
    simp only [Constraint.Holds, eval_sub, eval_var, hb]
    cases b
    · simp at this
      simp [this]
    · simp at this
      simp [this]

/-- The digest selector: with a bit as selector, the constraints say that the input is the right digest if the bit is one, and the left one otherwise. -/
theorem selector_iff {s : Asg (ZMod p)} {d : ℕ} {input left right : ℕ → ℕ} {isRight : Lc (ZMod p)} (hb : IsBit (isRight.eval s)) :
    Sat s (selGates d input isRight left right) ↔
      (isRight.eval s = 1 → ∀ q < d, val s (input q) = val s (right q)) ∧ (isRight.eval s = 0 → ∀ q < d, val s (input q) = val s (left q)) := by
  rcases hb with h | h
  · rw [sel_iff (b := false) (by simpa using h)]
    simp [h]
  · rw [sel_iff (b := true) (by simpa using h)]
    simp [h]

theorem digest_bits {s : Asg (ZMod p)} {d : ℕ} {v : ℕ → ℕ} (h : Sat s (digestGates d v)) : ∃ o : List Bool, (vlist d v).map (val s) = o.map b2f := by
  obtain ⟨bs, hbs⟩ := bits_exist (l := (vlist d v).map (val s)) (by
    intro x hx
    obtain ⟨j, hj, rfl⟩ := List.mem_map.1 hx
    obtain ⟨q, hq, rfl⟩ := vlist_mem.1 hj
    rw [digestGates, sat_map] at h
    have := (boolean_iff _ _).1 (h q (List.mem_range.2 hq))
    simpa using this)
  exact ⟨bs, hbs⟩

theorem digest_gates {s : Asg (ZMod p)} {d : ℕ} {v : ℕ → ℕ} (h : ∀ q < d, IsBit (val s (v q))) : Sat s (digestGates d v) := by
  rw [digestGates, sat_map]
  intro q hq
  rw [boolean_iff, eval_var]
  exact h q (List.mem_range.1 hq)

/-! ### Comparison of packed digests -/

/-- What the copying component compares: the chunks as numbers modulo `p`. -/
def PackedEq (p c : ℕ) (a b : List Bool) : Prop := ∀ i < numChunks a.length c, ((bnat (chunk a c i) : ℕ) : ZMod p) = ((bnat (chunk b c i) : ℕ) : ZMod p)

theorem chunk_sum {s : Asg (ZMod p)} {l : List ℕ} {a : List Bool} (h : l.map (val s) = a.map b2f) (c i : ℕ) :
    (packSum 1 (chunk (l.map (Lc.var (F := ZMod p))) c i)).eval s = ((bnat (chunk a c i) : ℕ) : ZMod p) := by
  rw [eval_packSum _ 1 _ (chunk a c i) (by rw [chunk_map, map_var_eval, ← chunk_map, h, chunk_map]), one_mul]

/-- The constraints of the copying component without the bit constraints. -/
theorem bitcopy_iff (k : BitCopy (ZMod p)) (s : Asg (ZMod p)) (a b : List Bool) (ha : k.source.map (val s) = a.map b2f) (hb : k.target.map (val s) = b.map b2f)
    (hl : k.source.length = k.target.length) :
    Sat s (k.gates false false) ↔ (∀ i < k.m, val s (k.packedSource i) = ((bnat (chunk a k.c i) : ℕ) : ZMod p)) ∧
      (∀ i < k.m, val s (k.packedTarget i) = ((bnat (chunk b k.c i) : ℕ) : ZMod p)) ∧ (k.doCopy.eval s = 0 ∨ PackedEq p k.c a b) := by
  have hm : numChunks (k.target.map (Lc.var (F := ZMod p))).length k.c = k.m := by rw [List.length_map, ← hl]; rfl
  have hm' : numChunks (k.source.map (Lc.var (F := ZMod p))).length k.c = k.m := by rw [List.length_map]; rfl
  have hla : numChunks a.length k.c = k.m := by
    rw [BitCopy.m]; congr 1; simpa using (congrArg List.length ha).symm
  rw [BitCopy.gates, sat_append, sat_append, multi_sat_iff, multi_sat_iff, hm, hm']
  simp only [chunk_sum ha, chunk_sum hb, eval_var, Bool.false_eq_true, false_implies, and_true, and_assoc]
  rw [PackedEq, hla]
  constructor
  · rintro ⟨h1, h2, h3⟩
    refine ⟨fun i hi => (h1 i hi).symm, fun i hi => (h2 i hi).symm, ?_⟩
    rw [or_iff_not_imp_left]
    intro hd i hi
    rw [copyGates, sat_map] at h3
    have := h3 i (List.mem_range.2 hi)
    simp only [Constraint.Holds, eval_sub, eval_var, eval_const, mul_eq_zero, hd, false_or, sub_eq_zero] at this
    rw [h1 i hi, h2 i hi, this]
  · rintro ⟨h1, h2, h3⟩
    refine ⟨fun i hi => (h1 i hi).symm, fun i hi => (h2 i hi).symm, ?_⟩
    rw [copyGates, sat_map]
    intro i hi
    have hi := List.mem_range.1 hi
    simp only [Constraint.Holds, eval_sub, eval_var, eval_const, h1 i hi, h2 i hi]
    rcases h3 with h3 | h3
    · rw [h3, zero_mul]
    · rw [h3 i hi, sub_self, mul_zero]

/-- If chunks fit in the field, comparing packed digests is comparing digests. -/
theorem packedEq_small {c : ℕ} (hc : 0 < c) (hp' : 2 ^ c ≤ p) {a b : List Bool} (hl : a.length = b.length) (h : PackedEq p c a b) : a = b := by
  refine list_eq_of_chunks hc hl fun i hi => ?_
  have hlen : (chunk a c i).length = (chunk b c i).length := by simp [chunk, hl]
  apply bnat_inj hlen
  have e := h i hi
  have h1 : bnat (chunk a c i) < p := lt_of_lt_of_le (bnat_lt _) (le_trans (Nat.pow_le_pow_right (by norm_num) (chunk_length _ _ _)) hp')
  have h2 : bnat (chunk b c i) < p := lt_of_lt_of_le (bnat_lt _) (le_trans (Nat.pow_le_pow_right (by norm_num) (chunk_length _ _ _)) hp')
  rw [ZMod.natCast_eq_natCast_iff] at e
  exact Nat.ModEq.eq_of_lt_of_lt e h1 h2

/-! ### Soundness -/

namespace Read
variable {k : Read p} {rel : List Bool → List Bool → Prop}

/-- The sibling `n` layers above the leaf is in slot `!addr n` of layer `depth - 1 - n`. -/
def sibVars (k : Read p) (addr : ℕ → Bool) (n : ℕ) : List ℕ := vlist k.hash.d (k.path (k.depth - 1 - n) (!addr n))

/-- The node `n` layers above the leaf: the leaf or the output of a hasher. -/
def nodeVars (k : Read p) (n : ℕ) : List ℕ := if n = 0 then vlist k.hash.d k.leaf else vlist k.hash.d (k.out (k.depth - n))

/-- The input of the propagator of layer `depth - 1 - n`. -/
theorem inp_node (n : ℕ) (hn : n < k.depth) : vlist k.hash.d (k.inp (k.depth - 1 - n)) = k.nodeVars n := by
  unfold inp nodeVars
  by_cases h : n = 0
  · rw [if_neg (by omega), if_pos h]
  · rw [if_pos (by omega), if_neg h, show k.depth - 1 - n + 1 = k.depth - n by omega]

/-- The nodes from the leaf to the computed root, when every input is the digest of the path on the side `addr`. -/
theorem nodes_sound_of_sel (L : Law k.hash rel) (s : Asg (ZMod p)) (addr : ℕ → Bool) (sib : ℕ → List Bool)
    (hs : ∀ n < k.depth, (k.sibVars addr n).map (val s) = (sib n).map b2f) (leaf : List Bool) (hleaf : (vlist k.hash.d k.leaf).map (val s) = leaf.map b2f)
    (hh : ∀ i < k.depth, Sat s (k.hash.gates (k.block i) (vlist k.hash.d (k.out i)) (k.hBase i)))
    (hsel : ∀ n < k.depth, ∀ q < k.hash.d, val s (k.inp (k.depth - 1 - n) q) = val s (if addr n then k.path (k.depth - 1 - n) true q else k.path (k.depth - 1 - n) false q))
    (n : ℕ) (hn : n ≤ k.depth) :
    ∃ x : List Bool, (k.nodeVars n).map (val s) = x.map b2f ∧ IsNode rel addr sib leaf n x := by
  induction n with
  | zero => exact ⟨leaf, hleaf, rfl⟩
  | succ n ih =>
    obtain ⟨y, hy, hnode⟩ := ih (by omega)
    have hi : k.depth - 1 - n < k.depth := by omega
    have hsl := hsel n (by omega)
    have hblock : (k.block (k.depth - 1 - n)).map (val s) = (if addr n then sib n ++ y else y ++ sib n).map b2f := by
      have hsn := hs n (by omega)
      unfold sibVars at hsn
      rw [← inp_node n (by omega)] at hy
      rw [block, List.map_append]
      cases hbn : addr n
      · rw [hbn] at hsn hsl
        simp only [Bool.false_eq_true, if_false, Bool.not_false, List.map_append] at hsn hsl ⊢
        rw [hsn, ← hy]
        congr 1
        exact vlist_congr fun q hq => (hsl q hq).symm
      · rw [hbn] at hsn hsl
        simp only [if_true, Bool.not_true, List.map_append] at hsn hsl ⊢
        rw [hsn, ← hy]
        congr 1
        exact vlist_congr fun q hq => (hsl q hq).symm
    obtain ⟨o, ho, hr⟩ := L.sound s _ _ _ _ (by rw [block, List.length_append, vlist_length, vlist_length]; omega) (vlist_length _ _) hblock (hh _ hi)
    refine ⟨o, ?_, y, hnode, hr⟩
    rw [nodeVars, if_neg (by omega), show k.depth - (n + 1) = k.depth - 1 - n by omega]
    exact ho

/-- The nodes from the leaf to the computed root. -/
theorem nodes_sound (L : Law k.hash rel) (s : Asg (ZMod p)) (addr : ℕ → Bool) (ha : ∀ n < k.depth, (k.address n).eval s = b2f (addr n)) (sib : ℕ → List Bool)
    (hs : ∀ n < k.depth, (k.sibVars addr n).map (val s) = (sib n).map b2f) (leaf : List Bool) (hleaf : (vlist k.hash.d k.leaf).map (val s) = leaf.map b2f)
    (hh : ∀ i < k.depth, Sat s (k.hash.gates (k.block i) (vlist k.hash.d (k.out i)) (k.hBase i)))
    (hsel : ∀ i < k.depth, Sat s (selGates k.hash.d (k.inp i) (k.addr i) (k.path i false) (k.path i true))) (n : ℕ) (hn : n ≤ k.depth) :
    ∃ x : List Bool, (k.nodeVars n).map (val s) = x.map b2f ∧ IsNode rel addr sib leaf n x := by
  refine nodes_sound_of_sel L s addr sib hs leaf hleaf hh (fun n hn q hq => ?_) n hn
  have hb : (k.addr (k.depth - 1 - n)).eval s = b2f (addr n) := by
    rw [Read.addr, show k.depth - 1 - (k.depth - 1 - n) = n by omega]; exact ha n (by omega)
  exact (sel_iff hb).1 (hsel _ (by omega)) q hq

/-- The digest selector with bits as input, left and right digest: whatever the selector is, the input is the left or the right digest, and the one that a
selector that is a bit names. -/
theorem sel_any {s : Asg (ZMod p)} {d : ℕ} {input left right : ℕ → ℕ} {isRight : Lc (ZMod p)} (hi : ∀ q < d, IsBit (val s (input q)))
    (hl : ∀ q < d, IsBit (val s (left q))) (hr : ∀ q < d, IsBit (val s (right q))) (h : Sat s (selGates d input isRight left right)) :
    ∃ b : Bool, (∀ q < d, val s (input q) = val s (if b then right q else left q)) ∧ ∀ b', isRight.eval s = b2f b' → b = b' := by
  by_cases hb : ∃ b : Bool, isRight.eval s = b2f b
  · obtain ⟨b, hb⟩ := hb
    exact ⟨b, (sel_iff hb).1 h, fun b' hb' => b2f_inj (hb.symm.trans hb')⟩
  · have hb' : ∀ b : Bool, isRight.eval s ≠ b2f b := fun b e => hb ⟨b, e⟩
    refine ⟨false, fun q hq => ?_, fun b' e => absurd e (hb' b')⟩
    rw [selGates, sat_map] at h
    have e := h q (List.mem_range.2 hq)
    simp only [Constraint.Holds, eval_sub, eval_var] at e
    have n0 := hb' false
    have n1 := hb' true
    simp only [b2f_false, b2f_true] at n0 n1
    show val s (input q) = val s (left q)
    rcases hi q hq with x | x <;> rcases hl q hq with y | y <;> rcases hr q hq with z | z <;> rw [x, y, z] at e <;> rw [x, y]
    · exact absurd (by linear_combination -e) n1
    · linear_combination -e
    · linear_combination -e
    · exact absurd (by linear_combination e) n1

/-- What every accepted assignment has: the leaf and the siblings are digests, and the root and the node computed from leaf, address and siblings agree
as packed numbers modulo `p`, or the read is declared not successful. -/
theorem read_sound_partial (k : Read p) (L : Law k.hash rel) (hd : 0 < k.depth) (s : Asg (ZMod p)) (addr : ℕ → Bool)
    (ha : ∀ n < k.depth, (k.address n).eval s = b2f (addr n)) (root : List Bool) (hroot : (vlist k.hash.d k.root).map (val s) = root.map b2f)
    (hpath : Sat s (pathGates k.hash.d k.depth k.path)) (h : Sat s k.gates) :
    ∃ (leaf : List Bool) (sib : ℕ → List Bool) (x : List Bool), (vlist k.hash.d k.leaf).map (val s) = leaf.map b2f ∧
      (∀ n < k.depth, (k.sibVars addr n).map (val s) = (sib n).map b2f) ∧ x.length = root.length ∧ IsNode rel addr sib leaf k.depth x ∧
      (k.success.eval s = 0 ∨ PackedEq p k.c x root) := by
  simp only [gates, sat_append, sat_flatMap, List.mem_range] at h
  obtain ⟨⟨hh, hsel⟩, hc⟩ := h
  have hdig : ∀ i < k.depth, ∀ b, ∃ o : List Bool, (vlist k.hash.d (k.path i b)).map (val s) = o.map b2f := by
    intro i hi b
    simp only [pathGates, sat_flatMap, sat_append, List.mem_range] at hpath
    cases b
    · exact digest_bits (hpath i hi).1
    · exact digest_bits (hpath i hi).2
  have hsib : ∀ n, ∃ o : List Bool, n < k.depth → (k.sibVars addr n).map (val s) = o.map b2f := by
    intro n
    by_cases hn : n < k.depth
    · obtain ⟨o, ho⟩ := hdig (k.depth - 1 - n) (by omega) (!addr n)
      exact ⟨o, fun _ => ho⟩
    · exact ⟨[], fun e => absurd e hn⟩
  choose sib hsib using hsib
  obtain ⟨leaf, hleaf⟩ : ∃ leaf : List Bool, (vlist k.hash.d k.leaf).map (val s) = leaf.map b2f := by
    have hb : (k.addr (k.depth - 1)).eval s = b2f (addr 0) := by rw [Read.addr, show k.depth - 1 - (k.depth - 1) = 0 by omega]; exact ha 0 hd
    have := (sel_iff hb).1 (hsel _ (by omega))
    rw [inp, if_neg (by omega)] at this
    obtain ⟨o, ho⟩ := hdig (k.depth - 1) (by omega) (addr 0)
    refine ⟨o, ?_⟩
    rw [← ho]
    refine vlist_congr fun q hq => ?_
    rw [this q hq]
    cases addr 0 <;> rfl
  obtain ⟨x, hx, hn⟩ := nodes_sound L s addr ha sib hsib leaf hleaf hh hsel k.depth le_rfl
  rw [nodeVars, if_neg (by omega), show k.depth - k.depth = 0 by omega] at hx
  refine ⟨leaf, sib, x, hleaf, hsib, ?_, hn, ((bitcopy_iff k.check s x root hx hroot (by simp [check, vlist_length])).1 hc).2.2⟩
  have h1 := congrArg List.length hx
  have h2 := congrArg List.length hroot
  simp only [List.length_map, vlist_length] at h1 h2
  omega

/-- If the chunks fit in the field: the root is the node computed from leaf, address and siblings, or the read is declared not successful. -/
theorem read_sound_small_chunks (k : Read p) (L : Law k.hash rel) (hd : 0 < k.depth) (hc : 0 < k.c) (hp' : 2 ^ k.c ≤ p) (s : Asg (ZMod p)) (addr : ℕ → Bool)
    (ha : ∀ n < k.depth, (k.address n).eval s = b2f (addr n)) (root : List Bool) (hroot : (vlist k.hash.d k.root).map (val s) = root.map b2f)
    (hpath : Sat s (pathGates k.hash.d k.depth k.path)) (h : Sat s k.gates) :
    ∃ (leaf : List Bool) (sib : ℕ → List Bool), (vlist k.hash.d k.leaf).map (val s) = leaf.map b2f ∧
      (∀ n < k.depth, (k.sibVars addr n).map (val s) = (sib n).map b2f) ∧ (k.success.eval s = 0 ∨ IsNode rel addr sib leaf k.depth root) := by
  obtain ⟨leaf, sib, x, h1, h2, hl, h3, h4⟩ := read_sound_partial k L hd s addr ha root hroot hpath h
  refine ⟨leaf, sib, h1, h2, h4.imp_right fun h4 => ?_⟩
  rw [← packedEq_small hc hp' hl h4]
  exact h3

/-- Nothing has to be known about the address if the leaf is a digest: there is an address (the given one, where it is a bit) for which the computed root is
the node above the leaf, and it agrees with the root as packed numbers modulo `p`, or the read is declared not successful. -/
theorem read_sound_any_address (k : Read p) (L : Law k.hash rel) (hd : 0 < k.depth) (s : Asg (ZMod p)) (leaf root : List Bool)
    (hleaf : (vlist k.hash.d k.leaf).map (val s) = leaf.map b2f) (hroot : (vlist k.hash.d k.root).map (val s) = root.map b2f)
    (hpath : Sat s (pathGates k.hash.d k.depth k.path)) (h : Sat s k.gates) :
    ∃ (addr : ℕ → Bool) (sib : ℕ → List Bool) (x : List Bool), (∀ n < k.depth, ∀ b, (k.address n).eval s = b2f b → addr n = b) ∧
      (∀ n < k.depth, (k.sibVars addr n).map (val s) = (sib n).map b2f) ∧ x.length = root.length ∧ IsNode rel addr sib leaf k.depth x ∧
      (k.success.eval s = 0 ∨ PackedEq p k.c x root) := by
  simp only [gates, sat_append, sat_flatMap, List.mem_range] at h
  obtain ⟨⟨hh, hsel⟩, hc⟩ := h
  have hdig : ∀ i < k.depth, ∀ b, ∃ o : List Bool, (vlist k.hash.d (k.path i b)).map (val s) = o.map b2f := by
    intro i hi b
    simp only [pathGates, sat_flatMap, sat_append, List.mem_range] at hpath
    cases b
    · exact digest_bits (hpath i hi).1
    · exact digest_bits (hpath i hi).2
  have bits : ∀ {f : ℕ → ℕ} {o : List Bool}, (vlist k.hash.d f).map (val s) = o.map b2f → ∀ q < k.hash.d, IsBit (val s (f q)) := by
    intro f o ho q hq
    have hm : val s (f q) ∈ (vlist k.hash.d f).map (val s) := List.mem_map_of_mem (vlist_mem.2 ⟨q, hq, rfl⟩)
    rw [ho] at hm
    obtain ⟨w, -, hw⟩ := List.mem_map.1 hm
    rw [← hw]; exact isBit_b2f w
  have hout : ∀ i < k.depth, ∃ o : List Bool, (vlist k.hash.d (k.out i)).map (val s) = o.map b2f := by
    intro i hi
    obtain ⟨o1, h1⟩ := hdig i hi false
    obtain ⟨o2, h2⟩ := hdig i hi true
    obtain ⟨o, ho, -⟩ := L.sound s (k.block i) _ _ (o1 ++ o2) (by rw [block, List.length_append, vlist_length, vlist_length]; omega) (vlist_length _ _)
      (by rw [block, List.map_append, List.map_append, h1, h2]) (hh i hi)
    exact ⟨o, ho⟩
  have hinp : ∀ i < k.depth, ∀ q < k.hash.d, IsBit (val s (k.inp i q)) := by
    intro i hi q hq
    unfold inp
    split_ifs with hlt
    · obtain ⟨o, ho⟩ := hout (i + 1) (by omega)
      exact bits ho q hq
    · exact bits hleaf q hq
  have hex : ∀ n, ∃ b : Bool, n < k.depth → (∀ q < k.hash.d, val s (k.inp (k.depth - 1 - n) q) =
      val s (if b then k.path (k.depth - 1 - n) true q else k.path (k.depth - 1 - n) false q)) ∧ ∀ b', (k.address n).eval s = b2f b' → b = b' := by
    intro n
    by_cases hn : n < k.depth
    · have hi : k.depth - 1 - n < k.depth := by omega
      obtain ⟨o1, h1⟩ := hdig _ hi false
      obtain ⟨o2, h2⟩ := hdig _ hi true
      obtain ⟨b, hb⟩ := sel_any (hinp _ hi) (bits h1) (bits h2) (hsel _ hi)
      rw [Read.addr, show k.depth - 1 - (k.depth - 1 - n) = n by omega] at hb
      exact ⟨b, fun _ => hb⟩
    · exact ⟨false, fun e => absurd e hn⟩
  choose addr haddr using hex
  have hsib : ∀ n, ∃ o : List Bool, n < k.depth → (k.sibVars addr n).map (val s) = o.map b2f := by
    intro n
    by_cases hn : n < k.depth
    · obtain ⟨o, ho⟩ := hdig (k.depth - 1 - n) (by omega) (!addr n)
      exact ⟨o, fun _ => ho⟩
    · exact ⟨[], fun e => absurd e hn⟩
  choose sib hsib using hsib
  obtain ⟨x, hx, hn⟩ := nodes_sound_of_sel L s addr sib hsib leaf hleaf hh (fun n hn => (haddr n hn).1) k.depth le_rfl
  rw [nodeVars, if_neg (by omega), show k.depth - k.depth = 0 by omega] at hx
  refine ⟨addr, sib, x, fun n hn => (haddr n hn).2, hsib, ?_, hn, ((bitcopy_iff k.check s x root hx hroot (by simp [check, vlist_length])).1 hc).2.2⟩
  have h1 := congrArg List.length hx
  have h2 := congrArg List.length hroot
  simp only [List.length_map, vlist_length] at h1 h2
  omega

/-! ### Completeness -/

theorem lin_lt {d a n q : ℕ} (hq : q < d) (h : a < n) : d * a + q < d * n := by
  have : d * (a + 1) ≤ d * n := Nat.mul_le_mul_left d h
  rw [Nat.mul_succ] at this
  omega

theorem lin_inj {d a b q r : ℕ} (hq : q < d) (hr : r < d) (h : d * a + q = d * b + r) : a = b ∧ q = r := by
  rcases lt_trichotomy a b with h' | h' | h'
  · have := lin_lt hq h'; omega
  · subst h'; exact ⟨rfl, by omega⟩
  · have := lin_lt hr h'; omega

/-- The variables of the path. -/
def IsPath (k : Read p) (v : ℕ) : Prop := ∃ i < k.depth, ∃ b, ∃ q < k.hash.d, v = k.path i b q

/-- The variables of the root. -/
def IsRootVar (k : Read p) (v : ℕ) : Prop := ∃ q < k.hash.d, v = k.root q

/-- How the component is put together: the variables of path, leaf and root are different and allocated before, address and success are computed from others. -/
structure WF (k : Read p) : Prop where
  base : k.base ≠ 0
  depth : 0 < k.depth
  chunk : 0 < k.c
  pathVar : ∀ i < k.depth, ∀ b, ∀ q < k.hash.d, k.path i b q ≠ 0 ∧ k.path i b q < k.base
  pathInj : ∀ i < k.depth, ∀ b, ∀ q < k.hash.d, ∀ i' < k.depth, ∀ b', ∀ q' < k.hash.d, k.path i b q = k.path i' b' q' → i = i' ∧ b = b' ∧ q = q'
  leafVar : ∀ q < k.hash.d, k.leaf q < k.base ∧ ¬ k.IsPath (k.leaf q) ∧ ¬ k.IsRootVar (k.leaf q)
  rootVar : ∀ q < k.hash.d, k.root q ≠ 0 ∧ k.root q < k.base ∧ ¬ k.IsPath (k.root q)
  rootInj : ∀ q < k.hash.d, ∀ q' < k.hash.d, k.root q = k.root q' → q = q'
  addressUse : ∀ n < k.depth, (k.address n).Uses fun v => v < k.base ∧ ¬ k.IsPath v ∧ ¬ k.IsRootVar v
  successUse : k.success.Uses fun v => v < k.base ∧ ¬ k.IsPath v ∧ ¬ k.IsRootVar v

/-- The assignment of the layer `n` layers above the leaf, when its address bit is `b`. -/
def lvl (k : Read p) (a : ℕ → Bool) (n : ℕ) : List (Step (ZMod p)) :=
  ((List.range k.hash.d).map fun q => (k.path (k.depth - 1 - n) (a n) q, fun s => val s (k.inp (k.depth - 1 - n) q))) ++
    k.hash.steps (k.block (k.depth - 1 - n)) (vlist k.hash.d (k.out (k.depth - 1 - n))) (k.hBase (k.depth - 1 - n))

def opos (k : Read p) (i : ℕ) : ℕ := if i = 0 then k.depth - 1 else i - 1

theorem out_eq (i q : ℕ) : k.out i q = k.base + (k.hash.d * k.opos i + q) := by
  unfold out opos; split_ifs <;> omega

theorem opos_lt {i : ℕ} (h : i < k.depth) : k.opos i < k.depth := by unfold opos; split_ifs <;> omega

theorem opos_inj {i j : ℕ} (hi : i < k.depth) (hj : j < k.depth) (h : k.opos i = k.opos j) : i = j := by
  unfold opos at h; split_ifs at h <;> omega

theorem out_lt {i q : ℕ} (hi : i < k.depth) (hq : q < k.hash.d) : k.out i q < k.base + k.hash.d * k.depth := by
  have := lin_lt hq (opos_lt hi); rw [out_eq]; omega

theorem out_ge (i q : ℕ) : k.base ≤ k.out i q := by rw [out_eq]; omega

theorem out_inj {i j q r : ℕ} (hi : i < k.depth) (hj : j < k.depth) (hq : q < k.hash.d) (hr : r < k.hash.d) (h : k.out i q = k.out j r) : i = j ∧ q = r := by
  rw [out_eq, out_eq] at h
  obtain ⟨h1, h2⟩ := lin_inj hq hr (Nat.add_left_cancel h)
  exact ⟨opos_inj hi hj h1, h2⟩

theorem hBase_ge (i : ℕ) : k.base + k.hash.d * k.depth ≤ k.hBase i := by unfold hBase; omega

theorem hBase_mono {i j : ℕ} (h : i < j) : k.hBase i + k.hash.size ≤ k.hBase j := by
  unfold hBase
  have : k.hash.size * (i + 1) ≤ k.hash.size * j := Nat.mul_le_mul_left _ h
  rw [Nat.mul_succ] at this
  omega

/-- What the layer writes. -/
def lvlT (k : Read p) (a : ℕ → Bool) (n v : ℕ) : Prop :=
  (∃ q < k.hash.d, v = k.path (k.depth - 1 - n) (a n) q) ∨ (∃ q < k.hash.d, v = k.out (k.depth - 1 - n) q) ∨
    k.hBase (k.depth - 1 - n) ≤ v ∧ v < k.hBase (k.depth - 1 - n) + k.hash.size

/-- What the layer writes or reads. -/
def lvlU (k : Read p) (a : ℕ → Bool) (n v : ℕ) : Prop :=
  k.lvlT a n v ∨ (∃ q < k.hash.d, v = k.inp (k.depth - 1 - n) q) ∨ (∃ q < k.hash.d, v = k.path (k.depth - 1 - n) (!a n) q)

theorem inp_cases (i q : ℕ) : (i + 1 < k.depth ∧ k.inp i q = k.out (i + 1) q) ∨ k.inp i q = k.leaf q := by
  unfold inp
  split_ifs with h
  · exact Or.inl ⟨by omega, rfl⟩
  · exact Or.inr rfl

theorem block_mem {i v : ℕ} : v ∈ k.block i ↔ ∃ b, ∃ q < k.hash.d, v = k.path i b q := by
  rw [block, List.mem_append, vlist_mem, vlist_mem, Bool.exists_bool]

theorem fits (h : k.WF) {i : ℕ} (hi : i < k.depth) : Fits k.hash.d (k.block i) (vlist k.hash.d (k.out i)) (k.hBase i) := by
  have hb := k.hBase_ge i
  have h0 := h.base
  refine ⟨by rw [block, List.length_append, vlist_length, vlist_length]; omega, vlist_length _ _, ?_, ?_, ?_⟩
  · rw [vlist]
    exact List.Nodup.map_on (fun q hq r hr e => (out_inj hi hi (List.mem_range.1 hq) (List.mem_range.1 hr) e).2) List.nodup_range
  · intro v hv
    obtain ⟨q, hq, rfl⟩ := vlist_mem.1 hv
    have := out_lt hi hq
    have := k.out_ge i q
    omega
  · intro v hv
    obtain ⟨b, q, hq, rfl⟩ := block_mem.1 hv
    have := h.pathVar i hi b q hq
    refine ⟨by omega, fun hv => ?_⟩
    obtain ⟨r, hr, e⟩ := vlist_mem.1 hv
    have := k.out_ge i r
    omega

theorem lvl_blk (L : Law k.hash rel) (h : k.WF) (a : ℕ → Bool) {n : ℕ} (hn : n < k.depth) : Blk (k.lvl a n) (k.lvlU a n) (k.lvlT a n) := by
  have hi : k.depth - 1 - n < k.depth := by omega
  have hb := k.hBase_ge (k.depth - 1 - n)
  have b1 := Blk.mapLoop (p := p) (f := fun q => (k.path (k.depth - 1 - n) (a n) q, fun s => val s (k.inp (k.depth - 1 - n) q))) k.hash.d
    (fun v => ∃ q < k.hash.d, v = k.inp (k.depth - 1 - n) q) (fun q hq => (h.pathVar _ hi _ q hq).1)
    (fun q hq r hr e => (h.pathInj _ hi _ q hq _ hi _ r hr e).2.2) (fun q hq => reads_val ⟨q, hq, rfl⟩) (by
      rintro q hq ⟨r, hr, e⟩
      rcases inp_cases (k := k) (k.depth - 1 - n) r with ⟨h1, h2⟩ | h2
      · have := h.pathVar _ hi (a n) q hq
        have := k.out_ge (k.depth - 1 - n + 1) r
        omega
      · exact (h.leafVar r hr).2.1 ⟨_, hi, a n, q, hq, (e.trans h2).symm⟩)
  refine (Blk.append b1 (L.blk _ _ _ (fits h hi)) ?_).mono ?_ ?_
  · rintro v hv hv2
    have hlt : ∀ q < k.hash.d, k.path (k.depth - 1 - n) (a n) q < k.base := fun q hq => (h.pathVar _ hi _ q hq).2
    have hnot : ¬ (k.base ≤ v) ∨ ∃ q < k.hash.d, v = k.inp (k.depth - 1 - n) q := by
      rcases hv with ⟨q, hq, rfl⟩ | ⟨q, hq, rfl⟩
      · exact Or.inr ⟨q, hq, rfl⟩
      · have := hlt q hq; exact Or.inl (by omega)
    rcases hnot with hnot | ⟨q, hq, rfl⟩
    · rcases hv2 with hv2 | hv2
      · obtain ⟨r, hr, rfl⟩ := vlist_mem.1 hv2
        exact hnot (k.out_ge _ _)
      · exact hnot (by omega)
    · rcases inp_cases (k := k) (k.depth - 1 - n) q with ⟨h1, h2⟩ | h2
      · rcases hv2 with hv2 | hv2
        · obtain ⟨r, hr, e⟩ := vlist_mem.1 hv2
          have := (out_inj h1 hi hq hr (h2.symm.trans e)).1
          omega
        · have := out_lt h1 hq
          omega
      · have h3 := (h.leafVar q hq).1
        rcases hv2 with hv2 | hv2
        · obtain ⟨r, hr, e⟩ := vlist_mem.1 hv2
          have := k.out_ge (k.depth - 1 - n) r
          omega
        · omega
  · rintro v ((⟨q, hq, rfl⟩ | ⟨q, hq, rfl⟩) | hv | hv | hv)
    · exact Or.inr (Or.inl ⟨q, hq, rfl⟩)
    · exact Or.inl (Or.inl ⟨q, hq, rfl⟩)
    · obtain ⟨b, q, hq, rfl⟩ := block_mem.1 hv
      by_cases e : b = a n
      · subst e; exact Or.inl (Or.inl ⟨q, hq, rfl⟩)
      · refine Or.inr (Or.inr ⟨q, hq, ?_⟩)
        rw [show b = !a n by cases b <;> cases h' : a n <;> simp_all]
    · exact Or.inl (Or.inr (Or.inl (vlist_mem.1 hv)))
    · exact Or.inl (Or.inr (Or.inr hv))
  · rintro v (⟨q, hq, rfl⟩ | hv | hv)
    · exact Or.inl ⟨q, hq, rfl⟩
    · exact Or.inr (Or.inl (vlist_mem.1 hv))
    · exact Or.inr (Or.inr hv)

/-- Later layers do not write what earlier ones use. -/
theorem lvl_disj (h : k.WF) (a : ℕ → Bool) {n m : ℕ} (hnm : n < m) (hm : m < k.depth) (v : ℕ) (hu : k.lvlU a n v) : ¬ k.lvlT a m v := by
  have hi : k.depth - 1 - n < k.depth := by omega
  have hj : k.depth - 1 - m < k.depth := by omega
  have hlt : k.depth - 1 - m < k.depth - 1 - n := by omega
  have hb := k.hBase_ge (k.depth - 1 - m)
  have hb' := k.hBase_ge (k.depth - 1 - n)
  have hbm := k.hBase_mono hlt
  -- a path variable
  have path : ∀ b, ∀ q < k.hash.d, ¬ k.lvlT a m (k.path (k.depth - 1 - n) b q) := by
    rintro b q hq (⟨r, hr, e⟩ | ⟨r, hr, e⟩ | e)
    · have := (h.pathInj _ hi _ q hq _ hj _ r hr e).1
      omega
    · have := (h.pathVar _ hi b q hq).2
      have := k.out_ge (k.depth - 1 - m) r
      omega
    · have := (h.pathVar _ hi b q hq).2
      omega
  have out : ∀ i < k.depth, k.depth - 1 - m < i → ∀ q < k.hash.d, ¬ k.lvlT a m (k.out i q) := by
    rintro i hi' hne q hq (⟨r, hr, e⟩ | ⟨r, hr, e⟩ | e)
    · have := (h.pathVar _ hj (a m) r hr).2
      have := k.out_ge i q
      omega
    · have := (out_inj hi' hj hq hr e).1
      omega
    · have := out_lt hi' hq
      omega
  rcases hu with (⟨q, hq, rfl⟩ | ⟨q, hq, rfl⟩ | hv) | ⟨q, hq, rfl⟩ | ⟨q, hq, rfl⟩
  · exact path _ q hq
  · exact out _ hi hlt q hq
  · rintro (⟨r, hr, e⟩ | ⟨r, hr, e⟩ | e)
    · have := (h.pathVar _ hj (a m) r hr).2
      omega
    · have := out_lt hj hr
      omega
    · omega
  · rcases inp_cases (k := k) (k.depth - 1 - n) q with ⟨h1, h2⟩ | h2
    · rw [h2]; exact out _ h1 (by omega) q hq
    · rw [h2]
      have hl := h.leafVar q hq
      rintro (⟨r, hr, e⟩ | ⟨r, hr, e⟩ | e)
      · exact hl.2.1 ⟨_, hj, a m, r, hr, e⟩
      · have := k.out_ge (k.depth - 1 - m) r
        omega
      · omega
  · exact path _ q hq

/-- All layers. -/
def lvls (k : Read p) (a : ℕ → Bool) (n : ℕ) : List (Step (ZMod p)) := (List.range n).flatMap (k.lvl a)

theorem lvls_blk (L : Law k.hash rel) (h : k.WF) (a : ℕ → Bool) (n : ℕ) (hn : n ≤ k.depth) :
    Blk (k.lvls a n) (fun v => ∃ i < n, k.lvlU a i v) (fun v => ∃ i < n, k.lvlT a i v) :=
  Blk.loop n (k.lvlU a) (k.lvlT a) (fun i hi => lvl_blk L h a (by omega)) fun i j hij hj => lvl_disj h a hij (by omega)

/-- No layer writes a variable from before that is not on the path. -/
theorem lvlT_old (a : ℕ → Bool) {n v : ℕ} (hn : n < k.depth) (hv : v < k.base) (hp' : ¬ k.IsPath v) : ¬ k.lvlT a n v := by
  have hb := k.hBase_ge (k.depth - 1 - n)
  rintro (⟨r, hr, e⟩ | ⟨r, hr, e⟩ | e)
  · exact hp' ⟨_, by omega, a n, r, hr, e⟩
  · have := k.out_ge (k.depth - 1 - n) r
    omega
  · omega

theorem copyLoop_run (src tgt : ℕ → ℕ) (s : Asg (ZMod p)) (n : ℕ) : copyLoop src tgt s n = run ((List.range n).map fun q => (tgt q, fun s => val s (src q))) s := by
  induction n with
  | zero => rfl
  | succ n ih => rw [List.range_succ, List.map_append, run_append, ← ih]; rfl

/-- The loop over the layers is a straight-line assignment. -/
theorem layers_run (L : Law k.hash rel) (h : k.WF) (s : Asg (ZMod p)) (a : ℕ → Bool) (ha : ∀ n < k.depth, (k.address n).eval s = b2f (a n)) (n : ℕ)
    (hn : n ≤ k.depth) : k.layers s n = run (k.lvls a n) s := by
  induction n with
  | zero => rfl
  | succ n ih =>
    have e : k.lvls a (n + 1) = k.lvls a n ++ k.lvl a n := by simp [lvls, List.range_succ]
    rw [layers, ih (by omega), e, run_append, layer, lvl, run_append, ← copyLoop_run]
    congr 1
    have hev : (k.addr (k.depth - 1 - n)).eval (run (k.lvls a n) s) = b2f (a n) := by
      rw [Read.addr, show k.depth - 1 - (k.depth - 1 - n) = n by omega, ← ha n (by omega)]
      refine eval_agree (h.addressUse n (by omega)) fun v hv => run_keep _ _ (lvls_blk L h a n (by omega)).writes ?_
      rintro ⟨i, hi, hT⟩
      exact lvlT_old a (by omega) hv.1 hv.2.1 hT
    rw [selAssign, hev]
    cases a n <;> simp

/-- If the equations of the steps hold, so do the constraints of hashers and propagators. -/
theorem gates_of_eqs (L : Law k.hash rel) (t : Asg (ZMod p)) (a : ℕ → Bool) (ha : ∀ n < k.depth, (k.address n).eval t = b2f (a n)) (sib : ℕ → List Bool)
    (hs : ∀ n < k.depth, (k.sibVars a n).map (val t) = (sib n).map b2f) (leaf : List Bool) (hleaf : (vlist k.hash.d k.leaf).map (val t) = leaf.map b2f)
    (he : Eqs t (k.lvls a k.depth)) (n : ℕ) (hn : n ≤ k.depth) :
    (∃ x : List Bool, (k.nodeVars n).map (val t) = x.map b2f) ∧
      ∀ m < n, Sat t (k.hash.gates (k.block (k.depth - 1 - m)) (vlist k.hash.d (k.out (k.depth - 1 - m))) (k.hBase (k.depth - 1 - m))) ∧
        Sat t (selGates k.hash.d (k.inp (k.depth - 1 - m)) (k.addr (k.depth - 1 - m)) (k.path (k.depth - 1 - m) false) (k.path (k.depth - 1 - m) true)) ∧
        Sat t (digestGates k.hash.d (k.path (k.depth - 1 - m) false)) ∧ Sat t (digestGates k.hash.d (k.path (k.depth - 1 - m) true)) := by
  induction n with
  | zero => exact ⟨⟨leaf, hleaf⟩, by simp⟩
  | succ n ih =>
    obtain ⟨⟨y, hy⟩, hm⟩ := ih (by omega)
    rw [lvls, eqs_flatMap] at he
    obtain ⟨e1, e2⟩ := eqs_append.1 (he n (List.mem_range.2 (by omega)))
    rw [eqs_map] at e1
    have hcopy : ∀ q < k.hash.d, val t (k.path (k.depth - 1 - n) (a n) q) = val t (k.inp (k.depth - 1 - n) q) := fun q hq => e1 q (List.mem_range.2 hq)
    have hb : (k.addr (k.depth - 1 - n)).eval t = b2f (a n) := by
      rw [Read.addr, show k.depth - 1 - (k.depth - 1 - n) = n by omega]; exact ha n (by omega)
    have hsel := (sel_iff (left := k.path (k.depth - 1 - n) false) (right := k.path (k.depth - 1 - n) true) (d := k.hash.d)
      (input := k.inp (k.depth - 1 - n)) hb).2 (by
        intro q hq
        rw [← hcopy q hq]
        cases a n <;> rfl)
    have hsn := hs n (by omega)
    unfold sibVars at hsn
    rw [← inp_node n (by omega)] at hy
    have hy' : (vlist k.hash.d (k.path (k.depth - 1 - n) (a n))).map (val t) = y.map b2f := by rw [← hy]; exact vlist_congr hcopy
    have bits : ∀ b, ∀ q < k.hash.d, IsBit (val t (k.path (k.depth - 1 - n) b q)) := by
      intro b q hq
      have key : ∀ (f : ℕ → ℕ) (z : List Bool), (vlist k.hash.d f).map (val t) = z.map b2f → IsBit (val t (f q)) := by
        intro f z hz
        have : val t (f q) ∈ (vlist k.hash.d f).map (val t) := List.mem_map_of_mem (vlist_mem.2 ⟨q, hq, rfl⟩)
        rw [hz] at this
        obtain ⟨w, -, hw⟩ := List.mem_map.1 this
        rw [← hw]; exact isBit_b2f w
      by_cases e : b = a n
      · rw [e]; exact key _ _ hy'
      · rw [show b = !a n by cases b <;> cases h' : a n <;> simp_all]; exact key _ _ hsn
    have hblock : (k.block (k.depth - 1 - n)).map (val t) = (if a n then sib n ++ y else y ++ sib n).map b2f := by
      rw [block, List.map_append]
      cases hbn : a n
      · rw [hbn] at hsn hy'
        simp only [Bool.false_eq_true, if_false, Bool.not_false, List.map_append] at hsn hy' ⊢
        rw [hsn, hy']
      · rw [hbn] at hsn hy'
        simp only [if_true, Bool.not_true, List.map_append] at hsn hy' ⊢
        rw [hsn, hy']
    have hlen : (k.block (k.depth - 1 - n)).length = 2 * k.hash.d := by rw [block, List.length_append, vlist_length, vlist_length]; omega
    have hg := L.eqs t _ _ _ _ hlen (vlist_length _ _) hblock e2
    obtain ⟨o, ho, -⟩ := L.sound t _ _ _ _ hlen (vlist_length _ _) hblock hg
    refine ⟨⟨o, ?_⟩, ?_⟩
    · rw [nodeVars, if_neg (by omega), show k.depth - (n + 1) = k.depth - 1 - n by omega]
      exact ho
    · intro m hm'
      by_cases e : m = n
      · subst e; exact ⟨hg, hsel, digest_gates (bits false), digest_gates (bits true)⟩
      · exact hm m (by omega)

theorem check_wf (h : k.WF) : k.check.WF := by
  have hb := k.hBase_ge k.depth
  have h0 := h.base
  have hd := h.depth
  refine ⟨by show 0 < k.hBase k.depth; omega, by simp [check, vlist_length], ?_, ?_, ?_, ?_⟩
  · intro v hv
    obtain ⟨q, hq, rfl⟩ := vlist_mem.1 (show v ∈ vlist k.hash.d (k.out 0) from hv)
    have h1 := out_lt hd hq
    have h2 := k.out_ge 0 q
    refine ⟨by omega, show _ < k.hBase k.depth by omega, fun ht => ?_⟩
    obtain ⟨r, hr, e⟩ := vlist_mem.1 (show _ ∈ vlist k.hash.d k.root from ht)
    have := (h.rootVar r hr).2.1
    omega
  · intro v hv
    obtain ⟨q, hq, rfl⟩ := vlist_mem.1 (show v ∈ vlist k.hash.d k.root from hv)
    have := h.rootVar q hq
    exact ⟨this.1, show _ < k.hBase k.depth by omega⟩
  · show (vlist k.hash.d k.root).Nodup
    rw [vlist]
    exact List.Nodup.map_on (fun q hq r hr e => h.rootInj q (List.mem_range.1 hq) r (List.mem_range.1 hr) e) List.nodup_range
  · intro t ht
    refine (h.successUse t ht).imp_right fun hv => ⟨show t.1 < k.hBase k.depth by omega, fun ht => ?_⟩
    exact hv.2.2 (vlist_mem.1 (show _ ∈ vlist k.hash.d k.root from ht))

/-- The copying component only writes the target and its own variables. -/
theorem _root_.Verif.R1cs.BitCopy.assign_keep (c : BitCopy (ZMod p)) (hc : c.WF) (s : Asg (ZMod p)) {j : ℕ} (hj : j < c.base) (ht : j ∉ c.target) :
    c.assign s j = s j := by
  have e1 : c.assign s j = (if c.doCopy.eval s = 1 then copyLoop (c.source.getD · 0) (c.target.getD · 0) s c.source.length else s) j := by
    unfold BitCopy.assign
    rw [multiFrom_ne _ _ _ _ _ _ fun a _ => by unfold BitCopy.packedTarget; omega, multiFrom_ne _ _ _ _ _ _ fun a _ => by unfold BitCopy.packedSource; omega]
  rw [e1]
  split_ifs
  · refine copyLoop_ne _ _ _ _ _ fun i hi e => ht ?_
    rw [e, List.getD_eq_getElem _ _ (by rw [← hc.len]; exact hi)]; exact List.getElem_mem _
  · rfl

/-- Inputs of the honest assignment. -/
structure Inputs (k : Read p) (s : Asg (ZMod p)) (a : ℕ → Bool) (sib : ℕ → List Bool) (leaf : List Bool) : Prop where
  address : ∀ n < k.depth, (k.address n).eval s = b2f (a n)
  sib : ∀ n < k.depth, (k.sibVars a n).map (val s) = (sib n).map b2f
  leaf : (vlist k.hash.d k.leaf).map (val s) = leaf.map b2f

/-- What the layers use. -/
theorem lvlU_lt (h : k.WF) (a : ℕ → Bool) {n v : ℕ} (hn : n < k.depth) (hu : k.lvlU a n v) : v < k.hBase k.depth ∧ ¬ k.IsRootVar v := by
  have hi : k.depth - 1 - n < k.depth := by omega
  have hb := k.hBase_ge k.depth
  have hb' := k.hBase_ge (k.depth - 1 - n)
  have hm := k.hBase_mono hi
  have path : ∀ b, ∀ q < k.hash.d, k.path (k.depth - 1 - n) b q < k.hBase k.depth ∧ ¬ k.IsRootVar (k.path (k.depth - 1 - n) b q) := by
    intro b q hq
    have := (h.pathVar _ hi b q hq).2
    refine ⟨by omega, ?_⟩
    rintro ⟨r, hr, e⟩
    exact (h.rootVar r hr).2.2 ⟨_, hi, b, q, hq, e.symm⟩
  have big : ∀ v, k.base ≤ v → ¬ k.IsRootVar v := by
    rintro v hv ⟨r, hr, rfl⟩
    have := (h.rootVar r hr).2.1
    omega
  rcases hu with (⟨q, hq, rfl⟩ | ⟨q, hq, rfl⟩ | hv) | ⟨q, hq, rfl⟩ | ⟨q, hq, rfl⟩
  · exact path _ q hq
  · have := out_lt hi hq
    exact ⟨by omega, big _ (k.out_ge _ _)⟩
  · exact ⟨by omega, big _ (by omega)⟩
  · rcases inp_cases (k := k) (k.depth - 1 - n) q with ⟨h1, h2⟩ | h2
    · rw [h2]
      have := out_lt h1 hq
      exact ⟨by omega, big _ (k.out_ge _ _)⟩
    · rw [h2]
      have := h.leafVar q hq
      exact ⟨by omega, this.2.2⟩
  · exact path _ q hq

/-- Siblings are not written. -/
theorem lvlT_sib (h : k.WF) (a : ℕ → Bool) {n m q : ℕ} (hn : n < k.depth) (hm : m < k.depth) (hq : q < k.hash.d) :
    ¬ k.lvlT a n (k.path (k.depth - 1 - m) (!a m) q) := by
  have hb := k.hBase_ge (k.depth - 1 - n)
  have hv := (h.pathVar (k.depth - 1 - m) (by omega) (!a m) q hq).2
  rintro (⟨r, hr, e⟩ | ⟨r, hr, e⟩ | e)
  · obtain ⟨e1, e2, -⟩ := h.pathInj _ (by omega) _ q hq _ (by omega) _ r hr e
    have : n = m := by omega
    subst this
    cases h' : a n <;> rw [h'] at e2 <;> cases e2
  · have := k.out_ge (k.depth - 1 - n) r
    omega
  · omega

/-- An assignment that agrees with that of the layers except for the root and the comparison satisfies the constraints of hashers, propagators and path,
has the given inputs, and its computed root is the node computed from them. -/
theorem layers_sat (L : Law k.hash rel) (h : k.WF) (s : Asg (ZMod p)) (a : ℕ → Bool) (sib : ℕ → List Bool) (leaf : List Bool) (hin : k.Inputs s a sib leaf)
    (t : Asg (ZMod p)) (ht : ∀ v, v < k.hBase k.depth → ¬ k.IsRootVar v → val t v = val (k.layers s k.depth) v) :
    k.Inputs t a sib leaf ∧ k.success.eval t = k.success.eval s ∧ Sat t (pathGates k.hash.d k.depth k.path) ∧
      (∀ i < k.depth, Sat t (k.hash.gates (k.block i) (vlist k.hash.d (k.out i)) (k.hBase i))) ∧
      (∀ i < k.depth, Sat t (selGates k.hash.d (k.inp i) (k.addr i) (k.path i false) (k.path i true))) ∧
      ∃ x : List Bool, (vlist k.hash.d (k.out 0)).map (val t) = x.map b2f ∧ IsNode rel a sib leaf k.depth x := by
  have hd := h.depth
  have hb := k.hBase_ge k.depth
  rw [layers_run L h s a hin.address k.depth le_rfl] at ht
  have hblk := lvls_blk L h a k.depth le_rfl
  -- the equations
  have he : Eqs t (k.lvls a k.depth) := by
    intro u hu
    obtain ⟨hU, hR⟩ := hblk.within u hu
    have agree : ∀ v, (∃ i < k.depth, k.lvlU a i v) → val t v = val (run (k.lvls a k.depth) s) v := by
      rintro v ⟨i, hi, hv⟩
      exact ht v (lvlU_lt h a hi hv).1 (lvlU_lt h a hi hv).2
    rw [agree _ hU, run_eq _ hblk.ssa s u hu]
    exact (hR _ _ agree).symm
  -- kept variables
  have old : ∀ v, v < k.base → ¬ k.IsPath v → ¬ k.IsRootVar v → val t v = val s v := by
    intro v h1 h2 h3
    rw [ht v (by omega) h3]
    refine run_keep _ _ hblk.writes ?_
    rintro ⟨i, hi, hT⟩
    exact lvlT_old a hi h1 h2 hT
  have hin' : k.Inputs t a sib leaf := by
    refine ⟨?_, ?_, ?_⟩
    · intro n hn
      rw [← hin.address n hn]
      exact eval_agree (h.addressUse n hn) fun v hv => old v hv.1 hv.2.1 hv.2.2
    · intro n hn
      rw [← hin.sib n hn]
      refine List.map_congr_left fun v hv => ?_
      obtain ⟨q, hq, rfl⟩ := vlist_mem.1 hv
      have hU : k.lvlU a n (k.path (k.depth - 1 - n) (!a n) q) := Or.inr (Or.inr ⟨q, hq, rfl⟩)
      rw [ht _ (lvlU_lt h a hn hU).1 (lvlU_lt h a hn hU).2]
      refine run_keep _ _ hblk.writes ?_
      rintro ⟨i, hi, hT⟩
      exact lvlT_sib h a hi hn hq hT
    · rw [← hin.leaf]
      refine List.map_congr_left fun v hv => ?_
      obtain ⟨q, hq, rfl⟩ := vlist_mem.1 hv
      exact old _ (h.leafVar q hq).1 (h.leafVar q hq).2.1 (h.leafVar q hq).2.2
  obtain ⟨-, hg⟩ := gates_of_eqs L t a hin'.address sib hin'.sib leaf hin'.leaf he k.depth le_rfl
  have hg' : ∀ i < k.depth, _ := fun i hi => by
    have := hg (k.depth - 1 - i) (by omega)
    rw [show k.depth - 1 - (k.depth - 1 - i) = i by omega] at this
    exact this
  have hh := fun i hi => (hg' i hi).1
  have hsel := fun i hi => (hg' i hi).2.1
  refine ⟨hin', eval_agree h.successUse fun v hv => old v hv.1 hv.2.1 hv.2.2, ?_, hh, hsel, ?_⟩
  · rw [pathGates, sat_flatMap]
    intro i hi
    exact (sat_append _ _ _).2 (hg' i (List.mem_range.1 hi)).2.2
  · obtain ⟨x, hx, hn⟩ := nodes_sound L t a hin'.address sib hin'.sib leaf hin'.leaf hh hsel k.depth le_rfl
    rw [nodeVars, if_neg (by omega), show k.depth - k.depth = 0 by omega] at hx
    exact ⟨x, hx, hn⟩

theorem gates_sat (t : Asg (ZMod p)) (hh : ∀ i < k.depth, Sat t (k.hash.gates (k.block i) (vlist k.hash.d (k.out i)) (k.hBase i)))
    (hsel : ∀ i < k.depth, Sat t (selGates k.hash.d (k.inp i) (k.addr i) (k.path i false) (k.path i true))) (hc : Sat t (k.check.gates false false)) :
    Sat t k.gates := by
  rw [gates, sat_append, sat_append, sat_flatMap, sat_flatMap]
  exact ⟨⟨fun i hi => hh i (List.mem_range.1 hi), fun i hi => hsel i (List.mem_range.1 hi)⟩, hc⟩

theorem bits_isBit {s : Asg (ZMod p)} {l : List ℕ} {b : List Bool} (h : l.map (val s) = b.map b2f) : ∀ j ∈ l, IsBit (val s j) := by
  intro j hj
  have : val s j ∈ l.map (val s) := List.mem_map_of_mem hj
  rw [h] at this
  obtain ⟨w, -, hw⟩ := List.mem_map.1 this
  rw [← hw]; exact isBit_b2f w

/-- The honest assignment is accepted, keeps the inputs, and for a successful read writes the node computed from them into the root. -/
theorem read_complete (k : Read p) (L : Law k.hash rel) (h : k.WF) (s : Asg (ZMod p)) (a : ℕ → Bool) (sib : ℕ → List Bool) (leaf : List Bool)
    (hin : k.Inputs s a sib leaf) (hs : IsBit (k.success.eval s)) (root : List Bool) (hroot : (vlist k.hash.d k.root).map (val s) = root.map b2f) :
    Sat (k.assign s) (pathGates k.hash.d k.depth k.path) ∧ Sat (k.assign s) k.gates ∧ k.Inputs (k.assign s) a sib leaf ∧
      k.success.eval (k.assign s) = k.success.eval s ∧ ∃ x : List Bool, IsNode rel a sib leaf k.depth x ∧
        (vlist k.hash.d k.root).map (val (k.assign s)) = (if k.success.eval s = 1 then x else root).map b2f := by
  have hw := check_wf h
  have hb := k.hBase_ge k.depth
  obtain ⟨-, hs1, -, -, -, x1, hx1, hn1⟩ := layers_sat L h s a sib leaf hin (k.layers s k.depth) fun _ _ _ => rfl
  have keep : ∀ v, v < k.hBase k.depth → ¬ k.IsRootVar v → val (k.assign s) v = val (k.layers s k.depth) v := fun v h1 h2 =>
    val_congr (BitCopy.assign_keep k.check hw _ h1 fun e => h2 (vlist_mem.1 (show v ∈ vlist k.hash.d k.root from e)))
  obtain ⟨h1, h2, h3, h4, h5, -⟩ := layers_sat L h s a sib leaf hin (k.assign s) keep
  have hroot1 : (vlist k.hash.d k.root).map (val (k.layers s k.depth)) = root.map b2f := by
    rw [← hroot]
    refine List.map_congr_left fun v hv => ?_
    obtain ⟨q, hq, rfl⟩ := vlist_mem.1 hv
    rw [layers_run L h s a hin.address k.depth le_rfl]
    refine run_keep _ _ (lvls_blk L h a k.depth le_rfl).writes ?_
    rintro ⟨i, hi, hT⟩
    exact lvlT_old a hi (h.rootVar q hq).2.1 (h.rootVar q hq).2.2 hT
  have hdc : k.check.doCopy.eval (k.layers s k.depth) = k.success.eval s := hs1
  obtain ⟨g1, g2, g3, g4⟩ := bitcopy_complete k.check hw (k.layers s k.depth) false false (by rw [hdc]; exact hs) (bits_isBit hx1) (bits_isBit hroot1)
  refine ⟨h3, gates_sat _ h4 h5 g1, h1, h2, x1, hn1, ?_⟩
  rw [hdc] at g4
  refine g4.trans ?_
  split_ifs
  · exact hx1
  · exact hroot1

/-- A root that agrees with the computed one only as packed numbers modulo `p` is accepted, for every path, leaf and address. -/
theorem read_other_root (k : Read p) (L : Law k.hash rel) (h : k.WF) (s : Asg (ZMod p)) (a : ℕ → Bool) (sib : ℕ → List Bool) (leaf : List Bool)
    (hin : k.Inputs s a sib leaf) (hs : k.success.eval s = 1) (root : List Bool) (hlen : root.length = k.hash.d)
    (hroot : ∀ x, IsNode rel a sib leaf k.depth x → PackedEq p k.c x root) :
    ∃ t, Sat t (pathGates k.hash.d k.depth k.path) ∧ Sat t k.gates ∧ k.Inputs t a sib leaf ∧ k.success.eval t = 1 ∧
      (vlist k.hash.d k.root).map (val t) = root.map b2f := by
  have hw := check_wf h
  have hb := k.hBase_ge k.depth
  set s' : Asg (ZMod p) := fun v => if v ∈ vlist k.hash.d k.root then 0 else s v with hs'
  have old : ∀ v, ¬ k.IsRootVar v → val s' v = val s v := fun v hv =>
    val_congr (by rw [hs']; exact if_neg fun e => hv (vlist_mem.1 e))
  have hin' : k.Inputs s' a sib leaf := by
    refine ⟨?_, ?_, ?_⟩
    · intro n hn
      rw [← hin.address n hn]
      exact eval_agree (h.addressUse n hn) fun v hv => old v hv.2.2
    · intro n hn
      rw [← hin.sib n hn]
      refine List.map_congr_left fun v hv => ?_
      obtain ⟨q, hq, rfl⟩ := vlist_mem.1 hv
      exact old _ (lvlU_lt h a hn (Or.inr (Or.inr ⟨q, hq, rfl⟩))).2
    · rw [← hin.leaf]
      refine List.map_congr_left fun v hv => ?_
      obtain ⟨q, hq, rfl⟩ := vlist_mem.1 hv
      exact old _ (h.leafVar q hq).2.2
  have hsu : k.success.eval s' = 1 := by rw [← hs]; exact eval_agree h.successUse fun v hv => old v hv.2.2
  obtain ⟨-, g2, -, -, x, hn, hx⟩ := read_complete k L h s' a sib leaf hin' (Or.inr hsu) (List.replicate k.hash.d false) (by
    apply List.ext_getElem (by simp [vlist_length])
    intro i h1 h2
    have hi : i < k.hash.d := by simpa using h2
    have hr := (h.rootVar i hi).1
    simp only [List.getElem_map, vlist, List.getElem_range, List.getElem_replicate, b2f_false]
    rw [val_pos _ hr, hs']
    exact if_pos (vlist_mem.2 ⟨i, hi, rfl⟩))
  rw [if_pos hsu] at hx
  -- the constraints of the comparison for the honest root
  have hc : Sat (k.assign s') (k.check.gates false false) := by
    rw [gates, sat_append] at g2; exact g2.2
  have hkeep : ∀ v, v < k.hBase k.depth → ¬ k.IsRootVar v → val (k.assign s') v = val (k.layers s' k.depth) v := fun v h1 h2 =>
    val_congr (BitCopy.assign_keep k.check hw _ h1 fun e => h2 (vlist_mem.1 (show v ∈ vlist k.hash.d k.root from e)))
  obtain ⟨-, -, -, hh0, hsel0, x0, hx0, hn0⟩ := layers_sat L h s' a sib leaf hin' (k.assign s') hkeep
  have hlx : k.check.source.length = k.check.target.length := hw.len
  obtain ⟨c1, c2, c3⟩ := (bitcopy_iff k.check (k.assign s') x0 x hx0 hx hlx).1 hc
  -- the other root
  set t : Asg (ZMod p) := fun v => if v ∈ vlist k.hash.d k.root then b2f (root.getD ((vlist k.hash.d k.root).idxOf v) false) else k.assign s' v with htdef
  have tne : ∀ v, ¬ k.IsRootVar v → val t v = val (k.assign s') v := fun v hv => val_congr (by rw [htdef]; exact if_neg fun e => hv (vlist_mem.1 e))
  obtain ⟨h1, h2, h3, h4, h5, x', hx', hn'⟩ := layers_sat L h s' a sib leaf hin' t fun v hv hr => (tne v hr).trans (hkeep v hv hr)
  have htr : (vlist k.hash.d k.root).map (val t) = root.map b2f := by
    apply List.ext_getElem (by simp [vlist_length, hlen])
    intro i h1 h2
    have hi : i < (vlist k.hash.d k.root).length := by simpa using h1
    have hi' : i < k.hash.d := by rw [vlist_length] at hi; exact hi
    have hm : (vlist k.hash.d k.root)[i] ∈ vlist k.hash.d k.root := List.getElem_mem hi
    have h0 : (vlist k.hash.d k.root)[i] ≠ 0 := (hw.target _ hm).1
    rw [List.getElem_map, List.getElem_map, val_pos _ h0, htdef]
    simp only
    rw [if_pos hm, List.Nodup.idxOf_getElem (show (vlist k.hash.d k.root).Nodup from hw.nodup), List.getD_eq_getElem _ _ (by omega)]
  refine ⟨t, h3, gates_sat t h4 h5 ?_, h1, h2.trans hsu, htr⟩
  have hlen2 : x.length = root.length := by
    have := congrArg List.length hx
    simp only [List.length_map, vlist_length] at this
    omega
  have hbig : ∀ v, k.hBase k.depth ≤ v → ¬ k.IsRootVar v := by
    rintro v hv ⟨r, hr, rfl⟩
    have := (h.rootVar r hr).2.1
    omega
  have hx0' : x' = x0 := by
    have e : (vlist k.hash.d (k.out 0)).map (val t) = (vlist k.hash.d (k.out 0)).map (val (k.assign s')) := by
      refine List.map_congr_left fun v hv => tne v ?_
      have := (hw.source v hv).2.2
      exact fun e => this (vlist_mem.2 e)
    rw [hx', hx0] at e
    exact List.map_injective_iff.2 (fun _ _ => b2f_inj) e
  have hlen3 : x0.length = x.length := by
    have e1 := congrArg List.length hx
    have e2 := congrArg List.length hx0
    simp only [List.length_map, vlist_length] at e1 e2
    omega
  have hm : numChunks x0.length k.c = k.check.m := by
    show numChunks x0.length k.c = numChunks (vlist k.hash.d (k.out 0)).length k.c
    congr 1
    simpa using (congrArg List.length hx0).symm
  have hmx : numChunks x.length k.c = k.check.m := by rw [← hlen3]; exact hm
  refine (bitcopy_iff k.check t x' root hx' htr hlx).2 ⟨?_, ?_, Or.inr ?_⟩
  · intro i hi
    rw [tne _ (hbig _ (by show k.hBase k.depth ≤ k.hBase k.depth + i; omega)), hx0', c1 i hi]
  · intro i hi
    rw [tne _ (hbig _ (by show k.hBase k.depth ≤ k.hBase k.depth + k.check.m + i; omega)), c2 i hi]
    exact hroot x hn i (by rw [hmx]; exact hi)
  · exact hroot x' hn'

end Read

/-! ### SHA-256 -/

open Sha256Spec in
/-- The 2-to-1 compression: the compression function of SHA-256 with the initial value. -/
def sha2Hash (m : List Bool) : List Bool := digestBits (compress iv (wordAt fun q => m.getD q false))

theorem get_val {s : Asg (ZMod p)} {l : List ℕ} {m : List Bool} (h : l.map (val s) = m.map b2f) (q : ℕ) (hq : q < l.length) :
    val s (l.getD q 0) = b2f (m.getD q false) := by
  have hl : l.length = m.length := by simpa using congrArg List.length h
  have := congrArg (fun t => t[q]?) h
  simp only [List.getElem?_map, List.getElem?_eq_getElem hq, List.getElem?_eq_getElem (show q < m.length by omega), Option.map_some, Option.some.injEq] at this
  rw [List.getD_eq_getElem _ _ hq, List.getD_eq_getElem _ _ (by omega), this]

open Sha256Spec in
/-- The SHA-256 component is a correct hash component. -/
theorem sha2_law (hp' : 2 ^ 35 ≤ p) : Law (sha2 (p := p)) fun m o => o = sha2Hash m := by
  refine ⟨?_, ?_, ?_⟩
  · intro s block out base m hb ho hm h
    have hb : block.length = 512 := hb
    have ho : out.length = 256 := ho
    refine ⟨sha2Hash m, ?_, rfl⟩
    have := compression_sound defaultIV block out base s hp' (digestBit iv) (fun q => m.getD q false) (fun q hq => defaultIV_bit s q hq)
      (fun q hq => get_val hm q (by omega)) h
    rw [stateOf_digest] at this
    exact HmacC.digest_map ho this
  · intro block out base hf
    have ho : out.length = 256 := hf.outLen
    have hb : block.length = 512 := hf.blockLen
    have hg : ∀ q < 512, block.getD q 0 ∈ block := fun q hq => by rw [List.getD_eq_getElem _ _ (by omega)]; exact List.getElem_mem _
    have hw : VecWF (p := p) defaultIV block out base := ⟨ho, hf.nodup, hf.outVar, fun q hq => hf.blockVar _ (hg q hq), fun q hq => defaultIV_uses q hq _⟩
    refine (Compress.steps_blk hw.wf).mono ?_ ?_
    · rintro v (hv | hv | hv)
      · rcases hv.2.2 with ⟨i, hi, j, hj, rfl⟩ | ⟨i, hi, j, hj, t, ht, e, h0⟩
        · exact Or.inl (hg _ (by omega))
        · have := defaultIV_uses (p := p) (255 - ((7 - i) * 32 + j)) (by omega) (fun _ => False) t ht
          exact absurd (e.symm.trans (this.resolve_right id)) h0
      · exact Or.inr (Or.inl ((isOut_iff _ _ _ _ ho v).1 hv))
      · exact Or.inr (Or.inr hv)
    · rintro v (hv | hv)
      · exact Or.inl ((isOut_iff _ _ _ _ ho v).1 hv)
      · exact Or.inr hv
  · intro s block out base m hb ho hm he
    have hb : block.length = 512 := hb
    exact compress_eqs _ s hp' (stateOf (digestBit iv)) (wordAt fun q => m.getD q false)
      (mk_prev_word defaultIV block out base s (digestBit iv) fun q hq => defaultIV_bit s q hq)
      (mk_block_word defaultIV block out base s _ fun q hq => get_val hm q (by omega)) he

/-- With SHA-256: an accepted assignment of a successful read shows that the root is the one computed from the leaf, the address and the siblings,
if the chunks fit in the field. -/
theorem sha2_read_sound (k : Read p) (hk : k.hash = sha2) (hp' : 2 ^ 35 ≤ p) (hd : 0 < k.depth) (hc : 0 < k.c) (hpc : 2 ^ k.c ≤ p) (s : Asg (ZMod p))
    (addr : ℕ → Bool) (ha : ∀ n < k.depth, (k.address n).eval s = b2f (addr n)) (hsu : k.success.eval s = 1) (root : List Bool)
    (hroot : (vlist k.hash.d k.root).map (val s) = root.map b2f) (hpath : Sat s (pathGates k.hash.d k.depth k.path)) (h : Sat s k.gates) :
    ∃ (leaf : List Bool) (sib : ℕ → List Bool), (vlist k.hash.d k.leaf).map (val s) = leaf.map b2f ∧
      (∀ n < k.depth, (k.sibVars addr n).map (val s) = (sib n).map b2f) ∧ root = node sha2Hash addr sib leaf k.depth := by
  obtain ⟨leaf, sib, h1, h2, h3⟩ := Read.read_sound_small_chunks k (hk ▸ sha2_law hp') hd hc hpc s addr ha root hroot hpath h
  refine ⟨leaf, sib, h1, h2, (isNode_fun _ _ _ _ _ _).1 (h3.resolve_left ?_)⟩
  rw [hsu]; exact one_ne_zero

theorem vlist_replicate {s : Asg (ZMod p)} {d : ℕ} {f : ℕ → ℕ} (b : Bool) (h : ∀ q < d, val s (f q) = b2f b) :
    (vlist d f).map (val s) = (List.replicate d b).map b2f := by
  rw [vlist_map, List.map_replicate]
  refine List.eq_replicate_iff.2 ⟨by rw [List.length_map, List.length_range], fun x hx => ?_⟩
  obtain ⟨q, hq, rfl⟩ := List.mem_map.1 hx
  exact h q (List.mem_range.1 hq)

end

/-! ### Another root -/

/-- A tree of depth 1 with the chunk size of the code over the scalar field of BLS12-381, which has 255 bits. -/
def exRead : Read blsR := ⟨sha2, 1, fun _ => Lc.const 0, fun q => 257 + q, fun q => 1 + q, pathAlloc 256 513, Lc.const 1, 255, 1025⟩

theorem exRead_wf : exRead.WF := by
  have hpath : ∀ i < 1, ∀ b : Bool, ∀ q < 256, 513 ≤ pathAlloc 256 513 i b q ∧ pathAlloc 256 513 i b q < 1025 := by
    intro i hi b q hq
    unfold pathAlloc
    cases b <;> simp <;> omega
  have np : ∀ v < 513, ¬ exRead.IsPath v := by
    rintro v hv ⟨i, hi, b, q, hq, e⟩
    have := hpath i hi b q hq
    have e : v = pathAlloc 256 513 i b q := e
    omega
  have nr : ∀ v, 257 ≤ v → ¬ exRead.IsRootVar v := by
    rintro v hv ⟨q, hq, e⟩
    have hq : q < 256 := hq
    have e : v = 1 + q := e
    omega
  refine ⟨by decide, by decide, by decide, ?_, ?_, ?_, ?_, ?_, ?_, ?_⟩
  · intro i hi b q hq
    have := hpath i hi b q hq
    show pathAlloc 256 513 i b q ≠ 0 ∧ pathAlloc 256 513 i b q < 1025
    omega
  · intro i hi b q hq i' hi' b' q' hq' e
    have hi : i < 1 := hi
    have hi' : i' < 1 := hi'
    have hq : q < 256 := hq
    have hq' : q' < 256 := hq'
    have e : pathAlloc 256 513 i b q = pathAlloc 256 513 i' b' q' := e
    unfold pathAlloc at e
    refine ⟨by omega, ?_, ?_⟩ <;> cases b <;> cases b' <;> simp at e ⊢ <;> omega
  · intro q hq
    have hq : q < 256 := hq
    exact ⟨show 257 + q < 1025 by omega, np _ (show 257 + q < 513 by omega), nr _ (show 257 ≤ 257 + q by omega)⟩
  · intro q hq
    have hq : q < 256 := hq
    exact ⟨show 1 + q ≠ 0 by omega, show 1 + q < 1025 by omega, np _ (show 1 + q < 513 by omega)⟩
  · intro q _ q' _ e
    have e : 1 + q = 1 + q' := e
    omega
  · intro n _ t ht
    left
    have : t ∈ (Lc.const 0 : Lc (ZMod blsR)) := ht
    simp [Lc.const] at this
    rw [this]
  · intro t ht
    left
    have : t ∈ (Lc.const 1 : Lc (ZMod blsR)) := ht
    simp [Lc.const] at this
    rw [this]

/-- The leaf with all bits set and the sibling with no bits set. -/
def exReadAsg : Asg (ZMod blsR) := fun v => if 257 ≤ v ∧ v < 513 then 1 else 0

theorem exRead_in : exRead.Inputs exReadAsg (fun _ => false) (fun _ => List.replicate 256 false) (List.replicate 256 true) := by
  refine ⟨?_, ?_, ?_⟩
  · intro n _
    show (Lc.const 0 : Lc (ZMod blsR)).eval _ = _
    rw [eval_const]; rfl
  · intro n hn
    show (vlist 256 (pathAlloc 256 513 (1 - 1 - n) true)).map _ = _
    refine vlist_replicate false fun i hi => ?_
    have hv : 513 ≤ pathAlloc 256 513 (1 - 1 - n) true i := by unfold pathAlloc; omega
    rw [val_pos _ (by omega)]
    exact if_neg (by omega)
  · show (vlist 256 fun q => 257 + q).map _ = _
    refine vlist_replicate true fun i hi => ?_
    rw [val_pos _ (by omega)]
    exact if_pos (by omega)

open Sha256Spec in
theorem exRead_hash : sha2Hash (List.replicate 256 true ++ List.replicate 256 false) = digestBits ⟨0xc2c9f7b1, 0x39346d8e, 0xf59b77e9, 0x2cd6ce3c, 0x114a35b7, 0x20f95a23, 0xad4a35c8, 0x3bba1e7e⟩ := by
  have := hashBlocks_bits (List.replicate 256 true ++ List.replicate 256 false)
    [[0xffffffff, 0xffffffff, 0xffffffff, 0xffffffff, 0xffffffff, 0xffffffff, 0xffffffff, 0xffffffff, 0, 0, 0, 0, 0, 0, 0, 0]] (by decide +kernel) (by decide +kernel)
  rw [show ([[0xffffffff, 0xffffffff, 0xffffffff, 0xffffffff, 0xffffffff, 0xffffffff, 0xffffffff, 0xffffffff, 0, 0, 0, 0, 0, 0, 0, 0]] : List (List Word)).foldl compressFast iv =
    ⟨0xc2c9f7b1, 0x39346d8e, 0xf59b77e9, 0x2cd6ce3c, 0x114a35b7, 0x20f95a23, 0xad4a35c8, 0x3bba1e7e⟩ by decide +kernel] at this
  rw [sha2Hash, ← this, List.length_append, List.length_replicate, List.length_replicate]
  have e : (fun q => (List.replicate 256 true ++ List.replicate 256 false).getD (512 * 0 + q) false) =
      fun q => (List.replicate 256 true ++ List.replicate 256 false).getD q false := funext fun q => by rw [Nat.mul_zero, Nat.zero_add]
  show _ = digestBits (compress iv (wordAt fun q => (List.replicate 256 true ++ List.replicate 256 false).getD (512 * 0 + q) false))
  rw [e]

/-- The computed root minus the modulus. -/
def otherRoot : List Bool := (List.range 256).map (Nat.testBit 0xa8ab688ea0ed56d9120c6fce40a7a82e8b5c73197f07db071b62c9d8def9342)

/-- With the chunk size of the code a wrong root is accepted: a successful read of a leaf with a root that is not computed from leaf, address and sibling. -/
theorem read_wrong_root : ∃ t : Asg (ZMod blsR), Sat t (pathGates 256 1 exRead.path) ∧ Sat t exRead.gates ∧ exRead.success.eval t = 1 ∧
    exRead.Inputs t (fun _ => false) (fun _ => List.replicate 256 false) (List.replicate 256 true) ∧
    (vlist 256 exRead.root).map (val t) = otherRoot.map b2f ∧
    otherRoot ≠ node sha2Hash (fun _ => false) (fun _ => List.replicate 256 false) (List.replicate 256 true) 1 := by
  have hx : node sha2Hash (fun _ => false) (fun _ => List.replicate 256 false) (List.replicate 256 true) 1 =
      Sha256Spec.digestBits ⟨0xc2c9f7b1, 0x39346d8e, 0xf59b77e9, 0x2cd6ce3c, 0x114a35b7, 0x20f95a23, 0xad4a35c8, 0x3bba1e7e⟩ := exRead_hash
  obtain ⟨t, h1, h2, h3, h4, h5⟩ := Read.read_other_root exRead (sha2_law blsR_big) exRead_wf exReadAsg _ _ _ exRead_in (eval_const _ _) otherRoot
    (by rw [otherRoot, List.length_map, List.length_range]; rfl) (by
      intro x hn
      rw [show x = _ from (isNode_fun _ _ _ _ _ _).1 hn, show exRead.depth = 1 from rfl, hx]
      have key : ∀ i < 2, bnat (chunk (Sha256Spec.digestBits ⟨0xc2c9f7b1, 0x39346d8e, 0xf59b77e9, 0x2cd6ce3c, 0x114a35b7, 0x20f95a23, 0xad4a35c8, 0x3bba1e7e⟩) 255 i) % blsR =
        bnat (chunk otherRoot 255 i) % blsR := by decide +kernel
      intro i hi
      rw [ZMod.natCast_eq_natCast_iff]
      exact key i (by
        rw [Sha256Spec.digestBits, List.length_map, List.length_range] at hi
        exact lt_of_lt_of_eq hi (by decide)))
  refine ⟨t, h1, h2, h4, h3, h5, ?_⟩
  rw [hx]
  decide +kernel

/-- The honest assignment for the same tree. -/
example : Sat (exRead.assign exReadAsg) exRead.gates :=
  (Read.read_complete exRead (sha2_law blsR_big) exRead_wf exReadAsg _ _ _ exRead_in (Or.inr (eval_const _ _)) (List.replicate 256 false) (by
    show (vlist 256 fun q => 1 + q).map _ = _
    refine vlist_replicate false fun i hi => ?_
    rw [val_pos _ (by omega)]
    exact if_neg (by omega))).2.1

end Merkle
end R1cs
end Verif
