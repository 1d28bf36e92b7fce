import Verif.Model.R1csUpdate
import Verif.Props.R1csMerkle
import Verif.Props.R1csVoting

/-!
# r1cs Merkle tree update: one set of siblings for both roots, and an assignment that does not copy them
-/

namespace Verif
namespace R1cs
namespace Merkle
namespace Update

variable {p : ℕ} [hp : Fact p.Prime] {k : Update p} {rel : List Bool → List Bool → Prop}

/-- The sibling `n` layers above the leaf is in slot `!addr n` of layer `depth - 1 - n`. -/
def sibVars (k : Update p) (sd : Bool) (addr : ℕ → Bool) (n : ℕ) : List ℕ := vlist k.hash.d (k.path sd (k.depth - 1 - n) (!addr n))

/-- The node `n` layers above the leaf: the leaf or the output of a hasher. -/
def nodeVars (k : Update p) (sd : Bool) (n : ℕ) : List ℕ := if n = 0 then vlist k.hash.d (k.leaf sd) else vlist k.hash.d (k.out sd (k.depth - n))

theorem inp_node (sd : Bool) (n : ℕ) (hn : n < k.depth) : vlist k.hash.d (k.inp sd (k.depth - 1 - n)) = k.nodeVars sd n := by
  unfold inp nodeVars
  by_cases h : n = 0
  · rw [if_neg (by omega), if_pos h]
  · rw [if_pos (by omega), if_neg h, show k.depth - 1 - n + 1 = k.depth - n by omega]

/-- The nodes of one of the trees from the leaf to the computed root. -/
theorem nodes_sound (L : Law k.hash rel) (sd : Bool) (s : Asg (ZMod p)) (addr : ℕ → Bool) (ha : ∀ n < k.depth, (k.address n).eval s = b2f (addr n))
    (sib : ℕ → List Bool) (hs : ∀ n < k.depth, (k.sibVars sd addr n).map (val s) = (sib n).map b2f) (leaf : List Bool)
    (hleaf : (vlist k.hash.d (k.leaf sd)).map (val s) = leaf.map b2f)
    (hh : ∀ i < k.depth, Sat s (k.hash.gates (k.block sd i) (vlist k.hash.d (k.out sd i)) (k.hBase sd i)))
    (hsel : ∀ i < k.depth, Sat s (selGates k.hash.d (k.inp sd i) (k.addr i) (k.path sd i false) (k.path sd i true))) (n : ℕ) (hn : n ≤ k.depth) :
    ∃ x : List Bool, (k.nodeVars sd n).map (val s) = x.map b2f ∧ IsNode rel addr sib leaf n x := by
  induction n with
  | zero => exact ⟨leaf, hleaf, rfl⟩
  | succ n ih =>
    obtain ⟨y, hy, hnode⟩ := ih (by omega)
    have hi : k.depth - 1 - n < k.depth := by omega
    have hb : (k.addr (k.depth - 1 - n)).eval s = b2f (addr n) := by
      rw [Update.addr, show k.depth - 1 - (k.depth - 1 - n) = n by omega]; exact ha n (by omega)
    have hsl := (sel_iff hb).1 (hsel _ hi)
    have hblock : (k.block sd (k.depth - 1 - n)).map (val s) = (if addr n then sib n ++ y else y ++ sib n).map b2f := by
      have hsn := hs n (by omega)
      unfold sibVars at hsn
      rw [← inp_node sd n (by omega)] at hy
      rw [block, List.map_append]
      cases hbn : addr n
      · rw [hbn] at hsn hsl
        simp only [Bool.false_eq_true, if_false, Bool.not_false, List.map_append] at hsn hsl ⊢
        rw [hsn, ← hy]
        congr 1
        exact vlist_congr fun q hq => (hsl q hq).symm
      · rw [hbn] at hsn hsl
        simp only [if_true, Bool.not_true, List.map_append] at hsn hsl ⊢
        rw [hsn, ← hy]
        congr 1
        exact vlist_congr fun q hq => (hsl q hq).symm
    obtain ⟨o, ho, hr⟩ := L.sound s _ _ _ _ (by rw [block, List.length_append, vlist_length, vlist_length]; omega) (vlist_length _ _) hblock (hh _ hi)
    refine ⟨o, ?_, y, hnode, hr⟩
    rw [nodeVars, if_neg (by omega), show k.depth - (n + 1) = k.depth - 1 - n by omega]
    exact ho

/-- The constraint on the auxiliary inputs says that the two siblings are equal. -/
theorem aux_iff {s : Asg (ZMod p)} {i q : ℕ} {b : Bool} (hb : (k.addr i).eval s = b2f b) :
    (k.auxGate i q).Holds s ↔ val s (k.path true i (!b) q) = val s (k.path false i (!b) q) := by
  simp only [auxGate, Constraint.Holds, eval_sub, eval_add, eval_var, hb]
  cases b
  · simp only [b2f_false, zero_mul, Bool.not_false]
    exact ⟨fun h => sub_eq_zero.1 h.symm, fun h => (sub_eq_zero.2 h).symm⟩
  · simp only [b2f_true, one_mul, Bool.not_true]
    constructor <;> intro h <;> linear_combination -h

theorem gates_iff {s : Asg (ZMod p)} : Sat s k.gates ↔
    (∀ sd, ∀ i < k.depth, Sat s (k.hash.gates (k.block sd i) (vlist k.hash.d (k.out sd i)) (k.hBase sd i))) ∧
    (∀ sd, ∀ i < k.depth, Sat s (selGates k.hash.d (k.inp sd i) (k.addr i) (k.path sd i false) (k.path sd i true))) ∧
    (∀ i < k.depth, ∀ q < k.hash.d, (k.auxGate i q).Holds s) ∧ Sat s (k.check.gates false false) := by
  simp only [gates, sat_append, sat_flatMap, List.mem_range, sat_map, Bool.forall_bool]
  constructor
  · rintro ⟨⟨⟨h1, h2⟩, h3⟩, h4⟩
    exact ⟨⟨fun i hi => (h1 i hi).1, fun i hi => (h1 i hi).2⟩, ⟨fun i hi => (h2 i hi).1, fun i hi => (h2 i hi).2⟩, h3, h4⟩
  · rintro ⟨⟨h1, h1'⟩, ⟨h2, h2'⟩, h3, h4⟩
    exact ⟨⟨⟨fun i hi => ⟨h1 i hi, h1' i hi⟩, fun i hi => ⟨h2 i hi, h2' i hi⟩⟩, h3⟩, h4⟩

/-- Soundness of the update: with an address of bits, bit constraints on the previous path only, and a next leaf and next root of bits, the previous leaf is
a digest, there is one set of siblings, held by the previous and by the next path, such that the previous root is the node above the previous leaf, and the
node above the next leaf agrees with the next root as packed numbers modulo `p`, or the update is declared not successful. -/
theorem update_sound_partial (k : Update p) (L : Law k.hash rel) (hd : 0 < k.depth) (s : Asg (ZMod p)) (addr : ℕ → Bool)
    (ha : ∀ n < k.depth, (k.address n).eval s = b2f (addr n)) (nextLeaf nextRoot : List Bool)
    (hleaf : (vlist k.hash.d (k.leaf true)).map (val s) = nextLeaf.map b2f) (hroot : (vlist k.hash.d k.nextRoot).map (val s) = nextRoot.map b2f)
    (hpath : Sat s (pathGates k.hash.d k.depth (k.path false))) (h : Sat s k.gates) :
    ∃ (prevLeaf prevRoot : List Bool) (sib : ℕ → List Bool) (x : List Bool), (vlist k.hash.d (k.leaf false)).map (val s) = prevLeaf.map b2f ∧
      (vlist k.hash.d k.prevRoot).map (val s) = prevRoot.map b2f ∧
      (∀ sd, ∀ n < k.depth, (k.sibVars sd addr n).map (val s) = (sib n).map b2f) ∧ IsNode rel addr sib prevLeaf k.depth prevRoot ∧
      IsNode rel addr sib nextLeaf k.depth x ∧ x.length = nextRoot.length ∧ (k.success.eval s = 0 ∨ PackedEq p k.c x nextRoot) := by
  obtain ⟨hh, hsel, haux, hc⟩ := gates_iff.1 h
  have hadr : ∀ n < k.depth, (k.addr (k.depth - 1 - n)).eval s = b2f (addr n) := by
    intro n hn
    rw [Update.addr, show k.depth - 1 - (k.depth - 1 - n) = n by omega]; exact ha n hn
  have hdig : ∀ i < k.depth, ∀ b, ∃ o : List Bool, (vlist k.hash.d (k.path false i b)).map (val s) = o.map b2f := by
    intro i hi b
    simp only [pathGates, sat_flatMap, sat_append, List.mem_range] at hpath
    cases b
    · exact digest_bits (hpath i hi).1
    · exact digest_bits (hpath i hi).2
  have hsib : ∀ n, ∃ o : List Bool, n < k.depth → (k.sibVars false addr n).map (val s) = o.map b2f := by
    intro n
    by_cases hn : n < k.depth
    · obtain ⟨o, ho⟩ := hdig (k.depth - 1 - n) (by omega) (!addr n)
      exact ⟨o, fun _ => ho⟩
    · exact ⟨[], fun e => absurd e hn⟩
  choose sib hsib using hsib
  have hsib' : ∀ n < k.depth, (k.sibVars true addr n).map (val s) = (sib n).map b2f := by
    intro n hn
    rw [← hsib n hn]
    exact vlist_congr fun q hq => (aux_iff (hadr n hn)).1 (haux _ (by omega) q hq)
  obtain ⟨leaf, hl⟩ : ∃ leaf : List Bool, (vlist k.hash.d (k.leaf false)).map (val s) = leaf.map b2f := by
    have hb := hadr 0 hd
    have := (sel_iff hb).1 (hsel false _ (by omega))
    rw [inp, if_neg (by omega)] at this
    obtain ⟨o, ho⟩ := hdig (k.depth - 1) (by omega) (addr 0)
    refine ⟨o, ?_⟩
    rw [← ho]
    refine vlist_congr fun q hq => ?_
    rw [this q hq]
    cases addr 0 <;> rfl
  obtain ⟨r, hr, hn⟩ := nodes_sound L false s addr ha sib hsib leaf hl (hh false) (hsel false) k.depth le_rfl
  obtain ⟨x, hx, hn'⟩ := nodes_sound L true s addr ha sib hsib' nextLeaf hleaf (hh true) (hsel true) k.depth le_rfl
  rw [nodeVars, if_neg (by omega), show k.depth - k.depth = 0 by omega] at hr hx
  have hr' : (vlist k.hash.d k.prevRoot).map (val s) = r.map b2f := hr
  refine ⟨leaf, r, sib, x, hl, hr', ?_, hn, hn', ?_, ((bitcopy_iff k.check s x nextRoot hx hroot (by simp [check, vlist_length])).1 hc).2.2⟩
  · intro sd n hn
    cases sd
    · exact hsib n hn
    · exact hsib' n hn
  · have h1 := congrArg List.length hx
    have h2 := congrArg List.length hroot
    simp only [List.length_map, vlist_length] at h1 h2
    omega

/-- If the chunks fit in the field, the next root is the node above the next leaf with the siblings of the previous one. -/
theorem update_sound_small_chunks (k : Update p) (L : Law k.hash rel) (hd : 0 < k.depth) (hc : 0 < k.c) (hp' : 2 ^ k.c ≤ p) (s : Asg (ZMod p)) (addr : ℕ → Bool)
    (ha : ∀ n < k.depth, (k.address n).eval s = b2f (addr n)) (nextLeaf nextRoot : List Bool)
    (hleaf : (vlist k.hash.d (k.leaf true)).map (val s) = nextLeaf.map b2f) (hroot : (vlist k.hash.d k.nextRoot).map (val s) = nextRoot.map b2f)
    (hpath : Sat s (pathGates k.hash.d k.depth (k.path false))) (h : Sat s k.gates) :
    ∃ (prevLeaf prevRoot : List Bool) (sib : ℕ → List Bool), (vlist k.hash.d (k.leaf false)).map (val s) = prevLeaf.map b2f ∧
      (vlist k.hash.d k.prevRoot).map (val s) = prevRoot.map b2f ∧ IsNode rel addr sib prevLeaf k.depth prevRoot ∧
      (k.success.eval s = 0 ∨ IsNode rel addr sib nextLeaf k.depth nextRoot) := by
  obtain ⟨leaf, r, sib, x, h1, h2, -, h3, h4, hl, h5⟩ := update_sound_partial k L hd s addr ha nextLeaf nextRoot hleaf hroot hpath h
  refine ⟨leaf, r, sib, h1, h2, h3, h5.imp_right fun h5 => ?_⟩
  rw [← packedEq_small hc hp' hl h5]
  exact h4

/-! ### What the assignment does not write -/

/-- The variables of the paths. -/
def IsPath (k : Update p) (v : ℕ) : Prop := ∃ sd, ∃ i < k.depth, ∃ b, ∃ q < k.hash.d, v = k.path sd i b q

/-- The variables of the roots. -/
def IsRoot (k : Update p) (v : ℕ) : Prop := ∃ q < k.hash.d, v = k.prevRoot q ∨ v = k.nextRoot q

/-- How the component is put together: the variables of paths and roots are different and allocated before, the address is computed from others. -/
structure WF (k : Update p) : Prop where
  base : k.base ≠ 0
  chunk : 0 < k.c
  pathVar : ∀ sd, ∀ i < k.depth, ∀ b, ∀ q < k.hash.d, k.path sd i b q ≠ 0 ∧ k.path sd i b q < k.base ∧ ¬ k.IsRoot (k.path sd i b q)
  pathInj : ∀ sd, ∀ i < k.depth, ∀ b, ∀ q < k.hash.d, ∀ sd', ∀ i' < k.depth, ∀ b', ∀ q' < k.hash.d,
    k.path sd i b q = k.path sd' i' b' q' → sd = sd' ∧ i = i' ∧ b = b' ∧ q = q'
  prevRoot : ∀ q < k.hash.d, k.prevRoot q ≠ 0 ∧ k.prevRoot q < k.base
  prevInj : ∀ q < k.hash.d, ∀ q' < k.hash.d, k.prevRoot q = k.prevRoot q' → q = q'
  nextRoot : ∀ q < k.hash.d, k.nextRoot q ≠ 0 ∧ k.nextRoot q < k.base
  addressUse : ∀ n < k.depth, (k.address n).Uses fun v => v < k.base ∧ ¬ k.IsPath v ∧ ¬ k.IsRoot v

/-- A variable that the assignment with address `a` leaves alone: allocated before, not of a root, and of the paths at most a sibling. -/
def Kept (k : Update p) (a : ℕ → Bool) (v : ℕ) : Prop :=
  v < k.base ∧ ¬ k.IsRoot v ∧ ∀ sd, ∀ n < k.depth, ∀ q < k.hash.d, v ≠ k.path sd (k.depth - 1 - n) (a n) q

theorem kept_of_old {a : ℕ → Bool} {v : ℕ} (h : v < k.base ∧ ¬ k.IsPath v ∧ ¬ k.IsRoot v) : k.Kept a v :=
  ⟨h.1, h.2.2, fun sd n hn q hq e => h.2.1 ⟨sd, k.depth - 1 - n, by omega, a n, q, hq, e⟩⟩

theorem kept_sib (hw : k.WF) {a : ℕ → Bool} (sd : Bool) {n q : ℕ} (hn : n < k.depth) (hq : q < k.hash.d) : k.Kept a (k.path sd (k.depth - 1 - n) (!a n) q) := by
  obtain ⟨-, h1, h2⟩ := hw.pathVar sd (k.depth - 1 - n) (by omega) (!a n) q hq
  refine ⟨h1, h2, fun sd' n' hn' q' hq' e => ?_⟩
  obtain ⟨-, h3, h4, -⟩ := hw.pathInj _ _ (by omega) _ _ hq _ _ (by omega) _ _ hq' e
  have : n = n' := by omega
  subst this
  cases h : a n <;> simp [h] at h4

theorem out_new (sd : Bool) (i : ℕ) {q : ℕ} (hq : q < k.hash.d) (h : sd = true ∨ i ≠ 0) (hi : i < k.depth) :
    k.base ≤ k.out sd i q ∧ k.out sd i q < k.base + k.hash.d * (2 * (k.depth - 1) + 1) := by
  have key : ∀ m, m < 2 * (k.depth - 1) + 1 → k.hash.d * m + q < k.hash.d * (2 * (k.depth - 1) + 1) := fun m hm => Read.lin_lt hq hm
  unfold out
  by_cases h0 : i = 0
  · have : sd = true := by tauto
    subst this
    have := key (2 * (k.depth - 1)) (by omega)
    rw [if_pos h0, if_pos rfl]
    omega
  · have := key (2 * (i - 1) + sd.toNat) (by cases sd <;> simp <;> omega)
    rw [if_neg h0]
    omega

theorem out_inj (hw : k.WF) (sd : Bool) (i : ℕ) {q q' : ℕ} (hq : q < k.hash.d) (hq' : q' < k.hash.d) (e : k.out sd i q = k.out sd i q') : q = q' := by
  unfold out at e
  split_ifs at e
  · omega
  · exact hw.prevInj q hq q' hq' e
  · omega

theorem fits (hw : k.WF) (sd : Bool) {i : ℕ} (hi : i < k.depth) : Fits k.hash.d (k.block sd i) (vlist k.hash.d (k.out sd i)) (k.hBase sd i) := by
  have hb : k.base + k.hash.d * (2 * (k.depth - 1) + 1) ≤ k.hBase sd i := by unfold hBase; omega
  have h0 := hw.base
  refine ⟨?_, vlist_length _ _, ?_, ?_, ?_⟩
  · rw [block, List.length_append, vlist_length, vlist_length]; omega
  · exact List.Nodup.map_on (fun x hx y hy e => out_inj hw sd i (List.mem_range.1 hx) (List.mem_range.1 hy) e) List.nodup_range
  · intro v hv
    obtain ⟨q, hq, rfl⟩ := vlist_mem.1 hv
    by_cases h : sd = true ∨ i ≠ 0
    · have := out_new sd i hq h hi
      omega
    · have h1 : sd = false := by cases sd <;> tauto
      have h2 : i = 0 := by tauto
      subst h1 h2
      have := hw.prevRoot q hq
      exact ⟨this.1, lt_of_lt_of_le this.2 (by omega)⟩
  · intro v hv
    obtain ⟨b, q, hq, rfl⟩ : ∃ b, ∃ q < k.hash.d, v = k.path sd i b q := by
      rcases List.mem_append.1 hv with h | h <;> obtain ⟨q, hq, e⟩ := vlist_mem.1 h
      exacts [⟨_, q, hq, e⟩, ⟨_, q, hq, e⟩]
    obtain ⟨-, h1, h2⟩ := hw.pathVar sd i hi b q hq
    refine ⟨by omega, fun hv' => ?_⟩
    obtain ⟨q', hq', e⟩ := vlist_mem.1 hv'
    by_cases h : sd = true ∨ i ≠ 0
    · have := out_new sd i hq' h hi
      omega
    · have h3 : sd = false := by cases sd <;> tauto
      have h4 : i = 0 := by tauto
      subst h3 h4
      exact h2 ⟨q', hq', Or.inl e⟩

theorem hash_keep (L : Law k.hash rel) (hw : k.WF) (sd : Bool) {i : ℕ} (hi : i < k.depth) (s : Asg (ZMod p)) {a : ℕ → Bool} {v : ℕ} (hv : k.Kept a v) :
    val (run (k.hash.steps (k.block sd i) (vlist k.hash.d (k.out sd i)) (k.hBase sd i)) s) v = val s v := by
  refine run_keep _ _ (L.blk _ _ _ (fits hw sd hi)).writes ?_
  rintro (h | h)
  · obtain ⟨q, hq, e⟩ := vlist_mem.1 h
    by_cases h : sd = true ∨ i ≠ 0
    · have := out_new sd i hq h hi
      have := hv.1
      omega
    · have h3 : sd = false := by cases sd <;> tauto
      have h4 : i = 0 := by tauto
      subst h3 h4
      exact hv.2.1 ⟨q, hq, Or.inl e⟩
  · have := hv.1
    have : k.base ≤ k.hBase sd i := by unfold hBase; omega
    omega

theorem copy_keep (s : Asg (ZMod p)) (src : ℕ → ℕ) (sd : Bool) {n : ℕ} (hn : n < k.depth) {a : ℕ → Bool} {v : ℕ} (hv : k.Kept a v) :
    val (copyLoop src (k.path sd (k.depth - 1 - n) (a n)) s k.hash.d) v = val s v :=
  val_congr (copyLoop_ne _ _ _ _ _ fun q hq => hv.2.2 sd n hn q hq)

theorem eval_keep (hw : k.WF) {a : ℕ → Bool} {s t : Asg (ZMod p)} (h : ∀ v, k.Kept a v → val t v = val s v) {n : ℕ} (hn : n < k.depth) :
    (k.addr (k.depth - 1 - n)).eval t = (k.address n).eval s := by
  rw [Update.addr, show k.depth - 1 - (k.depth - 1 - n) = n by omega]
  exact Sha.eval_agree (hw.addressUse n hn) fun v hv => h v (kept_of_old hv)

theorem sel_keep (hw : k.WF) {a : ℕ → Bool} {s t : Asg (ZMod p)} (h : ∀ v, k.Kept a v → val t v = val s v) (sd : Bool) {n : ℕ} (hn : n < k.depth)
    (ha : (k.address n).eval s = b2f (a n)) (src : ℕ → ℕ) {v : ℕ} (hv : k.Kept a v) :
    val (selAssign k.hash.d src (k.addr (k.depth - 1 - n)) (k.path sd (k.depth - 1 - n) false) (k.path sd (k.depth - 1 - n) true) t) v = val s v := by
  rw [← h v hv, selAssign, eval_keep hw h hn, ha]
  have := copy_keep t src sd hn hv
  cases e : a n <;> rw [e] at this <;> simpa using this

/-- The loop over the layers keeps the address and all siblings. -/
theorem layers_keep (L : Law k.hash rel) (hw : k.WF) (s : Asg (ZMod p)) (a : ℕ → Bool) (ha : ∀ n < k.depth, (k.address n).eval s = b2f (a n)) (n : ℕ)
    (hn : n ≤ k.depth) : ∀ v, k.Kept a v → val (k.layers s n) v = val s v := by
  induction n with
  | zero => intro v _; rfl
  | succ n ih =>
    have ih := ih (by omega)
    have hlt : n < k.depth := by omega
    have hi : k.depth - 1 - n < k.depth := by omega
    have h1 : ∀ v, k.Kept a v → val (k.copyAux (k.depth - 1 - n) (k.layers s n)) v = val s v := by
      intro v hv
      rw [← ih v hv, copyAux, eval_keep hw ih hlt, ha n hlt]
      have := fun sd => copy_keep (k.layers s n) (k.path false (k.depth - 1 - n) (a n)) sd hlt hv
      cases e : a n <;> rw [e] at this
      · simpa using this true
      · simpa using this true
    have h2 := fun v hv => sel_keep hw h1 false hlt (ha n hlt) (k.inp false (k.depth - 1 - n)) (v := v) hv
    have h3 := fun v hv => sel_keep hw h2 true hlt (ha n hlt) (k.inp true (k.depth - 1 - n)) (v := v) hv
    intro v hv
    rw [layers, layer]
    exact (hash_keep L hw true hi _ hv).trans ((hash_keep L hw false hi _ hv).trans (h3 v hv))

theorem assign_keep (L : Law k.hash rel) (hw : k.WF) (s : Asg (ZMod p)) (a : ℕ → Bool) (ha : ∀ n < k.depth, (k.address n).eval s = b2f (a n)) :
    ∀ v, k.Kept a v → val (k.assign s) v = val s v := by
  intro v hv
  rw [← layers_keep L hw s a ha k.depth le_rfl v hv, assign]
  have hb : k.base ≤ k.check.base := by
    show k.base ≤ k.hBase false k.depth
    unfold hBase; omega
  have hlen : k.check.source.length = k.hash.d := vlist_length _ _
  have hlen' : k.check.target.length = k.hash.d := vlist_length _ _
  apply val_congr
  have e1 : k.check.assign (k.layers s k.depth) v =
      (if k.check.doCopy.eval (k.layers s k.depth) = 1 then copyLoop (k.check.source.getD · 0) (k.check.target.getD · 0) (k.layers s k.depth) k.check.source.length
        else k.layers s k.depth) v := by
    have := hv.1
    unfold BitCopy.assign
    rw [multiFrom_ne _ _ _ _ _ _ fun a _ => by unfold BitCopy.packedTarget; omega, multiFrom_ne _ _ _ _ _ _ fun a _ => by unfold BitCopy.packedSource; omega]
  rw [e1]
  split_ifs
  · refine copyLoop_ne _ _ _ _ _ fun i hi e => ?_
    rw [List.getD_eq_getElem _ _ (by omega)] at e
    obtain ⟨q, hq, e'⟩ := vlist_mem.1 (show v ∈ vlist k.hash.d k.nextRoot from e ▸ List.getElem_mem _)
    exact hv.2.1 ⟨q, hq, Or.inr e'⟩
  · rfl

/-- The assignment leaves the siblings of both paths alone. -/
theorem update_siblings_kept (k : Update p) (L : Law k.hash rel) (hw : k.WF) (s : Asg (ZMod p)) (a : ℕ → Bool)
    (ha : ∀ n < k.depth, (k.address n).eval s = b2f (a n)) (sd : Bool) (n : ℕ) (hn : n < k.depth) :
    (k.sibVars sd a n).map (val (k.assign s)) = (k.sibVars sd a n).map (val s) := by
  refine List.map_congr_left fun v hv => ?_
  obtain ⟨q, hq, rfl⟩ := vlist_mem.1 hv
  exact assign_keep L hw s a ha _ (kept_sib hw sd hn hq)

/-- The assignment fails unless the caller has already filled in the siblings of the next path: if one of them differs from the sibling of the previous
path, the assignment violates the constraints, whatever leaves, roots and hash are. -/
theorem update_incomplete (k : Update p) (L : Law k.hash rel) (hw : k.WF) (s : Asg (ZMod p)) (a : ℕ → Bool)
    (ha : ∀ n < k.depth, (k.address n).eval s = b2f (a n)) (n : ℕ) (hn : n < k.depth)
    (hne : (k.sibVars true a n).map (val s) ≠ (k.sibVars false a n).map (val s)) : ¬ Sat (k.assign s) k.gates := by
  intro h
  obtain ⟨-, -, haux, -⟩ := gates_iff.1 h
  apply hne
  rw [← update_siblings_kept k L hw s a ha true n hn, ← update_siblings_kept k L hw s a ha false n hn]
  refine vlist_congr fun q hq => (aux_iff ?_).1 (haux _ (by omega) q hq)
  rw [eval_keep hw (assign_keep L hw s a ha) hn]
  exact ha n hn

/-! ### A concrete case -/

namespace Ex
open Voting Voting.Ex

/-- Digests of three bits over the field of five elements, chunks of two bits (one less than the modulus has), a tree of depth 2. -/
def upd : Update 5 := ⟨(toy : AnyHash 5).two, 2, fun n => Lc.var (37 + n), fun sd q => 1 + 3 * sd.toNat + q, fun q => 7 + q, fun q => 10 + q,
  fun sd i b q => 13 + 12 * sd.toNat + 6 * i + 3 * b.toNat + q, Lc.const 1, 2, 39⟩

theorem upd_wf : upd.WF := by
  refine ⟨by decide, by decide, ?_, ?_, by decide, by decide, by decide, ?_⟩
  · intro sd i hi b q hq
    have hi : i < 2 := hi
    have hq : q < 3 := hq
    have e : upd.path sd i b q = 13 + 12 * sd.toNat + 6 * i + 3 * b.toNat + q := rfl
    have h1 := Bool.toNat_le sd
    have h2 := Bool.toNat_le b
    refine ⟨by omega, by show upd.path sd i b q < 39; omega, ?_⟩
    rintro ⟨r, hr, h | h⟩
    · have h : upd.path sd i b q = 7 + r := h
      have hr : r < 3 := hr
      omega
    · have h : upd.path sd i b q = 10 + r := h
      have hr : r < 3 := hr
      omega
  · intro sd i hi b q hq sd' i' hi' b' q' hq' e
    have hi : i < 2 := hi
    have hq : q < 3 := hq
    have hi' : i' < 2 := hi'
    have hq' : q' < 3 := hq'
    have e : 13 + 12 * sd.toNat + 6 * i + 3 * b.toNat + q = 13 + 12 * sd'.toNat + 6 * i' + 3 * b'.toNat + q' := e
    cases sd <;> cases sd' <;> cases b <;> cases b' <;> simp at e ⊢ <;> omega
  · intro n hn
    have hn : n < 2 := hn
    show ∀ t ∈ [((37 + n : ℕ), (1 : ZMod 5))], t.1 = 0 ∨ t.1 < 39 ∧ ¬ upd.IsPath t.1 ∧ ¬ upd.IsRoot t.1
    intro t ht
    rw [List.mem_singleton.1 ht]
    refine Or.inr ⟨by show 37 + n < 39; omega, ?_, ?_⟩
    · rintro ⟨sd, i, hi, b, q, hq, e⟩
      have e : 37 + n = 13 + 12 * sd.toNat + 6 * i + 3 * b.toNat + q := e
      have hi : i < 2 := hi
      have hq : q < 3 := hq
      have h1 := Bool.toNat_le sd
      have h2 := Bool.toNat_le b
      omega
    · rintro ⟨q, hq, e⟩
      have hq : q < 3 := hq
      have e : 37 + n = 7 + q ∨ 37 + n = 10 + q := e
      omega

/-- Leaves 101 and 011, address bits 1 and 0, the first sibling 110, the second one 010; `f` says whether they are filled in for the next path too. -/
def start (f : Bool) : Asg (ZMod 5) := fun v =>
  if v ∈ [1, 3, 5, 6, 37, 19, 20, 17] then 1 else if v ∈ [31, 32, 29] then (if f then 1 else 0) else 0

theorem start_addr (f : Bool) : ∀ n < upd.depth, (upd.address n).eval (start f) = b2f ((fun n => n == 0) n) := by
  cases f <;> decide +kernel

/-- With the siblings filled in the assignment is accepted. -/
example : Sat (upd.assign (start true)) upd.gates ∧ Sat (upd.assign (start true)) (pathGates 3 2 (upd.path false)) := by
  unfold Sat Constraint.Holds; decide +kernel

/-- The theorem on soundness applied to it. -/
example : ∃ (prevLeaf prevRoot : List Bool) (sib : ℕ → List Bool), (vlist 3 (upd.leaf false)).map (val (upd.assign (start true))) = prevLeaf.map b2f ∧
    (vlist 3 upd.prevRoot).map (val (upd.assign (start true))) = prevRoot.map b2f ∧
    IsNode (fun m o => o = toyHash m) (fun n => n == 0) sib prevLeaf 2 prevRoot ∧
    (upd.success.eval (upd.assign (start true)) = 0 ∨ IsNode (fun m o => o = toyHash m) (fun n => n == 0) sib [false, true, true] 2 [true, true, false]) :=
  update_sound_small_chunks upd (toy_law.two (by decide)) (by decide) (by decide) (by decide) _ _ (by decide +kernel) _ _ (by decide +kernel) (by decide +kernel)
    (by unfold Sat Constraint.Holds; decide +kernel) (by unfold Sat Constraint.Holds; decide +kernel)

/-- Without them it is not. -/
example : ¬ Sat (upd.assign (start false)) upd.gates :=
  update_incomplete upd (toy_law.two (by decide)) upd_wf _ _ (start_addr false) 0 (by decide) (by decide +kernel)

end Ex

end Update
end Merkle
end R1cs
end Verif
