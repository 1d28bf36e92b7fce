import Verif.Model.SetCommitment
import Verif.Props.R1csVoting

/-!
# Set commitments

C168 (the accumulator), C169 (the component).
-/

namespace Verif
namespace SetCommitment

open R1cs.Merkle

variable {h : List Bool → List Bool}

/-- The accumulator after adding values. -/
def after (h : List Bool → List Bool) (d n : ℕ) (l : List (List Bool)) : Acc := l.foldl (add h) (new d n)

/-- The invariant: the hashes in `pos` are those of the values added, each once, at positions counting down from the last one; the leaves are
these hashes, and digests of zeros past them. -/
structure Inv (h : List Bool → List Bool) (d : ℕ) (l : List (List Bool)) (a : Acc) : Prop where
  mem : ∀ x, x ∈ a.pos.map Prod.fst ↔ ∃ v ∈ l, h v = x
  nodup : (a.pos.map Prod.fst).Nodup
  lt : ∀ e ∈ a.pos, e.2 < a.pos.length
  leaf : ∀ e ∈ a.pos, a.leaf e.2 = e.1
  zero : ∀ i, (∃ e ∈ a.pos, e.2 = i) ∨ a.leaf i = List.replicate d false

theorem lookup_none {l : List (List Bool × ℕ)} {x : List Bool} : (l.lookup x).isNone = true ↔ x ∉ l.map Prod.fst := by
  induction l with
  | nil => simp
  | cons e l ih =>
    obtain ⟨y, i⟩ := e
    rw [List.lookup_cons]
    by_cases hxy : x = y
    · simp [hxy]
    · rw [show (x == y) = false by simpa using hxy]
      simp only [ih, List.map_cons, List.mem_cons, hxy, false_or]

theorem lookup_some {l : List (List Bool × ℕ)} {x : List Bool} {i : ℕ} (e : l.lookup x = some i) : (x, i) ∈ l := by
  induction l with
  | nil => simp at e
  | cons y l ih =>
    obtain ⟨y, j⟩ := y
    rw [List.lookup_cons] at e
    by_cases hxy : x = y
    · subst hxy
      simp at e
      simp [e]
    · rw [show (x == y) = false by simpa using hxy] at e
      exact List.mem_cons_of_mem _ (ih e)

theorem inv_new (d n : ℕ) : Inv h d [] (new d n) :=
  ⟨by simp [new], by simp [new], by simp [new], by simp [new], fun i => Or.inr rfl⟩

theorem inv_add {d : ℕ} {l : List (List Bool)} {a : Acc} (hi : Inv h d l a) (v : List Bool) : Inv h d (l ++ [v]) (add h a v) := by
  unfold add
  split
  · rename_i hn
    rw [lookup_none] at hn
    refine ⟨fun x => ?_, ?_, ?_, ?_, fun i => ?_⟩
    · rw [List.map_cons, List.mem_cons, hi.mem]
      constructor
      · rintro (rfl | ⟨w, hw, rfl⟩)
        · exact ⟨v, by simp, rfl⟩
        · exact ⟨w, by simp [hw], rfl⟩
      · rintro ⟨w, hw, rfl⟩
        rcases List.mem_append.1 hw with hw | hw
        · exact Or.inr ⟨w, hw, rfl⟩
        · rw [List.mem_singleton.1 hw]; exact Or.inl rfl
    · rw [List.map_cons, List.nodup_cons]
      exact ⟨hn, hi.nodup⟩
    · intro e he
      rcases List.mem_cons.1 he with rfl | he
      · simp
      · have := hi.lt e he; simp; omega
    · intro e he
      rcases List.mem_cons.1 he with rfl | he
      · simp
      · have := hi.lt e he
        show (if e.2 = a.pos.length then h v else a.leaf e.2) = e.1
        rw [if_neg (by omega), hi.leaf e he]
    · by_cases e : i = a.pos.length
      · exact Or.inl ⟨_, List.mem_cons_self, e.symm⟩
      · rcases hi.zero i with ⟨e', he', h'⟩ | h'
        · exact Or.inl ⟨e', List.mem_cons_of_mem _ he', h'⟩
        · refine Or.inr ?_
          show (if i = a.pos.length then h v else a.leaf i) = _
          rw [if_neg e, h']
  · rename_i hn
    have hm : h v ∈ a.pos.map Prod.fst := by
      by_contra hc
      exact hn (lookup_none.2 hc)
    refine ⟨fun x => ?_, hi.nodup, hi.lt, hi.leaf, hi.zero⟩
    rw [hi.mem]
    constructor
    · rintro ⟨w, hw, rfl⟩
      exact ⟨w, by simp [hw], rfl⟩
    · rintro ⟨w, hw, rfl⟩
      rcases List.mem_append.1 hw with hw | hw
      · exact ⟨w, hw, rfl⟩
      · rw [List.mem_singleton.1 hw]; exact (hi.mem _).1 hm

theorem inv_foldl {d : ℕ} (l : List (List Bool)) : ∀ {l0 : List (List Bool)} {a : Acc}, Inv h d l0 a → Inv h d (l0 ++ l) (l.foldl (add h) a) := by
  induction l with
  | nil => intro l0 a hi; simpa using hi
  | cons v l ih =>
    intro l0 a hi
    have := ih (inv_add hi v)
    rwa [List.append_assoc, List.singleton_append] at this

theorem inv_after (d n : ℕ) (l : List (List Bool)) : Inv h d l (after h d n l) := by
  have := inv_foldl l (inv_new (h := h) d n)
  rwa [List.nil_append] at this

theorem depth_after (d n : ℕ) (l : List (List Bool)) : (after h d n l).depth = depthOf n := by
  have : ∀ (l : List (List Bool)) (a : Acc), (l.foldl (add h) a).depth = a.depth := by
    intro l
    induction l with
    | nil => intro a; rfl
    | cons v l ih =>
      intro a
      rw [List.foldl_cons, ih]
      unfold add
      split <;> rfl
  exact this l _

/-- C168: a value is in the set exactly if a value with the same hash was added. -/
theorem isIn_iff (d n : ℕ) (l : List (List Bool)) (v : List Bool) : isIn h (after h d n l) v = true ↔ ∃ w ∈ l, h w = h v := by
  rw [← (inv_after d n l).mem, isIn]
  have := @lookup_none (after h d n l).pos (h v)
  rw [Option.isNone_iff_eq_none] at this
  rw [Option.isSome_iff_ne_none, Ne, this, not_not]

/-! ### Paths -/

/-- The node above leaf `i` is the node of the tree. -/
theorem node_sibling (a : Acc) (i : ℕ) (n : ℕ) : node h (fun k => (i / 2 ^ k) % 2 = 1) (sibling h a i) (a.leaf i) n = treeNode h a.leaf n (i / 2 ^ n) := by
  induction n with
  | zero => simp [node, treeNode]
  | succ n ih =>
    rw [node, ih, treeNode, show i / 2 ^ (n + 1) = i / 2 ^ n / 2 by rw [pow_succ, Nat.div_div_eq_div_mul]]
    unfold sibling
    generalize i / 2 ^ n = j
    rcases Nat.mod_two_eq_zero_or_one j with e | e
    · have e1 : 2 * (j / 2) = j := by omega
      simp [e, e1]
    · have e1 : 2 * (j / 2) = j - 1 := by omega
      have e2 : j - 1 + 1 = j := by omega
      simp [e, e1, e2]

/-- C168: while no more hashes were added than announced, every added value has a membership proof, with an address inside the tree, from which
the commitment follows. -/
theorem proof_valid (d n : ℕ) (l : List (List Bool)) (hn : (l.map h).dedup.length ≤ n) (v : List Bool) (hv : v ∈ l) :
    ∃ i sib, membershipProof h (after h d n l) v = some (i, sib) ∧ i < 2 ^ depthOf n ∧
      node h (fun k => (i / 2 ^ k) % 2 = 1) sib (h v) (depthOf n) = commitment h (after h d n l) := by
  have hi := inv_after (h := h) d n l
  set a := after h d n l with ha
  have hs : isIn h a v = true := (isIn_iff d n l v).2 ⟨v, hv, rfl⟩
  obtain ⟨i, e⟩ := Option.isSome_iff_exists.1 hs
  have hm := lookup_some e
  have hlen : a.pos.length ≤ n := by
    refine le_trans ?_ hn
    have : a.pos.map Prod.fst ⊆ (l.map h).dedup := by
      intro x hx
      obtain ⟨w, hw, rfl⟩ := (hi.mem x).1 hx
      exact List.mem_dedup.2 (List.mem_map_of_mem hw)
    simpa using (hi.nodup.subperm this).length_le
  have hlt : i < a.pos.length := hi.lt _ hm
  have hpow : i < 2 ^ depthOf n := lt_of_lt_of_le hlt (le_trans hlen (Nat.le_pow_clog (by omega) n))
  refine ⟨i, sibling h a i, by rw [membershipProof, e]; rfl, hpow, ?_⟩
  have hl : a.leaf i = h v := hi.leaf _ hm
  rw [← hl, node_sibling, commitment, ha, depth_after, Nat.div_eq_of_lt hpow]

/-- C168: later values do not move a value. -/
theorem address_stable (a : Acc) (v w : List Bool) (i : ℕ) (hv : a.pos.lookup (h v) = some i) : (add h a w).pos.lookup (h v) = some i := by
  unfold add
  split
  · rename_i hn
    rw [List.lookup_cons]
    by_cases e : h v = h w
    · rw [e] at hv; rw [hv] at hn; simp at hn
    · rw [show (h v == h w) = false by simpa using e]
      exact hv
  · exact hv

/-- The block hashed in layer `n` of a proof. -/
def proofBlock (h : List Bool → List Bool) (addr : ℕ → Bool) (sib : ℕ → List Bool) (leaf : List Bool) (n : ℕ) : List Bool :=
  if addr n then sib n ++ node h addr sib leaf n else node h addr sib leaf n ++ sib n

/-- The block hashed in the tree for node `i` of layer `n + 1`. -/
def treeBlock (h : List Bool → List Bool) (leaf : ℕ → List Bool) (n i : ℕ) : List Bool := treeNode h leaf n (2 * i) ++ treeNode h leaf n (2 * i + 1)

/-- The number of the address bits from `m` to `m + n - 1`. -/
def addrFrom (addr : ℕ → Bool) (m : ℕ) : ℕ → ℕ
  | 0 => 0
  | n + 1 => 2 * addrFrom addr (m + 1) n + (addr m).toNat

/-- From a layer down: a proof for a node of the tree ends in the leaf of the tree at its address, or shows two different blocks with the same
hash: one of the proof, one of the tree. -/
theorem binding_layer {d : ℕ} (hlen : ∀ m, (h m).length = d) {tl : ℕ → List Bool} (htl : ∀ i, (tl i).length = d) {addr : ℕ → Bool}
    {sib : ℕ → List Bool} {leaf : List Bool} (hleaf : leaf.length = d) (n : ℕ) : ∀ j, (∀ k < n, (sib k).length = d) →
    node h addr sib leaf n = treeNode h tl n j →
    leaf = tl (j * 2 ^ n + addrFrom addr 0 n) ∨ ∃ k < n, ∃ i, proofBlock h addr sib leaf k ≠ treeBlock h tl k i ∧
      h (proofBlock h addr sib leaf k) = h (treeBlock h tl k i) := by
  have hnode : ∀ n, (node h addr sib leaf n).length = d := by
    intro n
    cases n with
    | zero => exact hleaf
    | succ n => rw [node]; split <;> exact hlen _
  have htree : ∀ n j, (treeNode h tl n j).length = d := by
    intro n j
    cases n with
    | zero => exact htl j
    | succ n => exact hlen _
  have hfrom : ∀ n m, addrFrom addr m (n + 1) = addrFrom addr m n + 2 ^ n * (addr (m + n)).toNat := by
    intro n
    induction n with
    | zero => intro m; simp [addrFrom]
    | succ n ih =>
      intro m
      rw [addrFrom, ih (m + 1), addrFrom, show m + 1 + n = m + (n + 1) by ring, pow_succ]
      ring
  induction n with
  | zero =>
    intro j _ e
    left
    simpa [node, treeNode, addrFrom] using e
  | succ n ih =>
    intro j hs e
    have e1 : h (proofBlock h addr sib leaf n) = h (treeBlock h tl n j) := by
      rw [treeNode] at e
      rw [proofBlock, treeBlock, ← e, node]
      split <;> rfl
    by_cases hb : proofBlock h addr sib leaf n = treeBlock h tl n j
    · have hsn := hs n (by omega)
      have key : node h addr sib leaf n = treeNode h tl n (2 * j + (addr n).toNat) := by
        rw [proofBlock, treeBlock] at hb
        cases ha : addr n with
        | false =>
          rw [ha, if_neg (by simp)] at hb
          exact (List.append_inj hb (by rw [hnode, htree])).1
        | true =>
          rw [ha, if_pos rfl] at hb
          exact (List.append_inj hb (by rw [hsn, htree])).2
      rcases ih _ (fun k hk => hs k (by omega)) key with r | ⟨k, hk, r⟩
      · left
        rw [r, hfrom, zero_add]
        congr 1
        rw [pow_succ]; ring
      · exact Or.inr ⟨k, by omega, r⟩
    · exact Or.inr ⟨n, by omega, j, hb, e1⟩

/-- C168: whoever proves membership of a value under the commitment has a value of the set, or one whose hash is the digest of zeros, or two
different blocks with the same hash: one of the proof and one of the tree. -/
theorem binding {d : ℕ} (hlen : ∀ m, (h m).length = d) (n : ℕ) (l : List (List Bool)) (v : List Bool) {addr : ℕ → Bool} {sib : ℕ → List Bool}
    (hsib : ∀ k < depthOf n, (sib k).length = d) (e : node h addr sib (h v) (depthOf n) = commitment h (after h d n l)) :
    isIn h (after h d n l) v = true ∨ h v = List.replicate d false ∨ ∃ k < depthOf n, ∃ i,
      proofBlock h addr sib (h v) k ≠ treeBlock h (after h d n l).leaf k i ∧
      h (proofBlock h addr sib (h v) k) = h (treeBlock h (after h d n l).leaf k i) := by
  have hi := inv_after (h := h) d n l
  set a := after h d n l with ha
  have hz : ∀ i, a.leaf i = List.replicate d false ∨ ∃ w ∈ l, h w = a.leaf i := by
    intro i
    rcases hi.zero i with ⟨e', he', rfl⟩ | h'
    · refine Or.inr ?_
      rw [hi.leaf e' he']
      exact (hi.mem _).1 (List.mem_map_of_mem he')
    · exact Or.inl h'
  have htl : ∀ i, (a.leaf i).length = d := by
    intro i
    rcases hz i with h' | ⟨w, -, h'⟩
    · rw [h', List.length_replicate]
    · rw [← h', hlen]
  rw [commitment, ha, depth_after, ← ha] at e
  rcases binding_layer hlen htl (hlen v) (depthOf n) 0 hsib e with r | r
  · rcases hz (0 * 2 ^ depthOf n + addrFrom addr 0 (depthOf n)) with h' | ⟨w, hw, h'⟩
    · exact Or.inr (Or.inl (r.trans h'))
    · refine Or.inl ((isIn_iff d n l v).2 ⟨w, hw, h'.trans r.symm⟩)
  · exact Or.inr (Or.inr r)

/-- C168 is false past the announced number of entries, which nothing checks: a value is in the set and its own proof does not lead to the
commitment. -/
theorem capacity_unchecked (d : ℕ) (v w : List Bool) (hvw : h v ≠ h w) :
    isIn h (after h d 1 [v, w]) w = true ∧ ∃ i sib, membershipProof h (after h d 1 [v, w]) w = some (i, sib) ∧ 2 ^ depthOf 1 ≤ i ∧
      node h (fun k => (i / 2 ^ k) % 2 = 1) sib (h w) (depthOf 1) ≠ commitment h (after h d 1 [v, w]) := by
  have hp : (after h d 1 [v, w]).pos = [(h w, 1), (h v, 0)] := by
    simp [after, add, new, List.lookup, show (h w == h v) = false by simpa using hvw.symm]
  have hl : (after h d 1 [v, w]).leaf 0 = h v := by
    simp [after, add, new, List.lookup, show (h w == h v) = false by simpa using hvw.symm]
  have hd : depthOf 1 = 0 := by simp [depthOf]
  refine ⟨(isIn_iff d 1 _ w).2 ⟨w, by simp, rfl⟩, 1, sibling h (after h d 1 [v, w]) 1, ?_, by simp [hd], ?_⟩
  · simp [membershipProof, hp]
  · rw [commitment, depth_after, hd]
    show h w ≠ treeNode h (after h d 1 [v, w]).leaf 0 0
    rw [treeNode, hl]
    exact hvw.symm

end SetCommitment

namespace R1cs
namespace SetMembership

open Merkle Voting Verif.SetCommitment

variable {p : ℕ} [hp : Fact p.Prime] {h : List Bool → List Bool}

namespace Member

theorem bits_length {s : Asg (ZMod p)} {d : ℕ} {f : ℕ → ℕ} {o : List Bool} (e : (vlist d f).map (val s) = o.map b2f) : o.length = d := by
  have := congrArg List.length e
  simpa [vlist_length] using this.symm

theorem bits_inj {a b : List Bool} (e : a.map (b2f (p := p)) = b.map b2f) : a = b :=
  List.map_injective_iff.2 (fun _ _ e => b2f_inj e) e

theorem address_bits {s : Asg (ZMod p)} {n : ℕ} {a : ℕ → ℕ} (hs : Sat s ((List.range n).map fun i => boolean (Lc.var (a i)))) :
    ∃ addr : ℕ → Bool, ∀ i < n, val s (a i) = b2f (addr i) := by
  rw [sat_map] at hs
  refine ⟨fun i => decide (val s (a i) = 1), fun i hi => ?_⟩
  have := hs i (List.mem_range.2 hi)
  rw [boolean_iff, eval_var] at this
  rcases this with e | e <;> simp [e, b2f]

/-- C169: if the check is declared successful and the chunks fit in the field, the root is reached from the hash of the element with an address and
siblings that are in the variables of the proof. For a tree of depth 0 the root is the hash whatever is declared. -/
theorem member_sound (k : Member p) (L : AnyLaw k.hash (fun m o => o = h m)) (hd : 0 < k.hash.d) (hc : 0 < k.c) (hp' : 2 ^ k.c ≤ p) (s : Asg (ZMod p))
    (elt root : List Bool) (he0 : elt ≠ []) (helt : k.element.map (val s) = elt.map b2f) (hroot : (vlist k.hash.d k.root).map (val s) = root.map b2f)
    (hpf : Sat s k.proofGates) (hg : Sat s k.gates) (hs : k.depth = 0 ∨ k.success.eval s ≠ 0) :
    ∃ (addr : ℕ → Bool) (sib : ℕ → List Bool), (∀ n < k.depth, val s (k.address n) = b2f (addr n)) ∧
      (∀ n < k.depth, (vlist k.hash.d (k.path (k.depth - 1 - n) (!addr n))).map (val s) = (sib n).map b2f) ∧
      root = node h addr sib (h elt) k.depth := by
  have hel : k.element ≠ [] := by
    intro e
    rw [e] at helt
    exact he0 (by simpa using helt.symm)
  have inj : ∀ {a b : List Bool}, a.map (b2f (p := p)) = b.map b2f → a = b := bits_inj
  by_cases h0 : k.depth = 0
  · rw [gates, if_pos h0] at hg
    obtain ⟨o, ho, rfl⟩ := L.sound s _ _ _ elt hel (vlist_length _ _) helt hg
    refine ⟨fun _ => false, fun _ => [], by omega, by omega, ?_⟩
    rw [h0, node]
    exact inj (hroot.symm.trans ho)
  · rw [gates, if_neg h0, sat_append] at hg
    rw [proofGates, if_neg h0, sat_append] at hpf
    obtain ⟨o, ho, rfl⟩ := L.sound s _ _ _ elt hel (vlist_length _ _) helt hg.1
    obtain ⟨addr, ha⟩ := address_bits hpf.1
    obtain ⟨leaf, sib, e1, e2, e3⟩ := Read.read_sound_small_chunks k.read (L.two hd) (Nat.pos_of_ne_zero h0) hc hp' s addr
      (fun n hn => by rw [← ha n hn]; exact eval_var s _) root hroot hpf.2 hg.2
    refine ⟨addr, sib, ha, e2, ?_⟩
    have hl : leaf = h elt := inj (e1.symm.trans ho)
    rcases e3 with e3 | e3
    · exact absurd e3 (hs.resolve_left h0)
    · rw [isNode_fun, hl] at e3
      exact e3

/-- C169: an element accepted under the commitment of an accumulator is in its set, or hashes to the digest of zeros, or two different blocks with the
same hash are found, one in the variables of the proof and one in the tree. -/
theorem member_of_set (k : Member p) (L : AnyLaw k.hash (fun m o => o = h m)) (hlen : ∀ m, (h m).length = k.hash.d) (hd : 0 < k.hash.d) (hc : 0 < k.c)
    (hp' : 2 ^ k.c ≤ p) (n : ℕ) (hn : k.depth = depthOf n) (l : List (List Bool)) (s : Asg (ZMod p)) (elt : List Bool) (he0 : elt ≠ [])
    (helt : k.element.map (val s) = elt.map b2f) (hroot : (vlist k.hash.d k.root).map (val s) = (commitment h (after h k.hash.d n l)).map b2f)
    (hpf : Sat s k.proofGates) (hg : Sat s k.gates) (hs : k.success.eval s ≠ 0) :
    isIn h (after h k.hash.d n l) elt = true ∨ h elt = List.replicate k.hash.d false ∨ ∃ (addr : ℕ → Bool) (sib : ℕ → List Bool),
      (∀ n < k.depth, val s (k.address n) = b2f (addr n)) ∧
      (∀ n < k.depth, (vlist k.hash.d (k.path (k.depth - 1 - n) (!addr n))).map (val s) = (sib n).map b2f) ∧
      ∃ j < k.depth, ∃ i, proofBlock h addr sib (h elt) j ≠ treeBlock h (after h k.hash.d n l).leaf j i ∧
        h (proofBlock h addr sib (h elt) j) = h (treeBlock h (after h k.hash.d n l).leaf j i) := by
  obtain ⟨addr, sib, e1, e2, e3⟩ := member_sound k L hd hc hp' s elt _ he0 helt hroot hpf hg (Or.inr hs)
  rw [hn] at e3
  rcases binding hlen n l elt (fun j hj => bits_length (e2 j (by rw [hn]; exact hj))) e3.symm with r | r | ⟨j, hj, r⟩
  · exact Or.inl r
  · exact Or.inr (Or.inl r)
  · exact Or.inr (Or.inr ⟨addr, sib, e1, e2, j, by rw [hn]; exact hj, r⟩)

/-- C169 is false for a tree of depth 0 when the check is declared not successful: another root than the hash of the element is refused although
nothing should be checked. -/
theorem depth_zero_ignores_flag (k : Member p) (L : AnyLaw k.hash (fun m o => o = h m)) (h0 : k.depth = 0) (s : Asg (ZMod p)) (elt root : List Bool)
    (he0 : elt ≠ []) (helt : k.element.map (val s) = elt.map b2f) (hroot : (vlist k.hash.d k.root).map (val s) = root.map b2f)
    (hne : root ≠ h elt) : ¬ Sat s k.gates := by
  intro hg
  have hel : k.element ≠ [] := by
    intro e
    rw [e] at helt
    exact he0 (by simpa using helt.symm)
  rw [gates, if_pos h0] at hg
  obtain ⟨o, ho, rfl⟩ := L.sound s _ _ _ elt hel (vlist_length _ _) helt hg
  exact hne (bits_inj (hroot.symm.trans ho))

/-! ### The honest assignment -/

/-- How the component is put together for a tree that is not of depth 0. -/
structure WF (k : Member p) : Prop where
  base : k.base ≠ 0
  depth : 0 < k.depth
  chunk : 0 < k.c
  hashD : 0 < k.hash.d
  element0 : k.element ≠ []
  pathVar : ∀ i < k.depth, ∀ b, ∀ q < k.hash.d, k.path i b q ≠ 0 ∧ k.path i b q < k.base
  pathInj : ∀ i < k.depth, ∀ b, ∀ q < k.hash.d, ∀ i' < k.depth, ∀ b', ∀ q' < k.hash.d, k.path i b q = k.path i' b' q' → i = i' ∧ b = b' ∧ q = q'
  rootVar : ∀ q < k.hash.d, k.root q ≠ 0 ∧ k.root q < k.base ∧ ¬ k.read.IsPath (k.root q)
  rootInj : ∀ q < k.hash.d, ∀ q' < k.hash.d, k.root q = k.root q' → q = q'
  elementVar : ∀ v ∈ k.element, v < k.base ∧ ¬ k.read.IsPath v ∧ ¬ k.read.IsRootVar v
  addressVar : ∀ n < k.depth, k.address n < k.base ∧ ¬ k.read.IsPath (k.address n) ∧ ¬ k.read.IsRootVar (k.address n)
  successUse : k.success.Uses fun v => v < k.base ∧ ¬ k.read.IsPath v ∧ ¬ k.read.IsRootVar v

theorem read_wf {k : Member p} (w : k.WF) : k.read.WF := by
  have hb : k.read.base = k.base + k.hash.d + k.hash.size k.element.length := rfl
  refine ⟨by rw [hb]; have := w.base; omega, w.depth, w.chunk, ?_, w.pathInj, ?_, ?_, w.rootInj, ?_, ?_⟩
  · intro i hi b q hq
    have := w.pathVar i hi b q hq
    exact ⟨this.1, lt_of_lt_of_le this.2 (by omega)⟩
  · intro q hq
    have e : k.read.leaf q = k.base + q := rfl
    have hq : q < k.hash.d := hq
    refine ⟨by omega, ?_, ?_⟩
    · rintro ⟨i, hi, b, r, hr, e'⟩
      have := (w.pathVar i hi b r hr).2
      have e' : k.read.leaf q = k.path i b r := e'
      omega
    · rintro ⟨r, hr, e'⟩
      have := (w.rootVar r hr).2.1
      have e' : k.read.leaf q = k.root r := e'
      omega
  · intro q hq
    have := w.rootVar q hq
    exact ⟨this.1, lt_of_lt_of_le this.2.1 (by omega), this.2.2⟩
  · intro n hn t ht
    have := w.addressVar n hn
    have ht : t ∈ [(k.address n, (1 : ZMod p))] := ht
    rw [List.mem_singleton] at ht
    subst ht
    exact Or.inr ⟨by show k.address n < _; omega, this.2⟩
  · intro t ht
    exact (w.successUse t ht).imp_right fun hv => ⟨by omega, hv.2⟩

/-- C169: the assignment of the component satisfies all constraints, for every element, address and siblings that are bits; the root becomes the one
computed from them if the check is to be successful and stays otherwise. -/
theorem member_complete (k : Member p) (L : AnyLaw k.hash (fun m o => o = h m)) (w : k.WF) (s : Asg (ZMod p)) (elt root : List Bool) (a : ℕ → Bool)
    (sib : ℕ → List Bool) (helt : k.element.map (val s) = elt.map b2f) (ha : ∀ n < k.depth, val s (k.address n) = b2f (a n))
    (hsib : ∀ n < k.depth, (vlist k.hash.d (k.path (k.depth - 1 - n) (!a n))).map (val s) = (sib n).map b2f)
    (hroot : (vlist k.hash.d k.root).map (val s) = root.map b2f) (hs : IsBit (k.success.eval s)) :
    Sat (k.assign s) k.proofGates ∧ Sat (k.assign s) k.gates ∧ k.element.map (val (k.assign s)) = elt.map b2f ∧
      k.success.eval (k.assign s) = k.success.eval s ∧
      (vlist k.hash.d k.root).map (val (k.assign s)) = (if k.success.eval s = 1 then node h a sib (h elt) k.depth else root).map b2f := by
  have h0 : ¬ k.depth = 0 := by have := w.depth; omega
  have hw := read_wf w
  have LT := L.two w.hashD
  have mdig : ∀ {v}, v ∈ vlist k.hash.d k.digest ↔ k.base ≤ v ∧ v < k.base + k.hash.d := by
    intro v
    rw [vlist_mem]
    exact ⟨fun ⟨q, hq, e⟩ => by rw [e, digest]; omega, fun hv => ⟨v - k.base, by omega, by rw [digest]; omega⟩⟩
  have blk := L.blk k.element (vlist k.hash.d k.digest) (k.base + k.hash.d) ⟨w.element0, vlist_length _ _, Vote.vlist_nodup (b := k.base) fun _ => rfl,
    fun v hv => by rw [mdig] at hv; have := w.base; omega, fun v hv => by have := (w.elementVar v hv).1; rw [mdig]; omega⟩
  have hb : k.read.base = k.base + k.hash.d + k.hash.size k.element.length := rfl
  rw [assign, if_neg h0]
  set s0 := run (k.hash.steps k.element (vlist k.hash.d k.digest) (k.base + k.hash.d)) s with hs0
  have k0 : ∀ v, v < k.base → val s0 v = val s v := fun v hv => run_keep _ _ blk.writes (by rw [mdig]; omega)
  have elt0 : k.element.map (val s0) = elt.map b2f := by
    rw [← helt]
    exact List.map_congr_left fun v hv => k0 v (w.elementVar v hv).1
  have g1 : Sat s0 (k.hash.gates k.element (vlist k.hash.d k.digest) (k.base + k.hash.d)) :=
    L.eqs s0 _ _ _ elt w.element0 (vlist_length _ _) elt0 (run_eq _ blk.ssa s)
  obtain ⟨o, ho, rfl⟩ := L.sound s0 _ _ _ elt w.element0 (vlist_length _ _) elt0 g1
  have ha0 : ∀ n < k.depth, (k.read.address n).eval s0 = b2f (a n) := by
    intro n hn
    rw [← ha n hn, ← k0 _ (w.addressVar n hn).1]
    exact eval_var s0 _
  have hin : k.read.Inputs s0 a sib (h elt) := by
    refine ⟨ha0, fun n hn => ?_, ho⟩
    rw [← hsib n hn]
    refine List.map_congr_left fun v hv => ?_
    obtain ⟨q, hq, rfl⟩ := vlist_mem.1 hv
    exact k0 _ (w.pathVar (k.depth - 1 - n) (by have := w.depth; omega) _ q hq).2
  have hroot0 : (vlist k.hash.d k.root).map (val s0) = root.map b2f := by
    rw [← hroot]
    refine List.map_congr_left fun v hv => ?_
    obtain ⟨q, hq, rfl⟩ := vlist_mem.1 hv
    exact k0 _ (w.rootVar q hq).2.1
  have hsv : k.read.success.eval s0 = k.success.eval s := Sha.eval_agree w.successUse fun v hv => k0 v hv.1
  obtain ⟨g2, g3, hin', hsv', x, hx, hxr⟩ := Read.read_complete k.read LT hw s0 a sib (h elt) hin (by rw [hsv]; exact hs) root hroot0
  have keep : ∀ v, v < k.read.base → ¬ k.read.IsPath v → ¬ k.read.IsRootVar v → val (k.read.assign s0) v = val s0 v := by
    intro v hv h1 h2
    have e1 : val (k.read.assign s0) v = val (k.read.layers s0 k.depth) v :=
      val_congr (BitCopy.assign_keep k.read.check (Read.check_wf hw) _
        (lt_of_lt_of_le hv (le_trans (Nat.le_add_right _ _) (k.read.hBase_ge k.depth)))
        fun e => h2 (vlist_mem.1 (show v ∈ vlist k.hash.d k.root from e)))
    rw [e1, Read.layers_run LT hw s0 a ha0 k.depth le_rfl]
    refine run_keep _ _ (Read.lvls_blk LT hw a k.depth le_rfl).writes ?_
    rintro ⟨i, hi, hT⟩
    exact Read.lvlT_old a hi hv h1 hT
  have npath : ∀ v, k.base ≤ v → ¬ k.read.IsPath v ∧ ¬ k.read.IsRootVar v := by
    intro v hv
    refine ⟨?_, ?_⟩
    · rintro ⟨i, hi, b, q, hq, e⟩
      have := (w.pathVar i hi b q hq).2
      have e : v = k.path i b q := e
      omega
    · rintro ⟨q, hq, e⟩
      have := (w.rootVar q hq).2.1
      have e : v = k.root q := e
      omega
  have elt1 : ∀ v ∈ k.element, val (k.read.assign s0) v = val s0 v := by
    intro v hv
    obtain ⟨n1, n2, n3⟩ := w.elementVar v hv
    exact keep v (by omega) n2 n3
  refine ⟨?_, ?_, ?_, ?_, ?_⟩
  · rw [proofGates, if_neg h0, sat_append]
    refine ⟨?_, g2⟩
    rw [sat_map]
    intro i hi
    rw [boolean_iff]
    have := hin'.address i (List.mem_range.1 hi)
    rw [show k.read.address i = Lc.var (k.address i) from rfl] at this
    rw [this]
    exact isBit_b2f _
  · rw [gates, if_neg h0, sat_append]
    refine ⟨L.loc _ _ _ w.element0 (vlist_length _ _) s0 _ ?_ g1, g3⟩
    rintro v (hv | hv | hv)
    · exact (elt1 v hv).symm
    · rw [mdig] at hv
      obtain ⟨n1, n2⟩ := npath v hv.1
      exact (keep v (by omega) n1 n2).symm
    · obtain ⟨n1, n2⟩ := npath v (by omega)
      exact (keep v (by omega) n1 n2).symm
  · rw [← elt0]
    exact List.map_congr_left elt1
  · rw [← hsv]; exact hsv'
  · rw [isNode_fun] at hx
    rw [hsv, hx] at hxr
    exact hxr

/-- C169: with the proof of the accumulator, within the announced number of entries, the check succeeds and the root is the commitment. -/
theorem set_complete (k : Member p) (L : AnyLaw k.hash (fun m o => o = h m)) (w : k.WF) (n : ℕ) (hn : k.depth = depthOf n) (l : List (List Bool))
    (hl : (l.map h).dedup.length ≤ n) (elt : List Bool) (hm : elt ∈ l) : ∃ (i : ℕ) (sib : ℕ → List Bool),
      membershipProof h (after h k.hash.d n l) elt = some (i, sib) ∧ i < 2 ^ k.depth ∧
      ∀ (s : Asg (ZMod p)) (root : List Bool), k.element.map (val s) = elt.map b2f → (∀ j < k.depth, val s (k.address j) = b2f ((i / 2 ^ j) % 2 = 1)) →
        (∀ j < k.depth, (vlist k.hash.d (k.path (k.depth - 1 - j) (!decide ((i / 2 ^ j) % 2 = 1)))).map (val s) = (sib j).map b2f) →
        (vlist k.hash.d k.root).map (val s) = root.map b2f → k.success.eval s = 1 →
        Sat (k.assign s) k.proofGates ∧ Sat (k.assign s) k.gates ∧ k.success.eval (k.assign s) = 1 ∧
          (vlist k.hash.d k.root).map (val (k.assign s)) = (commitment h (after h k.hash.d n l)).map b2f := by
  obtain ⟨i, sib, e1, e2, e3⟩ := proof_valid k.hash.d n l hl elt hm
  refine ⟨i, sib, e1, by rw [hn]; exact e2, fun s root h1 h2 h3 h4 h5 => ?_⟩
  obtain ⟨g1, g2, -, g4, g5⟩ := member_complete k L w s elt root _ sib h1 h2 h3 h4 (Or.inr h5)
  rw [if_pos h5, hn, e3] at g5
  exact ⟨g1, g2, g4.trans h5, g5⟩

end Member

/-! ### A concrete case -/

instance : Fact (Nat.Prime 5) := ⟨by decide⟩

/-- Digests of three bits over the field of five elements, chunks of two bits, two entries. -/
def exMember : Member 5 := ⟨toy, 1, [1, 2, 3], fun q => 10 + q, fun _ => 19, fun _ b q => 13 + 3 * b.toNat + q, Lc.const 1, 2, 20⟩

theorem exMember_wf : exMember.WF := by
  refine ⟨by decide, by decide, by decide, by decide, by decide, by decide, ?_, ?_, by decide, ?_, ?_, ?_⟩
  · intro i hi b q hq i' hi' b' q' hq' e
    have e : 13 + 3 * b.toNat + q = 13 + 3 * b'.toNat + q' := e
    have hi : i < 1 := hi
    have hi' : i' < 1 := hi'
    have hq : q < 3 := hq
    have hq' : q' < 3 := hq'
    have e2 : b.toNat = b'.toNat := by omega
    refine ⟨by omega, ?_, by omega⟩
    cases b <;> cases b' <;> simp_all
  · intro q hq
    have hq : q < 3 := hq
    refine ⟨by show 10 + q ≠ 0; omega, by show 10 + q < 20; omega, ?_⟩
    rintro ⟨i, _, b, r, _, e⟩
    have e : 10 + q = 13 + 3 * b.toNat + r := e
    omega
  · intro v hv
    have hv' : 1 ≤ v ∧ v ≤ 3 := by
      simp only [exMember, List.mem_cons, List.not_mem_nil, or_false] at hv
      omega
    refine ⟨by show v < 20; omega, ?_, ?_⟩
    · rintro ⟨i, _, b, r, _, e⟩
      have e : v = 13 + 3 * b.toNat + r := e
      omega
    · rintro ⟨r, _, e⟩
      have e : v = 10 + r := e
      omega
  · intro n _
    refine ⟨by show 19 < 20; omega, ?_, ?_⟩
    · rintro ⟨i, _, b, r, hr, e⟩
      have e : 19 = 13 + 3 * b.toNat + r := e
      have hr : r < 3 := hr
      have := Bool.toNat_le b
      omega
    · rintro ⟨r, hr, e⟩
      have e : 19 = 10 + r := e
      have hr : r < 3 := hr
      omega
  · intro t ht
    left
    simp only [exMember, Lc.const, List.mem_singleton] at ht
    rw [ht]

/-- The set. -/
def exSet : List (List Bool) := [[true, false, true], [false, true, true], [true, false, true]]

/-- The second element with its proof: address 1 and the sibling 1, 0, 1. -/
def exStart : Asg (ZMod 5) := fun v => if v = 2 ∨ v = 3 ∨ v = 19 ∨ v = 13 ∨ v = 15 then 1 else 0

theorem exAccepted : Sat (exMember.assign exStart) exMember.proofGates ∧ Sat (exMember.assign exStart) exMember.gates ∧
    exMember.success.eval (exMember.assign exStart) = 1 ∧
    (vlist 3 exMember.root).map (val (exMember.assign exStart)) = (commitment toyHash (after toyHash 3 2 exSet)).map b2f := by
  obtain ⟨i, sib, e1, -, e3⟩ := Member.set_complete exMember toy_law exMember_wf 2 (by decide +kernel) exSet (by decide +kernel) [false, true, true]
    (by decide)
  have e2 : membershipProof toyHash (after toyHash 3 2 exSet) [false, true, true] = some (1, sibling toyHash (after toyHash 3 2 exSet) 1) := by
    rw [membershipProof, show (after toyHash 3 2 exSet).pos.lookup (toyHash [false, true, true]) = some 1 by decide +kernel]
    rfl
  have e1 : membershipProof toyHash (after toyHash 3 2 exSet) [false, true, true] = some (i, sib) := e1
  rw [e2, Option.some.injEq, Prod.mk.injEq] at e1
  obtain ⟨rfl, rfl⟩ := e1
  exact e3 exStart [false, false, false] (by decide +kernel) (by decide +kernel) (by decide +kernel) (by decide +kernel) (by decide +kernel)

/-- The hypotheses of the soundness theorem hold for it. -/
example : isIn toyHash (after toyHash 3 2 exSet) [false, true, true] = true ∨ toyHash [false, true, true] = List.replicate 3 false ∨ ∃ (addr : ℕ → Bool)
    (sib : ℕ → List Bool), ∃ j < 1, ∃ i, proofBlock toyHash addr sib (toyHash [false, true, true]) j ≠ treeBlock toyHash (after toyHash 3 2 exSet).leaf j i := by
  rcases Member.member_of_set exMember toy_law (fun m => by simp [toyHash, exMember, toy]) (by decide) (by decide) (by decide) 2 (by decide +kernel) exSet
    (exMember.assign exStart) [false, true, true] (by decide) (by decide +kernel) exAccepted.2.2.2 exAccepted.1 exAccepted.2.1
    (by rw [exAccepted.2.2.1]; decide) with r | r | ⟨addr, sib, -, -, j, hj, i, hne, -⟩
  · exact Or.inl r
  · exact Or.inr (Or.inl r)
  · exact Or.inr (Or.inr ⟨addr, sib, j, hj, i, hne⟩)

/-- One entry: with another root the constraints refuse every assignment, though the check is declared not successful. -/
def exSingle : Member 5 := ⟨toy, 0, [1, 2, 3], fun q => 10 + q, fun _ => 19, fun _ b q => 13 + 3 * b.toNat + q, Lc.const 0, 2, 20⟩

example : ¬ Sat (fun v => if v = 2 then 1 else 0) exSingle.gates :=
  Member.depth_zero_ignores_flag exSingle toy_law rfl _ [false, true, false] [false, false, false] (by decide) (by decide +kernel) (by decide +kernel)
    (by decide)

/-- With two entries such an element and root are accepted, when the check is declared not successful. -/
example : ∃ t : Asg (ZMod 5), Sat t { exMember with success := Lc.const 0 }.gates ∧ (vlist 3 exMember.root).map (val t) = [0, 0, 0] := by
  refine ⟨{ exMember with success := Lc.const 0 }.assign exStart, ?_, by decide +kernel⟩
  unfold Sat Constraint.Holds
  decide +kernel

/-- The second value in a set announced for one. -/
example : ∃ i sib, membershipProof toyHash (after toyHash 3 1 [[true, false, true], [false, true, true]]) [false, true, true] = some (i, sib) ∧
    2 ^ depthOf 1 ≤ i := by
  obtain ⟨-, i, sib, e1, e2, -⟩ := capacity_unchecked (h := toyHash) 3 [true, false, true] [false, true, true] (by decide)
  exact ⟨i, sib, e1, e2⟩

end SetMembership
end R1cs
end Verif
