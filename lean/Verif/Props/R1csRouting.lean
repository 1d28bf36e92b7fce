import Verif.Model.R1csRouting
import Verif.Props.R1csPack
import Mathlib.Data.Fintype.EquivFin

/-!
# C156, C157: routing networks in R1CS
-/

set_option linter.unusedSimpArgs false
set_option linter.unusedVariables false
set_option linter.unusedSectionVars false

namespace Verif
namespace R1cs
namespace Routing
variable {p : ℕ} [Fact p.Prime]

/-! ### Specification -/

/-- The packets `out` are the packets `inp` in another order: packet `i` arrives at `π i`. -/
def Permuted {α : Type*} (n : ℕ) (inp out : ℕ → α) : Prop := ∃ π : Equiv.Perm (Fin n), ∀ i : Fin n, out (π i) = inp i

/-- The values of bit variables. -/
def bitsOf (s : Asg (ZMod p)) (l : List ℕ) : List (ZMod p) := l.map (val s)

/-! ### Packing -/

theorem multi_iff (s : Asg (ZMod p)) (bits : List ℕ) (bs : List Bool) (hb : bitsOf s bits = bs.map b2f) (packed : ℕ → ℕ) (c : ℕ) (e : Bool) :
    Sat s (multiGates (bits.map Lc.var) (fun j => Lc.var (packed j)) c e) ↔
      ∀ j < numChunks bs.length c, val s (packed j) = ((bnat (chunk bs c j) : ℕ) : ZMod p) := by
  have hl : bs.length = bits.length := by simpa [bitsOf] using (congrArg List.length hb).symm
  rw [multi_sat_iff, List.length_map, hl]
  refine forall₂_congr fun j hj => ?_
  rw [eval_packSum s 1 _ (chunk bs c j) (by rw [← chunk_map, ← chunk_map, map_var_eval]; exact congrArg (fun l => chunk l c j) hb), one_mul, eval_var]
  constructor
  · rintro ⟨h, -⟩; exact h.symm
  · intro h
    refine ⟨h.symm, fun _ l hl => ?_⟩
    rw [chunk_map] at hl
    obtain ⟨x, hx, rfl⟩ := List.mem_map.1 hl
    rw [eval_var]
    have : val s x ∈ bitsOf s bits := List.mem_map_of_mem (mem_of_chunk hx)
    rw [hb] at this
    obtain ⟨b, -, h⟩ := List.mem_map.1 this
    rw [← h]; exact isBit_b2f b

/-- The number of the bits in the chunks is determined by the packed values. -/
theorem chunks_inj {c : ℕ} (hc : 0 < c) (hp : 2 ^ c ≤ p) {a b : List Bool} (hl : a.length = b.length)
    (h : ∀ j < numChunks a.length c, ((bnat (chunk a c j) : ℕ) : ZMod p) = ((bnat (chunk b c j) : ℕ) : ZMod p)) : a = b := by
  refine list_eq_of_chunks hc hl fun j hj => ?_
  have hlt : ∀ l : List Bool, bnat (chunk l c j) < p := fun l =>
    lt_of_lt_of_le (lt_of_lt_of_le (bnat_lt _) (Nat.pow_le_pow_right (by norm_num) (chunk_length _ _ _))) hp
  apply bnat_inj
  · unfold chunk; rw [List.length_drop, List.length_drop, List.length_take, List.length_take, hl]
  · rw [← ZMod.val_natCast_of_lt (hlt a), ← ZMod.val_natCast_of_lt (hlt b), h j hj]

theorem sub_eq {w cap : ℕ} (hc : 0 < cap) : (w + cap - 1) / cap = numChunks w cap := by
  unfold numChunks; congr 1; omega

/-! ### Columns -/

/-- If every packet of a column is found at one of the next and the packets are different, the next column is the same packets in another order. -/
theorem permuted_of_found {α : Type*} {n : ℕ} {a o : ℕ → α} (hinj : ∀ i < n, ∀ j < n, a i = a j → i = j) (h : ∀ i < n, ∃ j < n, o j = a i) : Permuted n a o := by
  choose f hf hfo using h
  let g : Fin n → Fin n := fun i => ⟨f i i.2, hf i i.2⟩
  have gi : Function.Injective g := by
    intro x y e
    have : f x x.2 = f y y.2 := by simpa [g] using e
    apply Fin.ext
    exact hinj _ x.2 _ y.2 (by rw [← hfo x x.2, ← hfo y y.2, this])
  exact ⟨Equiv.ofBijective g (Finite.injective_iff_bijective.1 gi), fun i => hfo i i.2⟩

theorem Permuted.refl {α : Type*} (n : ℕ) (a : ℕ → α) : Permuted n a a := ⟨Equiv.refl _, fun _ => rfl⟩

theorem Permuted.trans {α : Type*} {n : ℕ} {a b c : ℕ → α} (h : Permuted n a b) (h' : Permuted n b c) : Permuted n a c := by
  obtain ⟨π, h⟩ := h
  obtain ⟨σ, h'⟩ := h'
  exact ⟨π.trans σ, fun i => by rw [Equiv.trans_apply, h', h]⟩

theorem Permuted.inj {α : Type*} {n : ℕ} {a b : ℕ → α} (h : Permuted n a b) (hinj : ∀ i < n, ∀ j < n, a i = a j → i = j) :
    ∀ i < n, ∀ j < n, b i = b j → i = j := by
  obtain ⟨π, h⟩ := h
  intro i hi j hj e
  have key : ∀ i : Fin n, b i = a (π.symm i) := fun i => by rw [← h, Equiv.apply_symm_apply]
  have := hinj _ (π.symm ⟨i, hi⟩).2 _ (π.symm ⟨j, hj⟩).2 (by rw [← key, ← key]; exact e)
  have := π.symm.injective (Fin.ext this)
  exact congrArg Fin.val this

/-- Column by column. -/
theorem permuted_cols {α : Type*} {n cols : ℕ} (a : ℕ → ℕ → α) (hinj : ∀ i < n, ∀ j < n, a 0 i = a 0 j → i = j)
    (h : ∀ c < cols, ∀ i < n, ∃ j < n, a (c + 1) j = a c i) : Permuted n (a 0) (a cols) := by
  have : ∀ c ≤ cols, Permuted n (a 0) (a c) := by
    intro c
    induction c with
    | zero => intro _; exact Permuted.refl _ _
    | succ c ih =>
      intro hc
      have := ih (by omega)
      exact this.trans (permuted_of_found (this.inj hinj) (h c (by omega)))
  exact this cols le_rfl

theorem permuted_all {α : Type*} {n cols : ℕ} (a : ℕ → ℕ → α) (h : ∀ c < cols, Permuted n (a c) (a (c + 1))) : Permuted n (a 0) (a cols) := by
  induction cols with
  | zero => exact Permuted.refl _ _
  | succ c ih => exact (ih fun d hd => h d (by omega)).trans (h c (by omega))

/-- From packed values to bits. -/
theorem permuted_bits {n w cap cols : ℕ} (hc : 0 < cap) (hp : 2 ^ cap ≤ p) (s : Asg (ZMod p)) (inB outB : ℕ → List ℕ) (pk : ℕ → ℕ → ℕ → ℕ)
    (hw : ∀ i < n, (inB i).length = w ∧ (outB i).length = w) (hb : ∀ i < n, ∀ x ∈ inB i, IsBit (val s x))
    (h1 : ∀ i < n, Sat s (multiGates ((inB i).map Lc.var) (fun j => Lc.var (pk 0 i j)) cap false))
    (h2 : ∀ i < n, Sat s (multiGates ((outB i).map Lc.var) (fun j => Lc.var (pk cols i j)) cap true))
    (h : Permuted n (fun i => (List.range (numChunks w cap)).map fun j => val s (pk 0 i j)) (fun i => (List.range (numChunks w cap)).map fun j => val s (pk cols i j))) :
    Permuted n (fun i => bitsOf s (inB i)) (fun i => bitsOf s (outB i)) := by
  obtain ⟨π, h⟩ := h
  refine ⟨π, fun i => ?_⟩
  obtain ⟨a, ha⟩ := bits_exist (l := bitsOf s (inB i)) (by simpa [bitsOf] using hb i i.2)
  obtain ⟨b, hb'⟩ := bits_exist (l := bitsOf s (outB (π i))) (by
    have := multi_bits hc (h2 _ (π i).2)
    simpa [bitsOf] using this)
  have la : a.length = w := by rw [← (hw i i.2).1]; simpa [bitsOf] using (congrArg List.length ha).symm
  have lb : b.length = w := by rw [← (hw _ (π i).2).2]; simpa [bitsOf] using (congrArg List.length hb').symm
  have e1 := (multi_iff s _ a ha (pk 0 i) cap false).1 (h1 i i.2)
  have e2 := (multi_iff s _ b hb' (pk cols (π i)) cap true).1 (h2 _ (π i).2)
  show bitsOf s (outB (π i)) = bitsOf s (inB i)
  rw [ha, hb']
  congr 1
  refine chunks_inj hc hp (by rw [la, lb]) fun j hj => ?_
  rw [← e2 j hj, ← e1 j (by rw [la]; rw [lb] at hj; exact hj)]
  have := List.map_inj_left.1 (h i) j (List.mem_range.2 (by rw [lb] at hj; exact hj))
  exact this

theorem bits_inj {n w cap : ℕ} (hc : 0 < cap) (hp : 2 ^ cap ≤ p) (s : Asg (ZMod p)) (inB : ℕ → List ℕ) (pk : ℕ → ℕ → ℕ)
    (hw : ∀ i < n, (inB i).length = w) (hb : ∀ i < n, ∀ x ∈ inB i, IsBit (val s x))
    (h1 : ∀ i < n, Sat s (multiGates ((inB i).map Lc.var) (fun j => Lc.var (pk i j)) cap false))
    (hd : ∀ i < n, ∀ j < n, bitsOf s (inB i) = bitsOf s (inB j) → i = j) :
    ∀ i < n, ∀ j < n, (List.range (numChunks w cap)).map (fun x => val s (pk i x)) = (List.range (numChunks w cap)).map (fun x => val s (pk j x)) → i = j := by
  intro i hi j hj e
  apply hd i hi j hj
  obtain ⟨a, ha⟩ := bits_exist (l := bitsOf s (inB i)) (by simpa [bitsOf] using hb i hi)
  obtain ⟨b, hb'⟩ := bits_exist (l := bitsOf s (inB j)) (by simpa [bitsOf] using hb j hj)
  have la : a.length = w := by rw [← hw i hi]; simpa [bitsOf] using (congrArg List.length ha).symm
  have lb : b.length = w := by rw [← hw j hj]; simpa [bitsOf] using (congrArg List.length hb').symm
  have e1 := (multi_iff s _ a ha (pk i) cap false).1 (h1 i hi)
  have e2 := (multi_iff s _ b hb' (pk j) cap false).1 (h1 j hj)
  rw [ha, hb']
  congr 1
  refine chunks_inj hc hp (by rw [la, lb]) fun x hx => ?_
  rw [← e1 x hx, ← e2 x (by rw [lb]; rw [la] at hx; exact hx)]
  exact List.map_inj_left.1 e x (List.mem_range.2 (by rw [la] at hx; exact hx))

/-! ### C156: Benes -/

/-- The neighbours are packets. -/
def Benes.Inside (k : Benes) : Prop := ∀ c < k.cols, ∀ i < k.n, k.st c i < k.n ∧ k.cr c i < k.n

theorem Benes.edge_found (k : Benes) (s : Asg (ZMod p)) (c i : ℕ) (h : Sat s (k.edge c i)) :
    (∀ j < k.sub, val s (k.pk (c + 1) (k.st c i) j) = val s (k.pk c i j)) ∨ (∀ j < k.sub, val s (k.pk (c + 1) (k.cr c i) j) = val s (k.pk c i j)) := by
  unfold Benes.edge at h
  split at h
  · rename_i hk
    rw [hk]
    simp only [sat_cons, Constraint.Holds, eval_sub, eval_var, eval_const, mul_eq_zero, sub_eq_zero] at h
    rcases h.1 with e | e
    · exact Or.inl fun j hj => by rw [show j = 0 by omega]; exact e.symm
    · exact Or.inr fun j hj => by rw [show j = 0 by omega]; exact e.symm
  · rw [sat_cons, boolean_iff, eval_var, sat_map] at h
    obtain ⟨hb, h⟩ := h
    simp only [Constraint.Holds, eval_sub, eval_var, List.mem_range] at h
    rcases hb with e | e
    · left; intro j hj
      have := h j hj
      rw [e] at this
      linear_combination this
    · right; intro j hj
      have := h j hj
      rw [e] at this
      linear_combination this

theorem Benes.sat_iff (k : Benes) (s : Asg (ZMod p)) : Sat s k.gates ↔ (∀ i < k.n, Sat s (k.packs i)) ∧ ∀ c < k.cols, ∀ i < k.n, Sat s (k.edge c i) := by
  unfold Benes.gates
  rw [sat_append]
  constructor
  · rintro ⟨h1, h2⟩
    exact ⟨fun i hi x hx => h1 x (List.mem_flatMap.2 ⟨i, List.mem_range.2 hi, hx⟩), fun c hc i hi x hx =>
      h2 x (List.mem_flatMap.2 ⟨c, List.mem_range.2 hc, List.mem_flatMap.2 ⟨i, List.mem_range.2 hi, hx⟩⟩)⟩
  · rintro ⟨h1, h2⟩
    refine ⟨fun x hx => ?_, fun x hx => ?_⟩
    · obtain ⟨i, hi, hx⟩ := List.mem_flatMap.1 hx
      exact h1 i (List.mem_range.1 hi) x hx
    · obtain ⟨c, hc, hx⟩ := List.mem_flatMap.1 hx
      obtain ⟨i, hi, hx⟩ := List.mem_flatMap.1 hx
      exact h2 c (List.mem_range.1 hc) i (List.mem_range.1 hi) x hx

/-- **C156, what holds.** All lines unpacked, input bits known to be bits and all packets different: the output packets are the input packets in another order,
for every topology. -/
theorem benes_sound_partial (k : Benes) (hk : k.Inside) (hc : 0 < k.cap) (hp : 2 ^ k.cap ≤ p) (hl : k.n ≤ k.lines)
    (hw : ∀ i < k.n, (k.inB i).length = k.w ∧ (k.outB i).length = k.w) (s : Asg (ZMod p)) (hb : ∀ i < k.n, ∀ x ∈ k.inB i, IsBit (val s x))
    (hd : ∀ i < k.n, ∀ j < k.n, bitsOf s (k.inB i) = bitsOf s (k.inB j) → i = j) (h : Sat s k.gates) :
    Permuted k.n (fun i => bitsOf s (k.inB i)) (fun i => bitsOf s (k.outB i)) := by
  rw [k.sat_iff] at h
  obtain ⟨hpk, he⟩ := h
  have h1 : ∀ i < k.n, Sat s (multiGates ((k.inB i).map Lc.var) (fun j => Lc.var (k.pk 0 i j)) k.cap false) := fun i hi => by
    have := hpk i hi
    rw [Benes.packs, sat_append] at this
    exact this.1
  have h2 : ∀ i < k.n, Sat s (multiGates ((k.outB i).map Lc.var) (fun j => Lc.var (k.pk k.cols i j)) k.cap true) := fun i hi => by
    have := hpk i hi
    rw [Benes.packs, sat_append, if_pos (by omega)] at this
    exact this.2
  refine permuted_bits hc hp s _ _ k.pk hw hb h1 h2 ?_
  refine permuted_cols (fun c i => (List.range (numChunks k.w k.cap)).map fun j => val s (k.pk c i j))
    (bits_inj hc hp s k.inB (k.pk 0) (fun i hi => (hw i hi).1) hb h1 hd) fun c hcc i hi => ?_
  have hsub : k.sub = numChunks k.w k.cap := sub_eq hc
  rcases k.edge_found s c i (he c hcc i hi) with e | e
  · exact ⟨_, (hk c hcc i hi).1, List.map_congr_left fun j hj => e j (by rw [hsub]; exact List.mem_range.1 hj)⟩
  · exact ⟨_, (hk c hcc i hi).2, List.map_congr_left fun j hj => e j (by rw [hsub]; exact List.mem_range.1 hj)⟩

/-- The topology of a Benes network as the comments describe it: straight edges stay in the row, cross edges join two rows. -/
structure Benes.Topology (k : Benes) : Prop where
  st : ∀ c < k.cols, ∀ i < k.n, k.st c i = i
  cr : ∀ c < k.cols, ∀ i < k.n, k.cr c i < k.n ∧ k.cr c i ≠ i ∧ k.cr c (k.cr c i) = i

theorem mul_inj {n c i c' i' : ℕ} (hi : i < n) (hi' : i' < n) (h : c * n + i = c' * n + i') : c = c' ∧ i = i' := by
  have a := congrArg (· / n) h
  have b := congrArg (· % n) h
  have hn : 0 < n := by omega
  simp only [Nat.mul_add_mod_self_right, Nat.mod_eq_of_lt hi, Nat.mod_eq_of_lt hi', mul_comm c n, mul_comm c' n, Nat.mul_add_div hn, Nat.div_eq_of_lt hi,
    Nat.div_eq_of_lt hi', Nat.mul_add_mod, add_zero] at a b
  exact ⟨a, b⟩

/-- **C156 is false**: if all input packets are equal, one output packet may be anything at all. The claimed bits are in `s`, below `base`. -/
theorem benes_forged (k : Benes) (hk : k.Topology) (h0 : 0 < k.base) (hc : 0 < k.cap) (hcols : 0 < k.cols) (hl : k.n ≤ k.lines) (s : Asg (ZMod p))
    (i0 : ℕ) (hi0 : i0 < k.n) (u v : List Bool) (hu : u.length = k.w) (hv : v.length = k.w)
    (hin : ∀ i < k.n, (∀ x ∈ k.inB i, x < k.base) ∧ bitsOf s (k.inB i) = u.map b2f)
    (hout : ∀ i < k.n, (∀ x ∈ k.outB i, x < k.base) ∧ bitsOf s (k.outB i) = (if i = i0 then v else u).map b2f) :
    ∃ s' : Asg (ZMod p), (∀ x < k.base, s' x = s x) ∧ Sat s' k.gates := by
  classical
  have hsub : k.sub = numChunks k.w k.cap := sub_eq hc
  -- the value of subpacket `j` at column `c`, row `i`
  let V : ℕ → ℕ → ℕ → ZMod p := fun c i j => ((bnat (chunk (if c = k.cols ∧ i = i0 then v else u) k.cap j) : ℕ) : ZMod p)
  let B : ℕ → ℕ → ZMod p := fun c i => if c + 1 = k.cols ∧ i = i0 then 1 else 0
  let N := (k.cols + 1) * k.n * k.sub
  let s' : Asg (ZMod p) := fun x => if x < k.base then s x else if x - k.base < N then
    V ((x - k.base) / k.sub / k.n) ((x - k.base) / k.sub % k.n) ((x - k.base) % k.sub)
    else B ((x - k.base - N) / k.n) ((x - k.base - N) % k.n)
  have hn : 0 < k.n := by omega
  have low : ∀ x < k.base, s' x = s x := fun x hx => by simp [s', hx]
  have pkv : ∀ c ≤ k.cols, ∀ i < k.n, ∀ j < k.sub, val s' (k.pk c i j) = V c i j := by
    intro c hcc i hi j hj
    have h1 : ¬ k.pk c i j < k.base := by unfold Benes.pk; omega
    have h2 : k.pk c i j - k.base = k.sub * (c * k.n + i) + j := by unfold Benes.pk; rw [mul_comm k.sub]; omega
    have h3 : k.sub * (c * k.n + i) + j < N := by
      have a : c * k.n + i + 1 ≤ (k.cols + 1) * k.n := by
        have : c * k.n ≤ k.cols * k.n := Nat.mul_le_mul_right _ hcc
        have : (k.cols + 1) * k.n = k.cols * k.n + k.n := by ring
        omega
      have b := Nat.mul_le_mul_left k.sub a
      have : k.sub * (c * k.n + i + 1) = k.sub * (c * k.n + i) + k.sub := by ring
      have : k.sub * ((k.cols + 1) * k.n) = N := by simp only [N]; ring
      omega
    rw [val_pos _ (by unfold Benes.pk; omega)]
    have hsp : 0 < k.sub := by omega
    simp only [s', if_neg h1, h2, if_pos h3]
    rw [Nat.mul_add_div hsp, Nat.div_eq_of_lt hj, Nat.mul_add_mod, Nat.mod_eq_of_lt hj, add_zero, mul_comm c, Nat.mul_add_div hn, Nat.div_eq_of_lt hi,
      Nat.mul_add_mod, Nat.mod_eq_of_lt hi, add_zero]
  have swv : ∀ c < k.cols, ∀ i < k.n, val s' (k.sw c i) = B c i := by
    intro c hcc i hi
    have h1 : ¬ k.sw c i < k.base := by unfold Benes.sw; omega
    have h2 : k.sw c i - k.base = N + (c * k.n + i) := by unfold Benes.sw; simp only [N]; omega
    have h3 : ¬ N + (c * k.n + i) < N := by omega
    rw [val_pos _ (by unfold Benes.sw; omega)]
    simp only [s', if_neg h1, h2, if_neg h3, Nat.add_sub_cancel_left]
    rw [mul_comm c, Nat.mul_add_div hn, Nat.div_eq_of_lt hi, Nat.mul_add_mod, Nat.mod_eq_of_lt hi, add_zero]
  have bitv : ∀ l : List ℕ, (∀ x ∈ l, x < k.base) → bitsOf s' l = bitsOf s l := fun l hl => List.map_congr_left fun x hx => val_congr (low x (hl x hx))
  refine ⟨s', low, k.sat_iff s' |>.2 ⟨fun i hi => ?_, fun c hcc i hi => ?_⟩⟩
  · rw [Benes.packs, sat_append, if_pos (by omega)]
    refine ⟨(multi_iff s' _ u ((bitv _ (hin i hi).1).trans (hin i hi).2) _ _ _).2 fun j hj => ?_,
      (multi_iff s' _ _ ((bitv _ (hout i hi).1).trans (hout i hi).2) _ _ _).2 fun j hj => ?_⟩
    · rw [hu, ← hsub] at hj
      rw [pkv 0 (by omega) i hi j hj]
      simp only [V]
      rw [if_neg (by rintro ⟨h, -⟩; omega)]
    · have : (if i = i0 then v else u).length = k.w := by split <;> assumption
      rw [this, ← hsub] at hj
      rw [pkv k.cols le_rfl i hi j hj]
      simp only [V, true_and]
  · obtain ⟨c1, c2, c3⟩ := hk.cr c hcc i hi
    have st := hk.st c hcc i hi
    -- the packet is where its bit says
    have key : ∀ j < k.sub, V (c + 1) (if c + 1 = k.cols ∧ i = i0 then k.cr c i else i) j = V c i j := by
      intro j hj
      simp only [V]
      rw [if_neg (show ¬ (c = k.cols ∧ i = i0) by rintro ⟨h, -⟩; omega)]
      by_cases h : c + 1 = k.cols ∧ i = i0
      · rw [if_pos h, if_neg (by rintro ⟨-, h'⟩; exact c2 (h'.trans h.2.symm))]
      · rw [if_neg h, if_neg h]
    unfold Benes.edge
    rw [st]
    split
    · rename_i h1
      have k0 := key 0 (by omega)
      simp only [sat_cons, Constraint.Holds, eval_sub, eval_var, eval_const, sat_nil, and_true]
      rw [pkv c (by omega) i hi 0 (by omega), pkv (c + 1) (by omega) i hi 0 (by omega), pkv (c + 1) (by omega) _ c1 0 (by omega)]
      split at k0
      · rw [k0]; ring
      · rw [k0]; ring
    · rw [sat_cons, boolean_iff, eval_var, sat_map, swv c hcc i hi]
      refine ⟨by simp only [B]; split; exact Or.inr rfl; exact Or.inl rfl, fun j hj => ?_⟩
      have hj := List.mem_range.1 hj
      have kj := key j hj
      simp only [Constraint.Holds, eval_sub, eval_var]
      rw [pkv c (by omega) i hi j hj, pkv (c + 1) (by omega) i hi j hj, pkv (c + 1) (by omega) _ c1 j hj, swv c hcc i hi]
      simp only [B]
      split at kj
      · rename_i hh; rw [if_pos hh, kj]; ring
      · rename_i hh; rw [if_neg hh, kj]; ring

/-- Two packets of two bits, one column. -/
def bEx (cap : ℕ) : Benes := ⟨2, 1, 2, cap, 2, 9, fun i => [1 + 2 * i, 2 + 2 * i], fun i => [5 + 2 * i, 6 + 2 * i], fun _ i => i, fun _ i => 1 - i⟩

theorem bEx_topology (cap : ℕ) : (bEx cap).Topology := ⟨fun _ _ _ _ => rfl, fun c hc i hi => by
  have : i < 2 := hi
  show 1 - i < 2 ∧ 1 - i ≠ i ∧ 1 - (1 - i) = i
  omega⟩

instance : Fact (Nat.Prime 11) := ⟨by decide +kernel⟩

/-- Two packets `00` go in, `00` and `11` come out, with one subpacket and with two. -/
example (cap : ℕ) (h : 0 < cap) : ∃ s : Asg (ZMod 11), Sat s (bEx cap).gates ∧ bitsOf s ((bEx cap).inB 0) = [0, 0] ∧ bitsOf s ((bEx cap).inB 1) = [0, 0] ∧
    bitsOf s ((bEx cap).outB 0) = [1, 1] ∧ bitsOf s ((bEx cap).outB 1) = [0, 0] := by
  obtain ⟨s, h1, h2⟩ := benes_forged (bEx cap) (bEx_topology cap) (by decide : 0 < 9) h (by decide : 0 < 1) (le_refl 2)
    (fun x => if x = 5 ∨ x = 6 then (1 : ZMod 11) else 0) 0 (by decide : 0 < 2) [false, false] [true, true] rfl rfl
    (fun i hi => by
      have : i = 0 ∨ i = 1 := by have : i < 2 := hi; omega
      rcases this with rfl | rfl <;> exact ⟨by simp only [bEx]; decide, by simp only [bEx]; decide +kernel⟩)
    (fun i hi => by
      have : i = 0 ∨ i = 1 := by have : i < 2 := hi; omega
      rcases this with rfl | rfl <;> exact ⟨by simp only [bEx]; decide, by simp only [bEx]; decide +kernel⟩)
  refine ⟨s, h2, ?_⟩
  have v : ∀ x, x < 9 → val s x = val (fun x => if x = 5 ∨ x = 6 then (1 : ZMod 11) else 0) x := fun x hx => val_congr (h1 x hx)
  simp only [bEx, bitsOf, List.map_cons, List.map_nil]
  rw [v _ (by decide), v _ (by decide), v _ (by decide), v _ (by decide), v _ (by decide), v _ (by decide), v _ (by decide), v _ (by decide)]
  decide +kernel

/-- The hypotheses of `benes_sound_partial` are met: `01` and `11` are exchanged. -/
example : ∃ s : Asg (ZMod 11), Sat s (bEx 2).gates ∧ bitsOf s ((bEx 2).inB 0) = [0, 1] ∧ bitsOf s ((bEx 2).inB 1) = [1, 1] ∧
    bitsOf s ((bEx 2).outB 0) = [1, 1] ∧ bitsOf s ((bEx 2).outB 1) = [0, 1] := by
  refine ⟨fun x => if x ∈ [2, 3, 4, 5, 6, 8] then 1 else if x = 9 ∨ x = 12 then 2 else if x = 10 ∨ x = 11 then 3 else 0, ?_, by decide +kernel, by decide +kernel,
    by decide +kernel, by decide +kernel⟩
  unfold Sat Constraint.Holds
  decide +kernel

/-! ### C157: AS-Waksman -/

namespace Asw
variable (k : Asw)

/-- What is used of `generate_as_waksman_topology`: the straight edges of a column lead to different rows, and the second row of a switch has the edges of the
first exchanged. -/
structure Topology : Prop where
  inside : ∀ c < k.cols, ∀ i < k.n, k.st c i < k.n
  inj : ∀ c < k.cols, ∀ i < k.n, ∀ j < k.n, k.st c i = k.st c j → i = j
  pair : ∀ c < k.cols, ∀ i ∈ k.heads c k.n 0, i + 1 < k.n ∧ k.st c (i + 1) = k.cr c i ∧ k.cr c (i + 1) = k.st c i

/-- A straight edge reuses the variables (as_waksman.hpp:126-130); rows that are the second row of a switch are not visited. -/
def Reuse : Prop := ∀ c < k.cols, ∀ i < k.n, i ∉ k.heads c k.n 0 → (∀ x ∈ k.heads c k.n 0, x + 1 ≠ i) → ∀ j < k.sub, k.pk (c + 1) (k.st c i) j = k.pk c i j

theorem heads_ge (c : ℕ) : ∀ fuel i, ∀ x ∈ k.heads c fuel i, i ≤ x ∧ x < k.n := by
  intro fuel
  induction fuel with
  | zero => intro i x hx; simp [heads] at hx
  | succ f ih =>
    intro i x hx
    unfold heads at hx
    split at hx
    · split at hx
      · have := ih _ x hx; omega
      · rcases List.mem_cons.1 hx with rfl | hx
        · omega
        · have := ih _ x hx; omega
    · simp at hx

/-- Two switches do not overlap. -/
theorem heads_apart (c : ℕ) : ∀ fuel i, ∀ x ∈ k.heads c fuel i, x + 1 ∉ k.heads c fuel i := by
  intro fuel
  induction fuel with
  | zero => intro i x hx; simp [heads] at hx
  | succ f ih =>
    intro i x hx hy
    unfold heads at hx hy
    split at hx
    · rename_i hi
      split at hx
      · rename_i he
        rw [if_pos hi, if_pos he] at hy
        exact ih _ x hx hy
      · rename_i he
        rw [if_pos hi, if_neg he] at hy
        rcases List.mem_cons.1 hx with rfl | hx
        · rcases List.mem_cons.1 hy with h | h
          · omega
          · have := k.heads_ge c _ _ _ h; omega
        · rcases List.mem_cons.1 hy with h | h
          · have := k.heads_ge c _ _ _ hx; omega
          · exact ih _ x hx h
    · simp at hx

/-- Every row whose edges differ is a row of a switch. -/
theorem heads_cover (c : ℕ) : ∀ fuel i x, k.n ≤ fuel + i → i ≤ x → x < k.n → k.st c x ≠ k.cr c x →
    x ∈ k.heads c fuel i ∨ ∃ y ∈ k.heads c fuel i, y + 1 = x := by
  intro fuel
  induction fuel with
  | zero => intro i x h h1 h2; omega
  | succ f ih =>
    intro i x h h1 h2 hne
    unfold heads
    rw [if_pos (by omega)]
    split
    · rename_i he
      have : i ≠ x := by rintro rfl; exact hne he
      exact ih (i + 1) x (by omega) (by omega) h2 hne
    · by_cases e : i = x
      · exact Or.inl (e ▸ List.mem_cons_self)
      by_cases e' : i + 1 = x
      · exact Or.inr ⟨i, List.mem_cons_self, e'⟩
      · rcases ih (i + 2) x (by omega) (by omega) h2 hne with h | ⟨y, h, h'⟩
        · exact Or.inl (List.mem_cons_of_mem _ h)
        · exact Or.inr ⟨y, List.mem_cons_of_mem _ h, h'⟩

theorem sat_iff (s : Asg (ZMod p)) : Sat s k.gates ↔ (∀ i < k.n, Sat s (multiGates ((k.inB i).map Lc.var) (fun j => Lc.var (k.pk 0 i j)) k.cap false) ∧
      Sat s (multiGates ((k.outB i).map Lc.var) (fun j => Lc.var (k.pk k.cols i j)) k.cap true)) ∧
    ∀ c < k.cols, ∀ i ∈ k.heads c k.n 0, Sat s (k.switch c i) := by
  unfold gates
  rw [sat_append]
  constructor
  · rintro ⟨h1, h2⟩
    exact ⟨fun i hi => (sat_append _ _ _).1 fun x hx => h1 x (List.mem_flatMap.2 ⟨i, List.mem_range.2 hi, hx⟩), fun c hc i hi x hx =>
      h2 x (List.mem_flatMap.2 ⟨c, List.mem_range.2 hc, List.mem_flatMap.2 ⟨i, hi, hx⟩⟩)⟩
  · rintro ⟨h1, h2⟩
    refine ⟨fun x hx => ?_, fun x hx => ?_⟩
    · obtain ⟨i, hi, hx⟩ := List.mem_flatMap.1 hx
      exact ((sat_append _ _ _).2 (h1 i (List.mem_range.1 hi))) x hx
    · obtain ⟨c, hc, hx⟩ := List.mem_flatMap.1 hx
      obtain ⟨i, hi, hx⟩ := List.mem_flatMap.1 hx
      exact h2 c (List.mem_range.1 hc) i hi x hx

/-- The packet at column `c`, row `i`. -/
def vec (s : Asg (ZMod p)) (c i : ℕ) : List (ZMod p) := (List.range k.sub).map fun j => val s (k.pk c i j)

/-- One switch, several subpackets. -/
theorem switch_many (s : Asg (ZMod p)) (c i : ℕ) (hk : k.sub ≠ 1) (h : Sat s (k.switch c i)) :
    (∀ x ∈ [i, i + 1], k.vec s (c + 1) (k.st c x) = k.vec s c x) ∨ (∀ x ∈ [i, i + 1], k.vec s (c + 1) (k.cr c x) = k.vec s c x) := by
  unfold switch at h
  rw [if_neg hk, sat_cons, boolean_iff, eval_var] at h
  obtain ⟨hb, h⟩ := h
  have hj : ∀ j < k.sub, ∀ x ∈ [i, i + 1], val s (k.sw c i) * (val s (k.pk (c + 1) (k.cr c x) j) - val s (k.pk (c + 1) (k.st c x) j)) =
      val s (k.pk c x j) - val s (k.pk (c + 1) (k.st c x) j) := by
    intro j hj x hx
    have := h _ (List.mem_flatMap.2 ⟨j, List.mem_range.2 hj, List.mem_map.2 ⟨x, hx, rfl⟩⟩)
    simpa only [Constraint.Holds, eval_sub, eval_var] using this
  rcases hb with e | e
  · left; intro x hx
    refine List.map_congr_left fun j hj' => ?_
    have := hj j (List.mem_range.1 hj') x hx
    rw [e] at this
    linear_combination this
  · right; intro x hx
    refine List.map_congr_left fun j hj' => ?_
    have := hj j (List.mem_range.1 hj') x hx
    rw [e] at this
    linear_combination this

/-- One switch, one subpacket: each input is one of the outputs. -/
theorem switch_one (s : Asg (ZMod p)) (c i : ℕ) (hk : k.sub = 1) (h : Sat s (k.switch c i)) :
    ∀ x ∈ [i, i + 1], k.vec s (c + 1) (k.st c x) = k.vec s c x ∨ k.vec s (c + 1) (k.cr c x) = k.vec s c x := by
  unfold switch at h
  rw [if_pos hk, sat_map] at h
  intro x hx
  have := h x hx
  simp only [Constraint.Holds, eval_sub, eval_var, eval_const, mul_eq_zero, sub_eq_zero] at this
  simp only [vec, hk, List.range_one, List.map_cons, List.map_nil, List.cons.injEq, and_true]
  rcases this with e | e
  · exact Or.inl e.symm
  · exact Or.inr e.symm

/-- A column of switches that each exchange or do not exchange permutes. -/
theorem column (ht : k.Topology) (hr : k.Reuse) (s : Asg (ZMod p)) (c : ℕ) (hc : c < k.cols)
    (h : ∀ i ∈ k.heads c k.n 0, (∀ x ∈ [i, i + 1], k.vec s (c + 1) (k.st c x) = k.vec s c x) ∨ (∀ x ∈ [i, i + 1], k.vec s (c + 1) (k.cr c x) = k.vec s c x)) :
    Permuted k.n (k.vec s c) (k.vec s (c + 1)) := by
  classical
  let H := k.heads c k.n 0
  -- the switches that exchange
  let X : ℕ → Prop := fun i => i ∈ H ∧ ¬ ∀ x ∈ [i, i + 1], k.vec s (c + 1) (k.st c x) = k.vec s c x
  let ρ : ℕ → ℕ := fun i => if X i then i + 1 else if 0 < i ∧ X (i - 1) then i - 1 else i
  have apart : ∀ i ∈ H, i + 1 ∉ H := k.heads_apart c k.n 0
  have lt : ∀ i < k.n, ρ i < k.n := by
    intro i hi
    simp only [ρ]
    split
    · rename_i hx; exact (ht.pair c hc i hx.1).1
    · split <;> omega
  have inv : ∀ i, ρ (ρ i) = i := by
    intro i
    by_cases hx : X i
    · have h1 : ρ i = i + 1 := if_pos hx
      have h2 : ¬ X (i + 1) := fun h => apart i hx.1 h.1
      rw [h1]
      show (if X (i + 1) then i + 1 + 1 else if 0 < i + 1 ∧ X (i + 1 - 1) then i + 1 - 1 else i + 1) = i
      rw [if_neg h2, if_pos ⟨by omega, by rw [Nat.add_sub_cancel]; exact hx⟩, Nat.add_sub_cancel]
    · by_cases hy : 0 < i ∧ X (i - 1)
      · have h1 : ρ i = i - 1 := by simp only [ρ]; rw [if_neg hx, if_pos hy]
        rw [h1]
        show (if X (i - 1) then i - 1 + 1 else _) = i
        rw [if_pos hy.2]; omega
      · have h1 : ρ i = i := by simp only [ρ]; rw [if_neg hx, if_neg hy]
        rw [h1, h1]
  have found : ∀ i < k.n, k.vec s (c + 1) (k.st c (ρ i)) = k.vec s c i := by
    intro i hi
    by_cases hx : X i
    · have h1 : ρ i = i + 1 := if_pos hx
      rw [h1, (ht.pair c hc i hx.1).2.1]
      exact ((h i hx.1).resolve_left hx.2) i (by simp)
    · by_cases hy : 0 < i ∧ X (i - 1)
      · have h1 : ρ i = i - 1 := by simp only [ρ]; rw [if_neg hx, if_pos hy]
        have e : i - 1 + 1 = i := by omega
        have := (ht.pair c hc _ hy.2.1).2.2
        rw [h1, ← this]
        have := ((h _ hy.2.1).resolve_left hy.2.2) (i - 1 + 1) (by simp)
        rw [e] at this ⊢
        exact this
      · have h1 : ρ i = i := by simp only [ρ]; rw [if_neg hx, if_neg hy]
        rw [h1]
        by_cases hh : i ∈ H
        · have : ∀ x ∈ [i, i + 1], k.vec s (c + 1) (k.st c x) = k.vec s c x := by
            by_contra hn; exact hx ⟨hh, hn⟩
          exact this i (by simp)
        · by_cases hg : ∃ x ∈ H, x + 1 = i
          · obtain ⟨x, hxx, rfl⟩ := hg
            have : ∀ y ∈ [x, x + 1], k.vec s (c + 1) (k.st c y) = k.vec s c y := by
              by_contra hn
              exact hy ⟨by omega, by rw [Nat.add_sub_cancel]; exact ⟨hxx, hn⟩⟩
            exact this (x + 1) (by simp)
          · push Not at hg
            exact List.map_congr_left fun j hj => by rw [hr c hc i hi hh hg j (List.mem_range.1 hj)]
  let g : Fin k.n → Fin k.n := fun i => ⟨k.st c (ρ i), ht.inside c hc _ (lt i i.2)⟩
  have gi : Function.Injective g := by
    intro x y e
    have : k.st c (ρ x) = k.st c (ρ y) := by simpa [g] using e
    have := ht.inj c hc _ (lt x x.2) _ (lt y y.2) this
    apply Fin.ext
    rw [← inv x, ← inv y, this]
  exact ⟨Equiv.ofBijective g (Finite.injective_iff_bijective.1 gi), fun i => found i i.2⟩

/-- **C157, several subpackets.** Input bits known to be bits: the output packets are the input packets in another order, also if some are equal. -/
theorem sound_many (ht : k.Topology) (hr : k.Reuse) (hc : 0 < k.cap) (hp : 2 ^ k.cap ≤ p) (hk : k.sub ≠ 1)
    (hw : ∀ i < k.n, (k.inB i).length = k.w ∧ (k.outB i).length = k.w) (s : Asg (ZMod p)) (hb : ∀ i < k.n, ∀ x ∈ k.inB i, IsBit (val s x)) (h : Sat s k.gates) :
    Permuted k.n (fun i => bitsOf s (k.inB i)) (fun i => bitsOf s (k.outB i)) := by
  rw [k.sat_iff] at h
  have hsub : k.sub = numChunks k.w k.cap := sub_eq hc
  refine permuted_bits hc hp s _ _ k.pk hw hb (fun i hi => (h.1 i hi).1) (fun i hi => (h.1 i hi).2) ?_
  rw [← hsub]
  exact permuted_all (k.vec s) fun c hcc => k.column ht hr s c hcc fun i hi => k.switch_many s c i hk (h.2 c hcc i hi)

/-- **C157, any number of subpackets.** The same if all input packets are different. -/
theorem sound_partial (ht : k.Topology) (hr : k.Reuse) (hc : 0 < k.cap) (hp : 2 ^ k.cap ≤ p)
    (hw : ∀ i < k.n, (k.inB i).length = k.w ∧ (k.outB i).length = k.w) (s : Asg (ZMod p)) (hb : ∀ i < k.n, ∀ x ∈ k.inB i, IsBit (val s x))
    (hd : ∀ i < k.n, ∀ j < k.n, bitsOf s (k.inB i) = bitsOf s (k.inB j) → i = j) (h : Sat s k.gates) :
    Permuted k.n (fun i => bitsOf s (k.inB i)) (fun i => bitsOf s (k.outB i)) := by
  by_cases hk : k.sub = 1
  swap
  · exact k.sound_many ht hr hc hp hk hw s hb h
  rw [k.sat_iff] at h
  have hsub : k.sub = numChunks k.w k.cap := sub_eq hc
  refine permuted_bits hc hp s _ _ k.pk hw hb (fun i hi => (h.1 i hi).1) (fun i hi => (h.1 i hi).2) ?_
  have h0 := bits_inj hc hp s k.inB (k.pk 0) (fun i hi => (hw i hi).1) hb (fun i hi => (h.1 i hi).1) hd
  rw [← hsub] at h0 ⊢
  refine permuted_cols (k.vec s) h0 fun c hcc i hi => ?_
  by_cases hh : i ∈ k.heads c k.n 0
  · obtain ⟨a1, a2, a3⟩ := ht.pair c hcc i hh
    rcases k.switch_one s c i hk (h.2 c hcc i hh) i (by simp) with e | e
    · exact ⟨_, ht.inside c hcc i hi, e⟩
    · exact ⟨_, by rw [← a2]; exact ht.inside c hcc _ a1, e⟩
  · by_cases hg : ∃ x ∈ k.heads c k.n 0, x + 1 = i
    · obtain ⟨x, hx, rfl⟩ := hg
      obtain ⟨a1, a2, a3⟩ := ht.pair c hcc x hx
      rcases k.switch_one s c x hk (h.2 c hcc x hx) (x + 1) (by simp) with e | e
      · exact ⟨_, ht.inside c hcc _ a1, e⟩
      · exact ⟨_, by rw [a3]; exact ht.inside c hcc _ (by omega), e⟩
    · push Not at hg
      exact ⟨_, ht.inside c hcc i hi, List.map_congr_left fun j hj => by rw [hr c hcc i hi hh hg j (List.mem_range.1 hj)]⟩

/-- The network of two packets of at most `cap` bits: one column with one switch. The constructor allocates `pk 0 0`, `pk 0 1`, `pk 1 0`, `pk 1 1`. -/
def two (w cap base : ℕ) (inB outB : ℕ → List ℕ) : Asw :=
  ⟨2, 1, w, cap, inB, outB, fun _ i => i, fun _ i => 1 - i, fun c i j => base + (c * 2 + i) + j, fun _ _ => base + 4⟩

/-- **C157 is false for one subpacket**: two equal packets go in, one comes out and the other output is anything. -/
theorem two_forged (w cap base : ℕ) (inB outB : ℕ → List ℕ) (hb : 0 < base) (hw : 0 < w) (hcap : w ≤ cap) (s : Asg (ZMod p)) (u v : List Bool)
    (hu : u.length = w) (hv : v.length = w) (hin : ∀ i < 2, (∀ x ∈ inB i, x < base) ∧ bitsOf s (inB i) = u.map b2f)
    (hout : ∀ i < 2, (∀ x ∈ outB i, x < base) ∧ bitsOf s (outB i) = (if i = 0 then v else u).map b2f) :
    ∃ s' : Asg (ZMod p), (∀ x < base, s' x = s x) ∧ Sat s' (two w cap base inB outB).gates := by
  let b : Benes := ⟨2, 1, w, cap, 2, base, inB, outB, fun _ i => i, fun _ i => 1 - i⟩
  have one : (w + cap - 1) / cap = 1 := by
    rw [Nat.div_eq_iff (by omega)]; omega
  obtain ⟨s', h1, h2⟩ := benes_forged b ⟨fun _ _ _ _ => rfl, fun c _ i hi => by
      have : i < 2 := hi
      show 1 - i < 2 ∧ 1 - i ≠ i ∧ 1 - (1 - i) = i
      omega⟩ hb (by show 0 < cap; omega) (by decide : 0 < 1) (le_refl 2) s 0 (by decide : 0 < 2) u v hu hv hin hout
  refine ⟨s', h1, (sat_iff _ s').2 ?_⟩
  rw [b.sat_iff] at h2
  have hsb : b.sub = 1 := one
  have hpk : ∀ c i, (fun j => (Lc.var (b.pk c i j) : Lc (ZMod p))) = fun j => Lc.var ((two w cap base inB outB).pk c i j) := fun c i => by
    funext j
    congr 1
    show base + ((c * 2 + i) * b.sub + j) = base + (c * 2 + i) + j
    rw [hsb]; omega
  refine ⟨fun i hi => ?_, fun c hc i hi => ?_⟩
  · have := h2.1 i hi
    rw [Benes.packs, if_pos (show i < b.lines from hi), hpk, hpk, sat_append] at this
    exact this
  · have hi0 : i = 0 := by
      have : (two w cap base inB outB).heads c 2 0 = [0] := rfl
      have hi' : i ∈ (two w cap base inB outB).heads c 2 0 := hi
      rw [this] at hi'
      simpa using hi'
    subst hi0
    unfold switch
    rw [if_pos (show (two w cap base inB outB).sub = 1 from one), sat_map]
    intro x hx
    have hx2 : x < 2 := by simp at hx; omega
    have := h2.2 c hc x hx2
    unfold Benes.edge at this
    rw [if_pos hsb, sat_cons] at this
    have e : ∀ c i, b.pk c i 0 = (two w cap base inB outB).pk c i 0 := fun c i => by
      show base + ((c * 2 + i) * b.sub + 0) = base + (c * 2 + i) + 0
      rw [hsb]; omega
    rw [e, e, e] at this
    exact this.1

/-- Two packets of two bits, one bit in each subpacket; a switch and, after it, two straight edges. -/
def wEx : Asw := ⟨2, 2, 2, 1, fun i => [1 + 2 * i, 2 + 2 * i], fun i => [5 + 2 * i, 6 + 2 * i], fun _ i => i, fun c i => if c = 0 then 1 - i else i,
  fun c i j => 9 + ((min c 1 * 2 + i) * 2 + j), fun _ _ => 17⟩

theorem wEx_topology : wEx.Topology ∧ wEx.Reuse := by
  refine ⟨⟨fun c hc i hi => hi, fun c hc i hi j hj h => h, fun c hc i hi => ?_⟩, fun c hc i hi h1 h2 j hj => ?_⟩
  · have : c = 0 ∨ c = 1 := by have : c < 2 := hc; omega
    rcases this with rfl | rfl
    · have hi' : i ∈ [0] := hi
      rw [List.mem_singleton.1 hi']; decide
    · exact absurd (show i ∈ ([] : List ℕ) from hi) (by simp)
  · have : c = 0 ∨ c = 1 := by have : c < 2 := hc; omega
    rcases this with rfl | rfl
    · have hi' : i < 2 := hi
      have h1' : i ∉ [0] := h1
      have h2' : ∀ x ∈ [0], x + 1 ≠ i := h2
      have a : i ≠ 0 := by simpa using h1'
      have b : 0 + 1 ≠ i := h2' 0 (by simp)
      omega
    · rfl

/-- The hypotheses of `sound_many` are met: `01` and `11` are exchanged. -/
example : ∃ s : Asg (ZMod 11), Sat s wEx.gates ∧ bitsOf s (wEx.inB 0) = [0, 1] ∧ bitsOf s (wEx.outB 0) = [1, 1] ∧ bitsOf s (wEx.outB 1) = [0, 1] := by
  refine ⟨fun x => if x ∈ [2, 3, 4, 5, 6, 8, 10, 11, 12, 13, 14, 16, 17] then 1 else 0, ?_, by decide +kernel, by decide +kernel, by decide +kernel⟩
  unfold Sat Constraint.Holds
  decide +kernel

end Asw

end Routing
end R1cs
end Verif
