import Verif.Props.R1csSha256
import Verif.Core.Sha256Hash
import Verif.Core.BlsScalar

/-!
# C90, C91: the r1cs hash components
-/

set_option linter.unusedSimpArgs false
set_option linter.unusedSectionVars false

namespace Verif
namespace R1cs
namespace Sha

open Sha256Spec

section
variable {p : ℕ} [hp : Fact p.Prime]

/-! ### Vectors -/

theorem mk_prev_word (prev : List (Lc (ZMod p))) (block out : List ℕ) (base : ℕ) (s : Asg (ZMod p)) (P : ℕ → Bool)
    (h : ∀ q < 256, (prev.getD q []).eval s = b2f (P q)) (i : ℕ) (hi : i < 8) : WordIs s ((Compress.mk' prev block out base).prev i) ((stateOf P).get i) := by
  intro j hj
  rw [stateOf_get P i hi, wordAt_bit P i j hj]
  have e : 255 - ((7 - i) * 32 + j) = 32 * i + 31 - j := by omega
  show (prev.getD (255 - ((7 - i) * 32 + j)) []).eval s = _
  rw [e]
  exact h _ (by omega)

theorem mk_block_word (prev : List (Lc (ZMod p))) (block out : List ℕ) (base : ℕ) (s : Asg (ZMod p)) (B : ℕ → Bool)
    (h : ∀ q < 512, val s (block.getD q 0) = b2f (B q)) (i : ℕ) (hi : i < 16) : WordIs s (vars ((Compress.mk' prev block out base).block i)) (wordAt B i) := by
  intro j hj
  rw [wordAt_bit B i j hj, vars, eval_var]
  have e : 511 - ((15 - i) * 32 + j) = 32 * i + 31 - j := by omega
  show val s (block.getD (511 - ((15 - i) * 32 + j)) 0) = _
  rw [e]
  exact h _ (by omega)

/-- The compression component on vectors: previous output, block and output are strings of bits. -/
theorem compression_sound (prev : List (Lc (ZMod p))) (block out : List ℕ) (base : ℕ) (s : Asg (ZMod p)) (hp' : 2 ^ 35 ≤ p) (P B : ℕ → Bool)
    (hP : ∀ q < 256, (prev.getD q []).eval s = b2f (P q)) (hB : ∀ q < 512, val s (block.getD q 0) = b2f (B q))
    (h : Sat s (Compress.mk' prev block out base).gates) :
    ∀ q < 256, val s (out.getD q 0) = b2f (digestBit (compress (stateOf P) (wordAt B)) q) := by
  intro q hq
  have := compress_sound _ s hp' (stateOf P) (wordAt B) (mk_prev_word prev block out base s P hP) (mk_block_word prev block out base s B hB) h
    (q / 32) (by omega) (31 - q % 32) (by omega)
  rw [vars, eval_var] at this
  have e : 255 - ((7 - q / 32) * 32 + (31 - q % 32)) = q := by omega
  have this : val s (out.getD (255 - ((7 - q / 32) * 32 + (31 - q % 32))) 0) = _ := this
  rw [e] at this
  exact this

/-- When the vectors are well-formed. -/
structure VecWF (prev : List (Lc (ZMod p))) (block out : List ℕ) (base : ℕ) : Prop where
  outLen : out.length = 256
  nodup : out.Nodup
  outVar : ∀ v ∈ out, v ≠ 0 ∧ v < base
  blockVar : ∀ q < 512, block.getD q 0 < base ∧ block.getD q 0 ∉ out
  prevVar : ∀ q < 256, (prev.getD q []).Uses fun v => v < base ∧ v ∉ out

theorem isOut_iff (prev : List (Lc (ZMod p))) (block out : List ℕ) (base : ℕ) (hl : out.length = 256) (v : ℕ) :
    (Compress.mk' prev block out base).IsOut v ↔ v ∈ out := by
  constructor
  · rintro ⟨i, hi, j, hj, e⟩
    have e : v = out.getD (255 - ((7 - i) * 32 + j)) 0 := e
    rw [List.getD_eq_getElem _ _ (by omega)] at e
    rw [e]
    exact List.getElem_mem _
  · intro h
    obtain ⟨q, hq, e⟩ := List.getElem_of_mem h
    refine ⟨q / 32, by omega, 31 - q % 32, by omega, ?_⟩
    show v = out.getD (255 - ((7 - q / 32) * 32 + (31 - q % 32))) 0
    rw [show 255 - ((7 - q / 32) * 32 + (31 - q % 32)) = q by omega, List.getD_eq_getElem _ _ hq, e]

theorem VecWF.wf {prev : List (Lc (ZMod p))} {block out : List ℕ} {base : ℕ} (h : VecWF prev block out base) : (Compress.mk' prev block out base).WF := by
  have hm : ∀ i (_ : i < 8) j (_ : j < 32), (Compress.mk' prev block out base).out i j = out[32 * i + 31 - j]'(by rw [h.outLen]; omega) := by
    intro i hi j hj
    show out.getD (255 - ((7 - i) * 32 + j)) 0 = _
    have e : 255 - ((7 - i) * 32 + j) = 32 * i + 31 - j := by omega
    rw [e, List.getD_eq_getElem]
  refine ⟨?_, ?_, ?_, ?_⟩
  · intro i hi j hj
    rw [isOut_iff _ _ _ _ h.outLen]
    exact h.blockVar (511 - ((15 - i) * 32 + j)) (by omega)
  · intro i hi j hj t ht
    simp only [isOut_iff _ _ _ _ h.outLen]
    exact h.prevVar (255 - ((7 - i) * 32 + j)) (by omega) t ht
  · intro i hi j hj
    rw [hm i hi j hj]
    exact h.outVar _ (List.getElem_mem _)
  · intro i hi j hj i' hi' j' hj' e
    rw [hm i hi j hj, hm i' hi' j' hj'] at e
    have := (List.Nodup.getElem_inj_iff h.nodup).1 e
    omega

/-- The assignment satisfies the constraints of the compression component for all bits. -/
theorem compression_complete (prev : List (Lc (ZMod p))) (block out : List ℕ) (base : ℕ) (s : Asg (ZMod p)) (hp' : 2 ^ 35 ≤ p)
    (hw : VecWF prev block out base) (P B : ℕ → Bool)
    (hP : ∀ q < 256, (prev.getD q []).eval s = b2f (P q)) (hB : ∀ q < 512, val s (block.getD q 0) = b2f (B q)) :
    Sat ((Compress.mk' prev block out base).assign s) (Compress.mk' prev block out base).gates :=
  compress_complete _ hw.wf s hp' (stateOf P) (wordAt B) (mk_prev_word prev block out base s P hP) (mk_block_word prev block out base s B hB)

/-! ### The initial value -/

theorem defaultIV_bit (s : Asg (ZMod p)) (q : ℕ) (hq : q < 256) : ((defaultIV (p := p)).getD q []).eval s = b2f (digestBit iv q) := by
  rw [defaultIV, List.getD_eq_getElem _ _ (by simpa using hq), List.getElem_map, List.getElem_range, eval_smul, eval_var]
  have e : ((iv.get (q / 32)).toNat >>> (31 - q % 32) % 2 : ℕ) = (digestBit iv q).toNat := by
    rw [digestBit, BitVec.getLsbD, Nat.testBit_eq_decide_div_mod_eq, Nat.shiftRight_eq_div_pow]
    rcases Nat.mod_two_eq_zero_or_one ((iv.get (q / 32)).toNat / 2 ^ (31 - q % 32)) with h | h <;> simp [h]
  rw [e, show val s 0 = 1 from rfl, mul_one]
  cases digestBit iv q <;> simp

theorem stateOf_digest (u : State) : stateOf (digestBit u) = u := by
  apply digestBit_inj
  intro q hq
  unfold digestBit
  rw [stateOf_get _ _ (by omega), wordAt_bit _ _ _ (by omega)]
  rw [show (32 * (q / 32) + 31 - (31 - q % 32)) / 32 = q / 32 by omega, show 31 - (32 * (q / 32) + 31 - (31 - q % 32)) % 32 = 31 - q % 32 by omega]

/-- The 2-to-1 hash: the compression function applied to the initial value and the concatenation of the two digests. -/
theorem twoToOne_sound (left right out : List ℕ) (base : ℕ) (s : Asg (ZMod p)) (hp' : 2 ^ 35 ≤ p) (hl : left.length = 256)
    (L R : ℕ → Bool) (hL : ∀ q < 256, val s (left.getD q 0) = b2f (L q)) (hR : ∀ q < 256, val s (right.getD q 0) = b2f (R q))
    (h : Sat s (twoToOne left right out base).gates) :
    ∀ q < 256, val s (out.getD q 0) = b2f (digestBit (compress iv (wordAt fun q => if q < 256 then L q else R (q - 256))) q) := by
  have := compression_sound defaultIV (left ++ right) out base s hp' (digestBit iv) (fun q => if q < 256 then L q else R (q - 256))
    (fun q hq => defaultIV_bit s q hq) ?_ h
  · rwa [stateOf_digest] at this
  · intro q hq
    by_cases h256 : q < 256
    · rw [if_pos h256, List.getD_append _ _ _ _ (by omega)]
      exact hL q h256
    · rw [if_neg h256, List.getD_append_right _ _ _ _ (by omega), hl]
      exact hR _ (by omega)

theorem twoToOne_complete (left right out : List ℕ) (base : ℕ) (s : Asg (ZMod p)) (hp' : 2 ^ 35 ≤ p) (hl : left.length = 256) (hr : right.length = 256)
    (ho : out.length = 256) (hnd : out.Nodup) (hout : ∀ v ∈ out, v ≠ 0 ∧ v < base) (hin : ∀ v ∈ left ++ right, v < base ∧ v ∉ out)
    (L R : ℕ → Bool) (hL : ∀ q < 256, val s (left.getD q 0) = b2f (L q)) (hR : ∀ q < 256, val s (right.getD q 0) = b2f (R q)) :
    Sat ((twoToOne (p := p) left right out base).assign s) (twoToOne left right out base).gates := by
  refine compression_complete defaultIV (left ++ right) out base s hp' ⟨ho, hnd, hout, ?_, ?_⟩ (digestBit iv) (fun q => if q < 256 then L q else R (q - 256))
    (fun q hq => defaultIV_bit s q hq) ?_
  · intro q hq
    rw [List.getD_eq_getElem _ _ (by rw [List.length_append]; omega)]
    exact hin _ (List.getElem_mem _)
  · intro q hq t ht
    rw [defaultIV, List.getD_eq_getElem _ _ (by simpa using hq), List.getElem_map] at ht
    left
    simp [Lc.smul, Lc.var] at ht
    rw [ht]
  · intro q hq
    by_cases h256 : q < 256
    · rw [if_pos h256, List.getD_append _ _ _ _ (by omega)]
      exact hL q h256
    · rw [if_neg h256, List.getD_append_right _ _ _ _ (by omega), hl]
      exact hR _ (by omega)

/-! ### The hash function -/

theorem defaultIV_uses (q : ℕ) (hq : q < 256) (P : ℕ → Prop) : ((defaultIV (p := p)).getD q []).Uses P := by
  intro t ht
  rw [defaultIV, List.getD_eq_getElem _ _ (by simpa using hq), List.getElem_map] at ht
  left
  simp [Lc.smul, Lc.var] at ht
  rw [ht]

/-- The bits that the component appends to a message of length `l`. -/
def padBits (l : ℕ) : List Bool :=
  (if 0 < paddingLength l 64 512 then true :: List.replicate (paddingLength l 64 512 - 1) false else []) ++ (List.range 64).map fun i => l.testBit (63 - i)

theorem padVars_eq (l o z : ℕ) : padVars l 64 512 o z = (padBits l).map fun b => if b then o else z := by
  unfold padVars padBits
  rw [List.map_append, List.map_map]
  congr 1
  · split_ifs <;> simp
  · refine List.map_congr_left fun i hi => ?_
    rw [Function.comp, Nat.testBit_eq_decide_div_mod_eq, Nat.shiftRight_eq_div_pow]
    simp

theorem padBits_length (l : ℕ) : (padBits l).length = paddingLength l 64 512 + 64 := by
  unfold padBits
  split_ifs with h <;> simp <;> omega

/-- The component's padding is that of the standard, except for messages whose length is 448 modulo 512. -/
theorem padBits_spec (m : List Bool) (h : m.length % 512 ≠ 448) : m ++ padBits m.length = pad m := by
  have h1 : paddingLength m.length 64 512 = zeros m.length + 1 := by unfold paddingLength zeros; omega
  rw [padBits, h1, if_pos (by omega), pad]
  simp

/-- For messages whose length is 448 modulo 512 only the length is appended. -/
theorem padBits_448 (l : ℕ) (h : l % 512 = 448) : padBits l = (List.range 64).map fun i => l.testBit (63 - i) := by
  have h1 : paddingLength l 64 512 = 0 := by unfold paddingLength; omega
  rw [padBits, h1]; rfl

theorem padded_length (l : ℕ) : (l + (padBits l).length) % 512 = 0 ∧ 0 < (l + (padBits l).length) / 512 := by
  rw [padBits_length]
  unfold paddingLength
  omega

namespace HashC
variable (k : HashC)

/-- The variables are allocated before the component; the output bits are 256 different variables, none of them an input. -/
structure WF : Prop where
  len : k.out.length = 256
  nodup : k.out.Nodup
  out : ∀ v ∈ k.out, v ≠ 0 ∧ v < k.base
  input : ∀ v ∈ k.input, v < k.base ∧ v ∉ k.out

theorem bits_length : k.bits.length = k.input.length + (padBits k.input.length).length := by
  rw [bits, padVars_eq, List.length_append, List.length_map]

theorem bits_blocks : k.bits.length = 512 * k.numBlocks ∧ 0 < k.numBlocks := by
  have := padded_length k.input.length
  rw [← bits_length] at this
  unfold numBlocks
  omega

theorem block_get (i : ℕ) (q : ℕ) (hq : q < 512) : (k.block i).getD q 0 = k.bits.getD (512 * i + q) 0 := by
  unfold block
  rw [List.getD_eq_getElem?_getD, List.getD_eq_getElem?_getD, List.getElem?_take_of_lt hq, List.getElem?_drop, Nat.mul_comm]

/-- The message with the bits that the component appends. -/
def padded (m : List Bool) : List Bool := m ++ padBits m.length

/-- The values of the variables of the padded message. -/
theorem bits_val (s : Asg (ZMod p)) (m : List Bool) (hm : k.input.map (val s) = m.map b2f) (h1 : val s k.one = 1) (h0 : val s k.zero = 0) :
    k.bits.map (val s) = (padded m).map b2f := by
  have hl : k.input.length = m.length := by simpa using congrArg List.length hm
  rw [bits, List.map_append, hm, padVars_eq, hl, padded, List.map_append, List.map_map]
  congr 1
  refine List.map_congr_left fun b _ => ?_
  cases b <;> simp [h0, h1]

theorem bits_val_get (s : Asg (ZMod p)) (m : List Bool) (h : k.bits.map (val s) = (padded m).map b2f) (q : ℕ) (hq : q < k.bits.length) :
    val s (k.bits.getD q 0) = b2f ((padded m).getD q false) := by
  have hl : k.bits.length = (padded m).length := by simpa using congrArg List.length h
  have := congrArg (fun l => l[q]?) h
  simp only [List.getElem?_map, List.getElem?_eq_getElem hq, List.getElem?_eq_getElem (hl ▸ hq), Option.map_some, Option.some.injEq] at this
  rw [List.getD_eq_getElem _ _ hq, List.getD_eq_getElem _ _ (hl ▸ hq)]
  exact this

/-- The output of component `i`. -/
def outOf (i : ℕ) : List ℕ := if i = k.numBlocks - 1 then k.out else k.inter i

theorem inter_get (i q : ℕ) (hq : q < 256) : (k.inter i).getD q 0 = k.base + 2 + 256 * i + q := by
  rw [inter, List.getD_eq_getElem _ _ (by simpa using hq), List.getElem_map, List.getElem_range]

/-- The previous output of component `i`, once the components before are correct. -/
theorem prev_val (s : Asg (ZMod p)) (m : List Bool) (i : ℕ) (hi : i < k.numBlocks)
    (ih : ∀ j < i, ∀ q < 256, val s ((k.outOf j).getD q 0) = b2f (digestBit (hashBlocks (padded m) (j + 1)) q)) :
    ∀ q < 256, ((if i = 0 then defaultIV else (k.inter (i - 1)).map Lc.var : List (Lc (ZMod p))).getD q []).eval s =
      b2f (digestBit (hashBlocks (padded m) i) q) := by
  intro q hq
  by_cases h0 : i = 0
  · rw [if_pos h0, h0]
    exact defaultIV_bit s q hq
  · rw [if_neg h0]
    have := ih (i - 1) (by omega) q hq
    rw [outOf, if_neg (by omega), show i - 1 + 1 = i by omega] at this
    rw [List.getD_eq_getElem _ _ (by simpa [inter] using hq), List.getElem_map, eval_var, ← this, List.getD_eq_getElem _ _ (by simpa [inter] using hq)]

/-- The outputs of all components. -/
theorem outs_sound (s : Asg (ZMod p)) (hp' : 2 ^ 35 ≤ p) (m : List Bool) (hm : k.input.map (val s) = m.map b2f) (h1 : val s k.one = 1) (h0 : val s k.zero = 0)
    (n : ℕ) (hn : n ≤ k.numBlocks) (h : ∀ i < n, Sat s (k.comp i).gates) :
    ∀ i < n, ∀ q < 256, val s ((k.outOf i).getD q 0) = b2f (digestBit (hashBlocks (padded m) (i + 1)) q) := by
  intro i
  induction i using Nat.strong_induction_on with
  | _ i ih =>
    intro hi
    have hv := k.bits_val s m hm h1 h0
    have := compression_sound _ (k.block i) (k.outOf i) (k.cBase i) s hp' (digestBit (hashBlocks (padded m) i)) (fun q => (padded m).getD (512 * i + q) false)
      (k.prev_val s m i (by omega) fun j hj => ih j hj (by omega)) (fun q hq => ?_) (h i hi)
    · rw [stateOf_digest] at this
      exact this
    · rw [block_get k i q hq]
      exact k.bits_val_get s m hv _ (by have := k.bits_blocks; omega)

/-- What every accepted assignment computes: the hash value of the message with the component's padding. -/
theorem hash_sound_padded (s : Asg (ZMod p)) (hp' : 2 ^ 35 ≤ p) (m : List Bool) (hm : k.input.map (val s) = m.map b2f) (h : Sat s k.gates) :
    ∀ q < 256, val s (k.out.getD q 0) = b2f (digestBit (hashBlocks (padded m) ((padded m).length / 512)) q) := by
  rw [gates, sat_append, sat_flatMap] at h
  simp only [sat_cons, sat_nil, and_true, Constraint.Holds, eval_const, eval_var, one_mul] at h
  obtain ⟨⟨h1, h0⟩, h⟩ := h
  have := k.outs_sound s hp' m hm h1 h0 k.numBlocks le_rfl fun i hi => h i (List.mem_range.2 hi)
  have hb := k.bits_blocks
  have hl : k.bits.length = (padded m).length := by simpa using congrArg List.length (k.bits_val s m hm h1 h0)
  have := this (k.numBlocks - 1) (by omega)
  rw [outOf, if_pos rfl, show k.numBlocks - 1 + 1 = (padded m).length / 512 by omega] at this
  exact this

/-- The output of the hash component is the SHA-256 hash value of the input, if the length of the input is not 448 modulo 512. -/
theorem hash_sound_partial (s : Asg (ZMod p)) (hp' : 2 ^ 35 ≤ p) (m : List Bool) (hlen : m.length % 512 ≠ 448) (hm : k.input.map (val s) = m.map b2f)
    (h : Sat s k.gates) : ∀ q < 256, val s (k.out.getD q 0) = b2f (digestBit (sha256 m) q) := by
  have := k.hash_sound_padded s hp' m hm h
  rwa [padded, padBits_spec m hlen] at this

/-! Completeness -/

theorem bits_mem (h : k.WF) (q : ℕ) (hq : q < k.bits.length) :
    (k.bits.getD q 0 ∈ k.input ∧ k.bits.getD q 0 < k.base ∧ k.bits.getD q 0 ∉ k.out) ∨ k.bits.getD q 0 = k.base ∨ k.bits.getD q 0 = k.base + 1 := by
  have hmem : k.bits.getD q 0 ∈ k.bits := by rw [List.getD_eq_getElem _ _ hq]; exact List.getElem_mem _
  generalize k.bits.getD q 0 = v at hmem
  rw [bits, padVars_eq] at hmem
  rcases List.mem_append.1 hmem with hv | hv
  · exact Or.inl ⟨hv, h.input v hv⟩
  · obtain ⟨b, _, rfl⟩ := List.mem_map.1 hv
    right
    cases b
    · exact Or.inr rfl
    · exact Or.inl rfl

theorem inter_mem (i v : ℕ) : v ∈ k.inter i ↔ k.base + 2 + 256 * i ≤ v ∧ v < k.base + 2 + 256 * i + 256 := by
  unfold inter
  constructor
  · intro h
    obtain ⟨q, hq, rfl⟩ := List.mem_map.1 h
    have := List.mem_range.1 hq
    omega
  · rintro ⟨h1, h2⟩
    exact List.mem_map.2 ⟨v - (k.base + 2 + 256 * i), List.mem_range.2 (by omega), by omega⟩

theorem outOf_mem (h : k.WF) (i v : ℕ) (hi : i < k.numBlocks) (hv : v ∈ k.outOf i) :
    v ≠ 0 ∧ ((i = k.numBlocks - 1 ∧ v ∈ k.out ∧ v < k.base) ∨ (i < k.numBlocks - 1 ∧ k.base + 2 + 256 * i ≤ v ∧ v < k.base + 2 + 256 * i + 256)) := by
  unfold outOf at hv
  split_ifs at hv with e
  · exact ⟨(h.out v hv).1, Or.inl ⟨e, hv, (h.out v hv).2⟩⟩
  · rw [inter_mem] at hv
    exact ⟨by omega, Or.inr ⟨by omega, hv⟩⟩

theorem cBase_ge (i : ℕ) : k.base + 2 + 256 * (k.numBlocks - 1) ≤ k.cBase i := by unfold cBase; omega

theorem comp_wf (h : k.WF) (i : ℕ) (hi : i < k.numBlocks) : VecWF (p := p) (if i = 0 then defaultIV else (k.inter (i - 1)).map Lc.var) (k.block i)
    (k.outOf i) (k.cBase i) := by
  have hc := k.cBase_ge i
  refine ⟨?_, ?_, ?_, ?_, ?_⟩
  · unfold outOf
    split_ifs
    · exact h.len
    · simp [inter]
  · unfold outOf
    split_ifs
    · exact h.nodup
    · unfold inter
      refine List.Nodup.map ?_ List.nodup_range
      intro a b e
      have e : k.base + 2 + 256 * i + a = k.base + 2 + 256 * i + b := e
      omega
  · intro v hv
    obtain ⟨h0, h1 | h1⟩ := k.outOf_mem h i v hi hv
    · exact ⟨h0, by omega⟩
    · exact ⟨h0, by omega⟩
  · intro q hq
    rw [block_get k i q hq]
    have := k.bits_mem h (512 * i + q) (by have := k.bits_blocks; omega)
    generalize k.bits.getD (512 * i + q) 0 = v at this
    refine ⟨by omega, fun hv => ?_⟩
    obtain ⟨h0, h1 | h1⟩ := k.outOf_mem h i v hi hv
    · rcases this with this | this
      · exact this.2.2 h1.2.1
      · omega
    · omega
  · intro q hq
    by_cases h0 : i = 0
    · rw [if_pos h0]; exact defaultIV_uses q hq _
    · rw [if_neg h0, List.getD_eq_getElem _ _ (by simpa [inter] using hq), List.getElem_map]
      intro t ht
      rw [List.mem_singleton.1 ht]
      right
      have hv : (k.inter (i - 1))[q]'(by simpa [inter] using hq) ∈ k.inter (i - 1) := List.getElem_mem _
      generalize (k.inter (i - 1))[q]'(by simpa [inter] using hq) = v at hv
      rw [inter_mem] at hv
      refine ⟨by show v < k.cBase i; omega, fun hv' => ?_⟩
      obtain ⟨_, h1 | h1⟩ := k.outOf_mem h i v hi hv'
      · omega
      · omega

/-- The inputs of component `i`. -/
theorem comp_in (h : k.WF) (i v : ℕ) (hi : i < k.numBlocks) (hv : (k.comp (p := p) i).In v) :
    (v ∈ k.input ∧ v < k.base ∧ v ∉ k.out) ∨ v = k.base ∨ v = k.base + 1 ∨ (0 < i ∧ k.base + 2 + 256 * (i - 1) ≤ v ∧ v < k.base + 2 + 256 * (i - 1) + 256) := by
  rcases hv.2.2 with ⟨a, ha, b, hb, e⟩ | ⟨a, ha, b, hb, t, ht, e, hz⟩
  · have e : v = (k.block i).getD (511 - ((15 - a) * 32 + b)) 0 := e
    rw [block_get k i _ (by omega)] at e
    have := k.bits_mem h (512 * i + (511 - ((15 - a) * 32 + b))) (by have := k.bits_blocks; omega)
    rw [← e] at this
    rcases this with h1 | h1 | h1
    · exact Or.inl h1
    · exact Or.inr (Or.inl h1)
    · exact Or.inr (Or.inr (Or.inl h1))
  · have ht : t ∈ (if i = 0 then defaultIV else (k.inter (i - 1)).map Lc.var : List (Lc (ZMod p))).getD (255 - ((7 - a) * 32 + b)) [] := ht
    by_cases h0 : i = 0
    · rw [if_pos h0] at ht
      rcases defaultIV_uses (p := p) _ (by omega) (fun _ => False) t ht with h1 | h1
      · exact absurd (e ▸ h1) hz
      · exact h1.elim
    · rw [if_neg h0, List.getD_eq_getElem _ _ (by simp [inter]; omega), List.getElem_map] at ht
      rw [List.mem_singleton.1 ht] at e
      have hv : (k.inter (i - 1))[255 - ((7 - a) * 32 + b)]'(by simp [inter]; omega) ∈ k.inter (i - 1) := List.getElem_mem _
      rw [inter_mem] at hv
      have e : (k.inter (i - 1))[255 - ((7 - a) * 32 + b)]'(by simp [inter]; omega) = v := e
      rw [e] at hv
      exact Or.inr (Or.inr (Or.inr ⟨by omega, hv⟩))

theorem comp_isOut (h : k.WF) (i v : ℕ) (hi : i < k.numBlocks) (hv : (k.comp (p := p) i).IsOut v) :
    (i = k.numBlocks - 1 ∧ v ∈ k.out ∧ v < k.base) ∨ (i < k.numBlocks - 1 ∧ k.base + 2 + 256 * i ≤ v ∧ v < k.base + 2 + 256 * i + 256) :=
  (k.outOf_mem h i v hi ((isOut_iff _ _ _ _ (k.comp_wf (p := p) h i hi).outLen v).1 hv)).2

theorem steps_blk (h : k.WF) : Blk (k.steps (p := p)) (fun v => v ∈ k.input ∨ v ∈ k.out ∨ k.base ≤ v ∧ v < k.base + k.size)
    fun v => v ∈ k.out ∨ k.base ≤ v ∧ v < k.base + k.size := by
  have hb0 : k.base ≠ 0 := by
    have : 0 < k.out.length := by rw [h.len]; norm_num
    have := h.out _ (List.getElem_mem this)
    omega
  have b1 := (Blk.single (p := p) (v := k.one) (f := fun _ => 1) (R := fun _ => False) hb0 (fun _ _ _ => rfl) id).append
    (Blk.single (p := p) (v := k.zero) (f := fun _ => 0) (R := fun _ => False) (by unfold zero; omega) (fun _ _ _ => rfl) id)
    (by unfold one zero; rintro v (hv | hv) e; exacts [hv, by omega])
  have b2 := Blk.loop (p := p) (f := fun i => (k.comp i).steps) k.numBlocks _ _ (fun i hi => Compress.steps_blk (k.comp_wf (p := p) h i hi).wf) (by
    intro i j hij hj v hv e
    have hcb : ∀ i, (k.comp (p := p) i).base = k.base + 2 + 256 * (k.numBlocks - 1) + Compress.size * i := fun i => rfl
    have hmul : Compress.size * i + Compress.size ≤ Compress.size * j := by
      have := Nat.mul_le_mul_left Compress.size (show i + 1 ≤ j by omega)
      rw [Nat.mul_succ] at this
      exact this
    rw [hcb] at e hv
    generalize Compress.size * i = x at *
    generalize Compress.size * j = y at *
    have ej : ((j = k.numBlocks - 1 ∧ v ∈ k.out ∧ v < k.base) ∨ (j < k.numBlocks - 1 ∧ k.base + 2 + 256 * j ≤ v ∧ v < k.base + 2 + 256 * j + 256)) ∨
        k.base + 2 + 256 * (k.numBlocks - 1) + y ≤ v := by
      rcases e with e | e
      · exact Or.inl (k.comp_isOut h j v hj e)
      · exact Or.inr e.1
    rcases hv with hv | hv | hv
    · rcases k.comp_in h i v (by omega) hv with h1 | h1
      · rcases ej with (ej | ej) | ej
        · exact h1.2.2 ej.2.1
        · omega
        · omega
      · omega
    · rcases k.comp_isOut h i v (by omega) hv with h1 | h1 <;> omega
    · omega)
  have b := b1.append b2 (by
    rintro v hv ⟨j, hj, e⟩
    have hv : v = k.base ∨ v = k.base + 1 := by
      rcases hv with (hv | hv) | (hv | hv)
      · exact hv.elim
      · exact Or.inl hv
      · exact hv.elim
      · exact Or.inr hv
    rcases e with e | e
    · rcases k.comp_isOut (p := p) h j v hj e with h1 | h1 <;> omega
    · have := k.cBase_ge j
      have e : k.cBase j ≤ v := e.1
      omega)
  have hsz : ∀ j < k.numBlocks, k.cBase j + Compress.size ≤ k.base + k.size := by
    intro j hj
    have := Nat.mul_le_mul_left Compress.size (show j + 1 ≤ k.numBlocks by omega)
    rw [Nat.mul_succ] at this
    unfold cBase size
    omega
  have hT : ∀ v j, j < k.numBlocks → ((k.comp (p := p) j).IsOut v ∨ (k.comp (p := p) j).base ≤ v ∧ v < (k.comp (p := p) j).base + Compress.size) →
      v ∈ k.out ∨ k.base ≤ v ∧ v < k.base + k.size := by
    intro v j hj e
    have h1 := k.cBase_ge j
    have h2 := hsz j hj
    rcases e with e | e
    · rcases k.comp_isOut (p := p) h j v hj e with h1 | h1
      · exact Or.inl h1.2.1
      · right; unfold size; omega
    · have e : k.cBase j ≤ v ∧ v < k.cBase j + Compress.size := e
      right; omega
  have h2 : 2 ≤ k.size := by unfold size; omega
  refine b.mono ?_ ?_
  · rintro v (((hv | hv) | (hv | hv)) | ⟨j, hj, hv | hv⟩)
    · exact hv.elim
    · right; right; unfold one at hv; omega
    · exact hv.elim
    · right; right; unfold zero at hv; omega
    · rcases k.comp_in h j v hj hv with h1 | h1 | h1 | h1
      · exact Or.inl h1.1
      · right; right; omega
      · right; right; omega
      · right; right; unfold size; omega
    · exact Or.inr (hT v j hj hv)
  · rintro v ((hv | hv) | ⟨j, hj, e⟩)
    · right; unfold one at hv; omega
    · right; unfold zero at hv; omega
    · exact hT v j hj e

/-- If the assigned variables have the values of the assignment, the constraints hold. -/
theorem hash_eqs (s : Asg (ZMod p)) (hp' : 2 ^ 35 ≤ p) (m : List Bool) (hm : k.input.map (val s) = m.map b2f) (he : Eqs s k.steps) : Sat s k.gates := by
  rw [steps, eqs_append, eqs_cons, eqs_cons, eqs_flatMap] at he
  obtain ⟨⟨h1, h0, -⟩, he⟩ := he
  have h1 : val s k.one = 1 := h1
  have h0 : val s k.zero = 0 := h0
  have key : ∀ i < k.numBlocks, Sat s (k.comp i).gates := by
    intro i
    induction i using Nat.strong_induction_on with
    | _ i ih =>
      intro hi
      have hprev := k.prev_val s m i hi (k.outs_sound s hp' m hm h1 h0 i hi.le fun j hj => ih j hj (by omega))
      refine compress_eqs (k.comp i) _ hp' (stateOf (digestBit (hashBlocks (padded m) i))) (wordAt fun q => (padded m).getD (512 * i + q) false)
        (mk_prev_word _ (k.block i) (k.outOf i) (k.cBase i) _ _ hprev) (mk_block_word _ (k.block i) (k.outOf i) (k.cBase i) _ _ fun q hq => ?_)
        (he i (List.mem_range.2 hi))
      rw [block_get k i q hq]
      exact k.bits_val_get _ m (k.bits_val _ m hm h1 h0) _ (by have := k.bits_blocks; omega)
  rw [gates, sat_append, sat_flatMap]
  refine ⟨?_, fun i hi => key i (List.mem_range.1 hi)⟩
  simp only [sat_cons, sat_nil, and_true, Constraint.Holds, eval_const, eval_var, one_mul]
  exact ⟨h1, h0⟩

/-- The assignment leaves the input as it is. -/
theorem keep_input (h : k.WF) (s : Asg (ZMod p)) : k.input.map (val (k.assign s)) = k.input.map (val s) := by
  refine List.map_congr_left fun v hv => run_keep _ s (k.steps_blk (p := p) h).writes ?_
  have := h.input v hv
  rintro (e | e)
  · exact this.2 e
  · omega

/-- For every message the assignment satisfies the constraints. -/
theorem hash_complete (h : k.WF) (s : Asg (ZMod p)) (hp' : 2 ^ 35 ≤ p) (m : List Bool) (hm : k.input.map (val s) = m.map b2f) : Sat (k.assign s) k.gates := by
  exact k.hash_eqs _ hp' m ((k.keep_input h s).trans hm) (run_eq _ (k.steps_blk (p := p) h).ssa s)

/-- The message of 448 zero bits: the component's hash value is not the SHA-256 hash value. -/
theorem zero448_ne : hashBlocks (padded (List.replicate 448 false)) ((padded (List.replicate 448 false)).length / 512) ≠ sha256 (List.replicate 448 false) := by
  rw [sha256, show (padded (List.replicate 448 false)).length / 512 = 1 by decide +kernel,
    show (pad (List.replicate 448 false)).length / 512 = 2 by decide +kernel]
  simp only [hashBlocks]
  rw [← compressFast_eq iv (wordAt fun q => (padded (List.replicate 448 false)).getD (512 * 0 + q) false) [0, 0, 0, 0, 0, 0, 0, 0, 0, 0, 0, 0, 0, 0, 0, 448]
      (by decide +kernel),
    ← compressFast_eq iv (wordAt fun q => (pad (List.replicate 448 false)).getD (512 * 0 + q) false)
      [0, 0, 0, 0, 0, 0, 0, 0, 0, 0, 0, 0, 0, 0, 0x80000000, 0] (by decide +kernel),
    ← compressFast_eq (compressFast iv [0, 0, 0, 0, 0, 0, 0, 0, 0, 0, 0, 0, 0, 0, 0x80000000, 0])
      (wordAt fun q => (pad (List.replicate 448 false)).getD (512 * 1 + q) false) [0, 0, 0, 0, 0, 0, 0, 0, 0, 0, 0, 0, 0, 0, 0, 448] (by decide +kernel)]
  decide +kernel

/-- The hash component does not compute SHA-256: for the message of 448 zero bits no accepted assignment has the SHA-256 hash value as output. -/
theorem hash_not_sha256 (s : Asg (ZMod p)) (hp' : 2 ^ 35 ≤ p) (hm : k.input.map (val s) = (List.replicate 448 false).map b2f) (h : Sat s k.gates) :
    ¬ ∀ q < 256, val s (k.out.getD q 0) = b2f (digestBit (sha256 (List.replicate 448 false)) q) := by
  intro hq
  apply zero448_ne
  apply digestBit_inj
  intro q hlt
  have := k.hash_sound_padded s hp' _ hm h q hlt
  rw [hq q hlt] at this
  exact (b2f_inj this).symm

end HashC

/-! ### The hypotheses can be met -/

/-- Variables 1 to 256 are the output, the next `n` the message. -/
def exHash (n : ℕ) : HashC := ⟨(List.range n).map (· + 257), (List.range 256).map (· + 1), n + 257⟩

theorem exHash_wf (n : ℕ) : (exHash n).WF := by
  refine ⟨by simp [exHash], ?_, ?_, ?_⟩
  · exact List.Nodup.map (fun a b e => by have e : a + 1 = b + 1 := e; omega) List.nodup_range
  · intro v hv
    obtain ⟨q, hq, rfl⟩ := List.mem_map.1 hv
    have := List.mem_range.1 hq
    exact ⟨by omega, by show q + 1 < n + 257; omega⟩
  · intro v hv
    obtain ⟨q, hq, rfl⟩ := List.mem_map.1 hv
    have := List.mem_range.1 hq
    refine ⟨by show q + 257 < n + 257; omega, fun h => ?_⟩
    obtain ⟨r, hr, e⟩ := List.mem_map.1 h
    have := List.mem_range.1 hr
    omega

/-- An assignment of the message. -/
def exAsg (m : List Bool) : Asg (ZMod blsR) := fun v => if 257 ≤ v then b2f (m.getD (v - 257) false) else 0

theorem exAsg_input (m : List Bool) : (exHash m.length).input.map (val (exAsg m)) = m.map b2f := by
  apply List.ext_getElem
  · simp [exHash]
  · intro i h1 h2
    have hi : i < m.length := by simpa using h2
    simp only [exHash, List.getElem_map, List.getElem_range]
    rw [val_pos _ (by omega), exAsg, if_pos (by omega), show i + 257 - 257 = i by omega, List.getD_eq_getElem _ _ hi]

theorem blsR_big : 2 ^ 35 ≤ blsR := by norm_num [blsR]

/-- Every message of a length other than 448 modulo 512 is hashed correctly in the scalar field of BLS12-381, by some accepted assignment. -/
example (m : List Bool) (h : m.length % 512 ≠ 448) : ∃ s : Asg (ZMod blsR), (exHash m.length).input.map (val s) = m.map b2f ∧ Sat s (exHash m.length).gates ∧
    ∀ q < 256, val s ((exHash m.length).out.getD q 0) = b2f (digestBit (sha256 m) q) := by
  have hk : (exHash m.length).input.map (val ((exHash m.length).assign (exAsg m))) = m.map b2f := by
    rw [← exAsg_input m]; exact (exHash m.length).keep_input (exHash_wf _) _
  have hs := (exHash m.length).hash_complete (exHash_wf _) (exAsg m) blsR_big m (exAsg_input m)
  exact ⟨_, hk, hs, (exHash m.length).hash_sound_partial _ blsR_big m h hk hs⟩

/-- There is an accepted assignment for the message of 448 zeros whose output is not its SHA-256 hash value. -/
theorem hash_counterexample : ∃ s : Asg (ZMod blsR), (exHash 448).input.map (val s) = (List.replicate 448 false).map b2f ∧ Sat s (exHash 448).gates ∧
    ¬ ∀ q < 256, val s ((exHash 448).out.getD q 0) = b2f (digestBit (sha256 (List.replicate 448 false)) q) := by
  have hl : (List.replicate 448 false).length = 448 := List.length_replicate
  have hi := exAsg_input (List.replicate 448 false)
  rw [hl] at hi
  have hk : (exHash 448).input.map (val ((exHash 448).assign (exAsg (List.replicate 448 false)))) = (List.replicate 448 false).map b2f := by
    rw [← hi]; exact (exHash 448).keep_input (exHash_wf _) _
  have hs := (exHash 448).hash_complete (exHash_wf _) (exAsg (List.replicate 448 false)) blsR_big _ hi
  exact ⟨_, hk, hs, (exHash 448).hash_not_sha256 _ blsR_big hk hs⟩

/-- The vectors of the 2-to-1 hash. -/
example : VecWF (p := blsR) defaultIV ((List.range 512).map (· + 257)) ((List.range 256).map (· + 1)) 769 := by
  refine ⟨by simp, List.Nodup.map (fun a b e => by have e : a + 1 = b + 1 := e; omega) List.nodup_range, ?_, ?_, fun q hq => defaultIV_uses q hq _⟩
  · intro v hv
    obtain ⟨q, hq, rfl⟩ := List.mem_map.1 hv
    have := List.mem_range.1 hq
    exact ⟨by omega, by omega⟩
  · intro q hq
    rw [List.getD_eq_getElem _ _ (by simpa using hq), List.getElem_map, List.getElem_range]
    refine ⟨by omega, fun h => ?_⟩
    obtain ⟨r, hr, e⟩ := List.mem_map.1 h
    have := List.mem_range.1 hr
    omega

end
end Sha
end R1cs
end Verif
