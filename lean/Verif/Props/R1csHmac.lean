import Verif.Model.R1csHmac
import Verif.Core.Hmac
import Verif.Props.R1csSha256Hash

/-!
# C92: the r1cs HMAC component
-/

set_option linter.unusedSectionVars false

namespace Verif
namespace R1cs
namespace Sha

open Sha256Spec

section
variable {p : ℕ} [hp : Fact p.Prime]

theorem xorByte_get (kb : List Bool) (b i : ℕ) (hi : i < kb.length) : (xorByte kb b).getD i false = (kb[i] ^^ b.testBit (7 - i % 8)) := by
  rw [List.getD_eq_getElem _ _ (by rw [xorByte_length]; exact hi)]
  simp only [xorByte, List.getElem_map, List.getElem_range]
  rw [List.getD_eq_getElem _ _ hi]

theorem vals_get {s : Asg (ZMod p)} {l : List ℕ} {m : List Bool} (h : l.map (val s) = m.map b2f) (i : ℕ) (hi : i < m.length) :
    val s (l.getD i 0) = b2f m[i] := by
  have hl : l.length = m.length := by simpa using congrArg List.length h
  have := congrArg (fun l => l[i]?) h
  simp only [List.getElem?_map, List.getElem?_eq_getElem hi, List.getElem?_eq_getElem (hl ▸ hi : i < l.length), Option.map_some, Option.some.injEq] at this
  rw [List.getD_eq_getElem _ _ (hl ▸ hi : i < l.length)]
  exact this

theorem vals_of {s : Asg (ZMod p)} {l : List ℕ} {m : List Bool} (hl : l.length = m.length) (h : ∀ i < m.length, val s (l.getD i 0) = b2f (m.getD i false)) :
    l.map (val s) = m.map b2f := by
  apply List.ext_getElem
  · simpa using hl
  · intro i h1 h2
    have hi : i < m.length := by simpa using h2
    have := h i hi
    rw [List.getD_eq_getElem _ _ (hl ▸ hi : i < l.length), List.getD_eq_getElem _ _ hi] at this
    simpa using this

/-- The XOR constraints. -/
theorem xor_sound {s : Asg (ZMod p)} {input output : List ℕ} {kb : List Bool} (b : ℕ) (hk : input.map (val s) = kb.map b2f) (hl : output.length = input.length)
    (h : Sat s (xorGates b input output)) : output.map (val s) = (xorByte kb b).map b2f := by
  have hlen : input.length = kb.length := by simpa using congrArg List.length hk
  refine vals_of (by rw [xorByte_length, hl, hlen]) fun i hi => ?_
  rw [xorByte_length] at hi
  rw [xorByte_get kb b i hi]
  rw [xorGates, sat_map] at h
  have h := h i (List.mem_range.2 (by omega))
  have hv := vals_get hk i hi
  split_ifs at h with hb
  · simp only [Constraint.Holds, eval_const, eval_var, one_mul] at h
    rw [← h, hv, show b.testBit (7 - i % 8) = false from hb, Bool.xor_false]
  · simp only [Constraint.Holds, eval_const, eval_var, eval_sub, one_mul] at h
    rw [← h, hv, show b.testBit (7 - i % 8) = true by simpa [unpackByte] using hb]
    cases kb[i] <;> simp

theorem xor_eqs {s : Asg (ZMod p)} {input output : List ℕ} {kb : List Bool} (b : ℕ) (hk : input.map (val s) = kb.map b2f)
    (h : Eqs s (xorSteps b input output)) : Sat s (xorGates b input output) := by
  have hlen : input.length = kb.length := by simpa using congrArg List.length hk
  rw [xorGates, sat_map]
  rw [xorSteps, eqs_map] at h
  intro i hi
  have h : val s (output.getD i 0) = if unpackByte b (i % 8) = false then val s (input.getD i 0) else if val s (input.getD i 0) = 0 then 1 else 0 := h i hi
  have hv := vals_get hk i (by rw [← hlen]; exact List.mem_range.1 hi)
  split_ifs at h ⊢ with hb hz
  · simp only [Constraint.Holds, eval_const, eval_var, one_mul]
    exact h.symm
  · simp only [Constraint.Holds, eval_const, eval_var, eval_sub, one_mul]
    rw [h, hz, sub_zero]
  · simp only [Constraint.Holds, eval_const, eval_var, eval_sub, one_mul]
    rw [h, hv]
    rw [hv] at hz
    cases hx : kb[i]'(by rw [← hlen]; exact List.mem_range.1 hi)
    · simp [hx] at hz
    · simp

namespace HmacC
variable (k : HmacC)

/-- The key fits in a block; all variables are allocated before the component; the output bits are 256 different variables, none of them an input. -/
structure WF : Prop where
  keyLen : k.key.length ≤ 512
  len : k.out.length = 256
  nodup : k.out.Nodup
  out : ∀ v ∈ k.out, v ≠ 0 ∧ v < k.base
  key : ∀ v ∈ k.key, v < k.base ∧ v ∉ k.out
  message : ∀ v ∈ k.message, v < k.base ∧ v ∉ k.out

/-- HMAC with the padding of `sha256_hash_component` in the inner hash. -/
def hmacPadded (kb m : List Bool) : State :=
  sha256 (xorByte (blockKey kb) 0x5c ++
    digestBits (hashBlocks (HashC.padded (xorByte (blockKey kb) 0x36 ++ m)) ((HashC.padded (xorByte (blockKey kb) 0x36 ++ m)).length / 512)))

theorem hmacPadded_eq (kb m : List Bool) (h : m.length % 512 ≠ 448) : hmacPadded kb m = hmac kb m := by
  have hl : (xorByte (blockKey kb) 0x36 ++ m).length % 512 ≠ 448 := by
    rw [List.length_append, xorByte_length, blockKey_length]; omega
  rw [hmacPadded, HashC.padded, padBits_spec _ hl]
  rfl

variable {k}

theorem paddedKey_val {s : Asg (ZMod p)} {kb : List Bool} (hl : k.key.length ≤ 512) (hk : k.key.map (val s) = kb.map b2f) (h0 : val s k.zero = 0) :
    k.paddedKey.map (val s) = (blockKey kb).map b2f := by
  have e : k.key.length = kb.length := by simpa using congrArg List.length hk
  unfold paddedKey blockKey
  rw [if_neg (by omega), List.map_append, List.map_append, hk, List.map_replicate, List.map_replicate, h0, e]
  rfl

theorem paddedKey_length (hl : k.key.length ≤ 512) : k.paddedKey.length = 512 := by
  unfold paddedKey
  rw [List.length_append, List.length_replicate]; omega

theorem digest_map {s : Asg (ZMod p)} {l : List ℕ} {u : State} (hl : l.length = 256) (h : ∀ q < 256, val s (l.getD q 0) = b2f (digestBit u q)) :
    l.map (val s) = (digestBits u).map b2f := by
  have h256 : (digestBits u).length = 256 := by rw [digestBits, List.length_map, List.length_range]
  refine vals_of (by rw [hl, h256]) fun i hi => ?_
  rw [List.getD_eq_getElem (digestBits u) _ hi]
  simp only [digestBits, List.getElem_map, List.getElem_range]
  exact h i (by omega)

/-- What every accepted assignment computes. -/
theorem hmac_sound_padded (k : HmacC) (s : Asg (ZMod p)) (hp' : 2 ^ 35 ≤ p) (hl : k.key.length ≤ 512) (kb m : List Bool)
    (hk : k.key.map (val s) = kb.map b2f) (hm : k.message.map (val s) = m.map b2f) (h : Sat s k.gates) :
    ∀ q < 256, val s (k.out.getD q 0) = b2f (digestBit (hmacPadded kb m) q) := by
  simp only [gates, sat_append, sat_cons, sat_nil, and_true] at h
  obtain ⟨⟨⟨⟨h0, hi⟩, ho⟩, h1⟩, h2⟩ := h
  simp only [Constraint.Holds, eval_const, eval_var, one_mul] at h0
  have hpk := paddedKey_val hl hk h0
  have vi := xor_sound 0x36 hpk (by rw [paddedKey_length hl]; simp [keyI]) hi
  have vo := xor_sound 0x5c hpk (by rw [paddedKey_length hl]; simp [keyO]) ho
  have e1 := k.hash1.hash_sound_padded s hp' (xorByte (blockKey kb) 0x36 ++ m) (by
    show (k.keyI ++ k.message).map (val s) = _
    rw [List.map_append, List.map_append, vi, hm]) h1
  have e2 := k.hash2.hash_sound_partial s hp'
    (xorByte (blockKey kb) 0x5c ++ digestBits (hashBlocks (HashC.padded (xorByte (blockKey kb) 0x36 ++ m)) ((HashC.padded (xorByte (blockKey kb) 0x36 ++ m)).length / 512)))
    (by rw [List.length_append, xorByte_length, blockKey_length, digestBits, List.length_map, List.length_range]; decide)
    (by
      show (k.keyO ++ k.inner).map (val s) = _
      rw [List.map_append, List.map_append, vo, digest_map (l := k.inner) (by simp [inner]) e1]) h2
  exact e2

/-- The output of the component is HMAC-SHA-256 of key and message (keys of at most 512 bits), if the length of the message is not 448 modulo 512. -/
theorem hmac_sound_partial (k : HmacC) (s : Asg (ZMod p)) (hp' : 2 ^ 35 ≤ p) (hl : k.key.length ≤ 512) (kb m : List Bool) (hlen : m.length % 512 ≠ 448)
    (hk : k.key.map (val s) = kb.map b2f) (hm : k.message.map (val s) = m.map b2f) (h : Sat s k.gates) :
    ∀ q < 256, val s (k.out.getD q 0) = b2f (digestBit (hmac kb m) q) := by
  rw [← hmacPadded_eq kb m hlen]
  exact hmac_sound_padded k s hp' hl kb m hk hm h

/-! ### Completeness -/

theorem rangeMap_mem (a n v : ℕ) : v ∈ (List.range n).map (fun i => a + i) ↔ a ≤ v ∧ v < a + n := by
  constructor
  · intro h
    obtain ⟨i, hi, rfl⟩ := List.mem_map.1 h
    have := List.mem_range.1 hi
    omega
  · rintro ⟨h1, h2⟩
    exact List.mem_map.2 ⟨v - a, List.mem_range.2 (by omega), by omega⟩

theorem rangeMap_nodup (a n : ℕ) : ((List.range n).map (fun i => a + i)).Nodup :=
  List.Nodup.map (fun x y e => by have e : a + x = a + y := e; omega) List.nodup_range

theorem rangeMap_get (a n i : ℕ) (hi : i < n) : ((List.range n).map (fun i => a + i)).getD i 0 = a + i := by
  rw [List.getD_eq_getElem _ _ (by simpa using hi), List.getElem_map, List.getElem_range]

theorem base_pos (h : k.WF) : k.base ≠ 0 := by
  have : 0 < k.out.length := by rw [h.len]; norm_num
  have := h.out _ (List.getElem_mem this)
  omega

theorem hash1_wf (h : k.WF) : k.hash1.WF := by
  refine ⟨by simp [hash1, inner], rangeMap_nodup _ _, ?_, ?_⟩
  · intro v hv
    have hv : k.base + 1025 ≤ v ∧ v < k.base + 1025 + 256 := (rangeMap_mem _ _ _).1 hv
    exact ⟨by omega, by show v < k.base + 1281; omega⟩
  · intro v hv
    have ho : v ∈ k.hash1.out ↔ k.base + 1025 ≤ v ∧ v < k.base + 1025 + 256 := rangeMap_mem _ _ _
    rw [ho]
    show v < k.base + 1281 ∧ _
    rcases List.mem_append.1 hv with hv | hv
    · have hv : k.base + 1 ≤ v ∧ v < k.base + 1 + 512 := (rangeMap_mem _ _ _).1 hv
      omega
    · have := (h.message v hv).1
      omega

theorem hash2_wf (h : k.WF) : k.hash2.WF := by
  refine ⟨h.len, h.nodup, ?_, ?_⟩
  · intro v hv
    have := h.out v hv
    exact ⟨this.1, by show v < k.base + 1281 + _; omega⟩
  · intro v hv
    have hv' : k.base < v ∧ v < k.base + 1281 := by
      rcases List.mem_append.1 hv with hv | hv
      · have hv : k.base + 513 ≤ v ∧ v < k.base + 513 + 512 := (rangeMap_mem _ _ _).1 hv
        omega
      · have hv : k.base + 1025 ≤ v ∧ v < k.base + 1025 + 256 := (rangeMap_mem _ _ _).1 hv
        omega
    refine ⟨by show v < k.base + 1281 + _; omega, fun ho => ?_⟩
    have := h.out v ho
    omega

theorem xor_blk (h : k.WF) (b a : ℕ) (ha : k.base < a) (o : List ℕ) (ho : ∀ i < 512, o.getD i 0 = a + i) :
    Blk (p := p) (xorSteps b k.paddedKey o) (fun v => v ≤ k.base ∧ v ∉ k.out ∨ a ≤ v ∧ v < a + 512)
      (fun v => a ≤ v ∧ v < a + 512) := by
  have hl := paddedKey_length h.keyLen
  unfold xorSteps
  rw [hl]
  have hR : ∀ i < 512, k.paddedKey.getD i 0 ≤ k.base ∧ k.paddedKey.getD i 0 ∉ k.out := by
    intro i hi
    have : k.paddedKey.getD i 0 ∈ k.paddedKey := by rw [List.getD_eq_getElem _ _ (by omega)]; exact List.getElem_mem _
    generalize k.paddedKey.getD i 0 = v at this
    unfold paddedKey at this
    rcases List.mem_append.1 this with hv | hv
    · have := h.key v hv
      exact ⟨by omega, this.2⟩
    · have hv : v = k.base := List.eq_of_mem_replicate hv
      exact ⟨by omega, fun hv' => by have := h.out v hv'; omega⟩
  have key := Blk.mapLoop (p := p) (f := fun i => (o.getD i 0,
    fun s => if unpackByte b (i % 8) = false then val s (k.paddedKey.getD i 0) else if val s (k.paddedKey.getD i 0) = 0 then 1 else 0)) 512
    (fun v => v ≤ k.base ∧ v ∉ k.out) ?_ ?_ ?_ ?_
  · refine key.mono ?_ ?_
    · rintro v (hv | ⟨i, hi, e⟩)
      · exact Or.inl hv
      · have e : v = o.getD i 0 := e
        rw [ho i hi] at e
        right; omega
    · rintro v ⟨i, hi, e⟩
      have e : v = o.getD i 0 := e
      rw [ho i hi] at e
      omega
  · intro i hi
    show o.getD i 0 ≠ 0
    rw [ho i hi]; omega
  · intro i hi j hj e
    have e : o.getD i 0 = o.getD j 0 := e
    rw [ho i hi, ho j hj] at e
    omega
  · intro i hi s s' hs
    show (if _ then _ else _) = (if _ then _ else _)
    rw [hs _ (hR i hi)]
  · intro i hi hv
    have hv : o.getD i 0 ≤ k.base ∧ _ := hv
    rw [ho i hi] at hv
    omega

theorem steps_blk (h : k.WF) : Ssa (k.steps (p := p)) ∧ Writes (k.steps (p := p)) fun v => v ∈ k.out ∨ k.base ≤ v := by
  have hb := base_pos h
  have b0 := Blk.single (p := p) (v := k.zero) (f := fun _ => 0) (R := fun _ => False) hb (fun _ _ _ => rfl) id
  have b1 := xor_blk (p := p) h 0x36 (k.base + 1) (by omega) k.keyI fun i hi => rangeMap_get _ 512 i hi
  have b2 := xor_blk (p := p) h 0x5c (k.base + 513) (by omega) k.keyO fun i hi => rangeMap_get _ 512 i hi
  have b3 := k.hash1.steps_blk (p := p) (hash1_wf h)
  have b4 := k.hash2.steps_blk (p := p) (hash2_wf h)
  have c1 := b0.append b1 (by rintro v (hv | hv) e; exacts [hv.elim, by have hv : v = k.base := hv; omega])
  have c1 : Blk (p := p) _ (fun v => (v ≤ k.base ∧ v ∉ k.out) ∨ k.base ≤ v ∧ v < k.base + 513) (fun v => k.base ≤ v ∧ v < k.base + 513) := c1.mono
    (by
      rintro v ((hv | hv) | (hv | hv))
      · exact hv.elim
      · have hv : v = k.base := hv
        right; omega
      · exact Or.inl hv
      · right; omega)
    (by
      rintro v (hv | hv)
      · have hv : v = k.base := hv
        omega
      · omega)
  have c2 := c1.append b2 (by rintro v hv e; omega)
  have h1o : ∀ v, v ∈ k.hash1.out ↔ k.base + 1025 ≤ v ∧ v < k.base + 1025 + 256 := fun v => rangeMap_mem _ _ _
  have h1b : k.hash1.base = k.base + 1281 := rfl
  have h2b : k.hash2.base = k.base + 1281 + k.hash1.size := rfl
  have c3 := c2.append b3 (by
    rintro v hv e
    rw [h1o, h1b] at e
    have : v < k.base + 1025 := by rcases hv with hv | hv <;> omega
    omega)
  have c4 := c3.append b4 (by
    rintro v hv e
    rw [h2b] at e
    have hv : v ∉ k.out ∧ v < k.base + 1281 + k.hash1.size := by
      have hge : k.base ≤ v → v ∉ k.out := fun h1 h2 => by have := h.out v h2; omega
      rcases hv with (hv | hv) | hv
      · rcases hv with hv | hv
        · exact ⟨hv.2, by omega⟩
        · exact ⟨hge (by omega), by omega⟩
      · rcases hv with hv | hv
        · exact ⟨hv.2, by omega⟩
        · exact ⟨hge (by omega), by omega⟩
      · rw [h1o, h1b] at hv
        rcases hv with hv | hv
        · rcases List.mem_append.1 hv with hv | hv
          · have hv : k.base + 1 ≤ v ∧ v < k.base + 1 + 512 := (rangeMap_mem _ _ _).1 hv
            exact ⟨hge (by omega), by omega⟩
          · have := h.message v hv
            exact ⟨this.2, by omega⟩
        · exact ⟨hge (by omega), by omega⟩
    rcases e with e | e
    · exact hv.1 e
    · omega)
  refine ⟨c4.ssa, c4.writes.mono ?_⟩
  rintro v (((hv | hv) | hv) | hv)
  · right; omega
  · right; omega
  · rw [h1o, h1b] at hv
    right; omega
  · rw [h2b] at hv
    rcases hv with hv | hv
    · exact Or.inl hv
    · right; omega

/-- The assignment leaves key and message as they are. -/
theorem keep (h : k.WF) (s : Asg (ZMod p)) {v : ℕ} (hv : v ∈ k.key ∨ v ∈ k.message) : val (k.assign s) v = val s v := by
  refine run_keep _ s (steps_blk (p := p) h).2 ?_
  have : v < k.base ∧ v ∉ k.out := hv.elim (h.key v) (h.message v)
  rintro (e | e)
  · exact this.2 e
  · omega

/-- For every key of at most 512 bits and every message the assignment satisfies the constraints. -/
theorem hmac_complete (k : HmacC) (h : k.WF) (s : Asg (ZMod p)) (hp' : 2 ^ 35 ≤ p) (kb m : List Bool)
    (hk : k.key.map (val s) = kb.map b2f) (hm : k.message.map (val s) = m.map b2f) : Sat (k.assign s) k.gates := by
  have he : Eqs (k.assign s) k.steps := run_eq _ (steps_blk (p := p) h).1 s
  have hk : k.key.map (val (k.assign s)) = kb.map b2f := by rw [← hk]; exact List.map_congr_left fun v hv => keep h s (Or.inl hv)
  have hm : k.message.map (val (k.assign s)) = m.map b2f := by rw [← hm]; exact List.map_congr_left fun v hv => keep h s (Or.inr hv)
  generalize k.assign s = t at he hk hm
  simp only [steps, eqs_append] at he
  obtain ⟨⟨⟨⟨h0, hi⟩, ho⟩, h1⟩, h2⟩ := he
  have h0 : val t k.zero = 0 := (eqs_cons.1 h0).1
  have hpk := paddedKey_val h.keyLen hk h0
  have gi := xor_eqs 0x36 hpk hi
  have go := xor_eqs 0x5c hpk ho
  have vi := xor_sound 0x36 hpk (by rw [paddedKey_length h.keyLen]; simp [keyI]) gi
  have vo := xor_sound 0x5c hpk (by rw [paddedKey_length h.keyLen]; simp [keyO]) go
  have m1 : (k.keyI ++ k.message).map (val t) = (xorByte (blockKey kb) 0x36 ++ m).map b2f := by rw [List.map_append, List.map_append, vi, hm]
  have g1 := k.hash1.hash_eqs t hp' _ m1 h1
  have e1 := k.hash1.hash_sound_padded t hp' _ m1 g1
  have d1 := digest_map (l := k.inner) (by simp [inner]) e1
  generalize hashBlocks _ _ = u at d1
  have m2 : (k.keyO ++ k.inner).map (val t) = (xorByte (blockKey kb) 0x5c ++ digestBits u).map b2f := by rw [List.map_append, List.map_append, vo, d1]
  have g2 := k.hash2.hash_eqs t hp' _ m2 h2
  simp only [gates, sat_append, sat_cons, sat_nil, and_true]
  refine ⟨⟨⟨⟨?_, gi⟩, go⟩, g1⟩, g2⟩
  simp only [Constraint.Holds, eval_const, eval_var, one_mul]
  exact h0

/-- The empty key and the message of 448 zero bits. -/
theorem zero448_hmac_ne : hmacPadded [] (List.replicate 448 false) ≠ hmac [] (List.replicate 448 false) := by
  rw [hmac_eval [] (List.replicate 448 false)
    [[0x36363636, 0x36363636, 0x36363636, 0x36363636, 0x36363636, 0x36363636, 0x36363636, 0x36363636, 0x36363636, 0x36363636, 0x36363636, 0x36363636, 0x36363636, 0x36363636, 0x36363636, 0x36363636], [0, 0, 0, 0, 0, 0, 0, 0, 0, 0, 0, 0, 0, 0, 0x80000000, 0], [0, 0, 0, 0, 0, 0, 0, 0, 0, 0, 0, 0, 0, 0, 0, 0x3c0]]
    [[0x5c5c5c5c, 0x5c5c5c5c, 0x5c5c5c5c, 0x5c5c5c5c, 0x5c5c5c5c, 0x5c5c5c5c, 0x5c5c5c5c, 0x5c5c5c5c, 0x5c5c5c5c, 0x5c5c5c5c, 0x5c5c5c5c, 0x5c5c5c5c, 0x5c5c5c5c, 0x5c5c5c5c, 0x5c5c5c5c, 0x5c5c5c5c], [0x5fa4a20c, 0xcc82e163, 0x442f86a1, 0xaea45701, 0x54d8329, 0x5051414e, 0x65de1fe7, 0xe5e5b983, 0x80000000, 0, 0, 0, 0, 0, 0, 0x300]]
    ⟨0x5fa4a20c, 0xcc82e163, 0x442f86a1, 0xaea45701, 0x54d8329, 0x5051414e, 0x65de1fe7, 0xe5e5b983⟩ (by decide +kernel) (by decide +kernel) (by decide +kernel) (by decide +kernel) (by decide +kernel)]
  rw [hmacPadded, hashBlocks_bits (HashC.padded (xorByte (blockKey []) 0x36 ++ List.replicate 448 false))
      [[0x36363636, 0x36363636, 0x36363636, 0x36363636, 0x36363636, 0x36363636, 0x36363636, 0x36363636, 0x36363636, 0x36363636, 0x36363636, 0x36363636, 0x36363636, 0x36363636, 0x36363636, 0x36363636], [0, 0, 0, 0, 0, 0, 0, 0, 0, 0, 0, 0, 0, 0, 0, 0x3c0]] (by decide +kernel) (by decide +kernel),
    show ([[0x36363636, 0x36363636, 0x36363636, 0x36363636, 0x36363636, 0x36363636, 0x36363636, 0x36363636, 0x36363636, 0x36363636, 0x36363636, 0x36363636, 0x36363636, 0x36363636, 0x36363636, 0x36363636], [0, 0, 0, 0, 0, 0, 0, 0, 0, 0, 0, 0, 0, 0, 0, 0x3c0]] : List (List Word)).foldl compressFast iv =
      ⟨0xbfb532f, 0xb5591044, 0x6daf9490, 0xb2073ad2, 0xefc293d0, 0x1ac80d42, 0xf099aff0, 0x7650c75⟩ by decide +kernel,
    sha256, hashBlocks_bits _
      [[0x5c5c5c5c, 0x5c5c5c5c, 0x5c5c5c5c, 0x5c5c5c5c, 0x5c5c5c5c, 0x5c5c5c5c, 0x5c5c5c5c, 0x5c5c5c5c, 0x5c5c5c5c, 0x5c5c5c5c, 0x5c5c5c5c, 0x5c5c5c5c, 0x5c5c5c5c, 0x5c5c5c5c, 0x5c5c5c5c, 0x5c5c5c5c], [0xbfb532f, 0xb5591044, 0x6daf9490, 0xb2073ad2, 0xefc293d0, 0x1ac80d42, 0xf099aff0, 0x7650c75, 0x80000000, 0, 0, 0, 0, 0, 0, 0x300]]
      (by decide +kernel) (by decide +kernel)]
  decide +kernel

/-- For messages of a length of 448 modulo 512 the component need not compute HMAC: no accepted assignment has the value of HMAC for the empty key and
448 zero bits. -/
theorem hmac_not_hmac (k : HmacC) (s : Asg (ZMod p)) (hp' : 2 ^ 35 ≤ p) (hl : k.key = []) (hm : k.message.map (val s) = (List.replicate 448 false).map b2f)
    (h : Sat s k.gates) : ¬ ∀ q < 256, val s (k.out.getD q 0) = b2f (digestBit (hmac [] (List.replicate 448 false)) q) := by
  intro hq
  apply zero448_hmac_ne
  apply digestBit_inj
  intro q hlt
  have := hmac_sound_padded k s hp' (by rw [hl]; simp) [] _ (by rw [hl]; rfl) hm h q hlt
  rw [hq q hlt] at this
  exact (b2f_inj this).symm

/-! ### The hypotheses can be met -/

/-- Variables 1 to 256 are the output, then the key and the message. -/
def exHmac (a b : ℕ) : HmacC := ⟨(List.range a).map (fun i => 257 + i), (List.range b).map (fun i => 257 + a + i), (List.range 256).map (fun i => 1 + i), a + b + 257⟩

theorem exHmac_wf (a b : ℕ) (ha : a ≤ 512) : (exHmac a b).WF := by
  have ho : ∀ v, v ∈ (exHmac a b).out ↔ 1 ≤ v ∧ v < 1 + 256 := fun v => rangeMap_mem _ _ _
  have hb : (exHmac a b).base = a + b + 257 := rfl
  refine ⟨by simpa [exHmac] using ha, by simp [exHmac], rangeMap_nodup _ _, ?_, ?_, ?_⟩
  · intro v hv
    rw [ho] at hv
    omega
  · intro v hv
    have hv : 257 ≤ v ∧ v < 257 + a := (rangeMap_mem _ _ _).1 hv
    rw [ho]
    omega
  · intro v hv
    have hv : 257 + a ≤ v ∧ v < 257 + a + b := (rangeMap_mem _ _ _).1 hv
    rw [ho]
    omega

/-- Key and message. -/
def exHmacAsg (kb m : List Bool) : Asg (ZMod blsR) := fun v => b2f ((kb ++ m).getD (v - 257) false)

theorem exHmac_vals (kb m : List Bool) : (exHmac kb.length m.length).key.map (val (exHmacAsg kb m)) = kb.map b2f ∧
    (exHmac kb.length m.length).message.map (val (exHmacAsg kb m)) = m.map b2f := by
  constructor
  · refine vals_of (by simp [exHmac]) fun i hi => ?_
    rw [exHmac, rangeMap_get _ _ _ hi, val_pos _ (by omega), exHmacAsg, show 257 + i - 257 = i by omega, List.getD_append _ _ _ _ hi]
  · refine vals_of (by simp [exHmac]) fun i hi => ?_
    rw [exHmac, rangeMap_get _ _ _ hi, val_pos _ (by omega), exHmacAsg, List.getD_append_right _ _ _ _ (by omega)]
    congr 2
    omega

theorem exHmac_sat (kb m : List Bool) (hk : kb.length ≤ 512) : ∃ s : Asg (ZMod blsR), (exHmac kb.length m.length).key.map (val s) = kb.map b2f ∧
    (exHmac kb.length m.length).message.map (val s) = m.map b2f ∧ Sat s (exHmac kb.length m.length).gates := by
  have hw := exHmac_wf kb.length m.length hk
  obtain ⟨h1, h2⟩ := exHmac_vals kb m
  refine ⟨(exHmac kb.length m.length).assign (exHmacAsg kb m), ?_, ?_, hmac_complete _ hw _ blsR_big kb m h1 h2⟩
  · rw [← h1]; exact List.map_congr_left fun v hv => keep hw _ (Or.inl hv)
  · rw [← h2]; exact List.map_congr_left fun v hv => keep hw _ (Or.inr hv)

/-- For all keys and messages as in `hmac_sound_partial` there is an accepted assignment, and it has HMAC as output. -/
example (kb m : List Bool) (hk : kb.length ≤ 512) (hm : m.length % 512 ≠ 448) : ∃ s : Asg (ZMod blsR), Sat s (exHmac kb.length m.length).gates ∧
    ∀ q < 256, val s ((exHmac kb.length m.length).out.getD q 0) = b2f (digestBit (hmac kb m) q) := by
  obtain ⟨s, h1, h2, h3⟩ := exHmac_sat kb m hk
  exact ⟨s, h3, hmac_sound_partial _ s blsR_big (by simpa [exHmac] using hk) kb m hm h1 h2 h3⟩

/-- There is an accepted assignment for the empty key and 448 zero bits whose output is not HMAC. -/
theorem hmac_counterexample : ∃ s : Asg (ZMod blsR), (exHmac 0 448).message.map (val s) = (List.replicate 448 false).map b2f ∧ Sat s (exHmac 0 448).gates ∧
    ¬ ∀ q < 256, val s ((exHmac 0 448).out.getD q 0) = b2f (digestBit (hmac [] (List.replicate 448 false)) q) := by
  have := exHmac_sat [] (List.replicate 448 false) (by simp)
  rw [List.length_replicate] at this
  obtain ⟨s, h1, h2, h3⟩ := this
  exact ⟨s, h2, h3, hmac_not_hmac _ s blsR_big rfl h2 h3⟩

end HmacC
end
end Sha
end R1cs
end Verif
