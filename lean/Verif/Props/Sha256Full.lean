import Verif.Model.Sha256Full
import Verif.Props.Sha256Sound
import Verif.Props.Decomposition
import Verif.Core.Sha256Hash
import Verif.Core.Seq

/-!
# C110, C111: the SHA-256 component
-/

set_option linter.unusedSimpArgs false
set_option linter.unusedSectionVars false
set_option linter.unusedVariables false

namespace Verif

/-! ## Facts about the standard -/

namespace Sha256Spec

theorem schedule_congr {m m' : ℕ → Word} (h : ∀ i < 16, m i = m' i) (n : ℕ) : schedule m n = schedule m' n := by
  induction n using Nat.strong_induction_on with
  | _ n ih =>
    rw [schedule, schedule.eq_1 m']
    by_cases hn : n < 16
    · rw [if_pos hn, if_pos hn, h n hn]
    · rw [if_neg hn, if_neg hn, ih (n - 15) (by omega), ih (n - 2) (by omega), ih (n - 7) (by omega), ih (n - 16) (by omega)]

theorem compress_congr (s : State) {m m' : ℕ → Word} (h : ∀ i < 16, m i = m' i) : compress s m = compress s m' := by
  unfold compress
  rw [show schedule m = schedule m' from funext (schedule_congr h)]

theorem beNat_lt (b : ℕ → Bool) (n : ℕ) : beNat b n < 2 ^ n := by
  induction n with
  | zero => simp [beNat]
  | succ n ih => rw [beNat_succ, pow_succ]; have := (b n).toNat_lt; omega

theorem beNat_congr {b b' : ℕ → Bool} {n : ℕ} (h : ∀ j < n, b j = b' j) : beNat b n = beNat b' n := by
  induction n with
  | zero => rfl
  | succ n ih => rw [beNat_succ, beNat_succ, ih fun j hj => h j (by omega), h n (by omega)]

theorem beNat_add (b : ℕ → Bool) (m n : ℕ) : beNat b (m + n) = beNat b m * 2 ^ n + beNat (fun j => b (m + j)) n := by
  induction n with
  | zero => simp [beNat]
  | succ n ih => rw [← add_assoc, beNat_succ, ih, beNat_succ, pow_succ]; ring

/-- A number of `n` bits is given by its bits. -/
theorem beNat_testBit (x n : ℕ) (hx : x < 2 ^ n) : beNat (fun j => x.testBit (n - 1 - j)) n = x := by
  apply Nat.eq_of_testBit_eq
  intro j
  by_cases hj : j < n
  · rw [beNat_bit _ _ _ hj]; congr 1; omega
  · rw [Nat.testBit_lt_two_pow (lt_of_lt_of_le (beNat_lt _ _) (Nat.pow_le_pow_right (by norm_num) (by omega))),
      Nat.testBit_lt_two_pow (lt_of_lt_of_le hx (Nat.pow_le_pow_right (by norm_num) (by omega)))]

/-- The 512-bit message given by four 128-bit numbers, most significant bit first. -/
def message (x : ℕ → ℕ) : List Bool := (List.range 512).map fun q => (x (q / 128)).testBit (127 - q % 128)

/-- Half `k` of a hash value as a number. -/
def half (u : State) (k : ℕ) : ℕ := beNat (fun q => digestBit u (128 * k + q)) 128

theorem digest_word (u : State) (i : ℕ) : beNat (fun j => digestBit u (32 * i + j)) 32 = (u.get i).toNat := by
  have h := beNat_testBit (u.get i).toNat 32 (u.get i).isLt
  rw [← h]
  apply beNat_congr
  intro j hj
  unfold digestBit
  rw [show (32 * i + j) / 32 = i by omega, show (32 * i + j) % 32 = j by omega]
  rfl

theorem half_eq (u : State) (k : ℕ) : half u k =
    (u.get (4 * k + 3)).toNat + (u.get (4 * k + 2)).toNat * 2 ^ 32 + (u.get (4 * k + 1)).toNat * 2 ^ 64 + (u.get (4 * k)).toNat * 2 ^ 96 := by
  unfold half
  have e : ∀ a i : ℕ, 128 * k + a = 32 * i → beNat (fun j => digestBit u (128 * k + (a + j))) 32 = (u.get i).toNat := fun a i h => by
    rw [← digest_word]; refine beNat_congr fun j _ => ?_; congr 1; omega
  rw [show 128 = 32 + 32 + 32 + 32 from rfl, beNat_add, beNat_add, beNat_add, ← e 96 (4 * k + 3) (by omega), ← e 64 (4 * k + 2) (by omega),
    ← e 32 (4 * k + 1) (by omega), ← e 0 (4 * k) (by omega)]
  simp only [zero_add, show 32 + 32 = 64 from rfl, show 64 + 32 = 96 from rfl, show 96 + 32 = 128 from rfl]
  ring

theorem message_length (x : ℕ → ℕ) : (message x).length = 512 := by simp [message]

/-- The second block of the padded message. -/
def padBit (q : ℕ) : Bool := if q = 0 then true else if q < 448 then false else (512 : ℕ).testBit (63 - (q - 448))

theorem pad_message (x : ℕ → ℕ) : pad (message x) = message x ++ ([true] ++ (List.replicate 447 false ++ (List.range 64).map fun i => (512 : ℕ).testBit (63 - i))) := by
  unfold pad
  rw [message_length, show zeros 512 = 447 from rfl, List.append_assoc, List.append_assoc]

theorem pad_len (x : ℕ → ℕ) : (pad (message x)).length = 1024 := by
  rw [pad_message]; simp only [List.length_append, message_length, List.length_singleton, List.length_replicate, List.length_map, List.length_range]

theorem pad_low (x : ℕ → ℕ) (q : ℕ) (hq : q < 512) : (pad (message x)).getD q false = (x (q / 128)).testBit (127 - q % 128) := by
  rw [pad_message, List.getD_append _ _ _ _ (by rw [message_length]; exact hq)]
  unfold message
  rw [List.getD_eq_getElem _ _ (by rw [List.length_map, List.length_range]; exact hq), List.getElem_map, List.getElem_range]

theorem pad_high (x : ℕ → ℕ) (q : ℕ) (hq : q < 512) : (pad (message x)).getD (512 * 1 + q) false = padBit q := by
  rw [pad_message, List.getD_append_right _ _ _ _ (by rw [message_length]; omega), message_length, show 512 * 1 + q - 512 = q by omega]
  have hl : (List.replicate 447 false).length = 447 := List.length_replicate
  have hg : ∀ j < 447, (List.replicate 447 false).getD j false = false := fun j hj => by
    rw [List.getD_eq_getElem _ _ (by rw [hl]; exact hj), List.getElem_replicate]
  generalize List.replicate 447 false = L at hl hg
  unfold padBit
  by_cases h0 : q = 0
  · subst h0; rfl
  · rw [if_neg h0, List.getD_append_right _ _ _ _ (by rw [List.length_singleton]; omega), List.length_singleton]
    by_cases h1 : q < 448
    · rw [if_pos h1, List.getD_append _ _ _ _ (by omega), hg _ (by omega)]
    · rw [if_neg h1, List.getD_append_right _ _ _ _ (by omega), hl,
        List.getD_eq_getElem _ _ (by rw [List.length_map, List.length_range]; omega), List.getElem_map, List.getElem_range,
        show q - 1 - 447 = q - 448 by omega]

theorem wordAt_congr {b b' : ℕ → Bool} (i : ℕ) (h : ∀ j < 32, b (32 * i + j) = b' (32 * i + j)) : wordAt b i = wordAt b' i := by
  unfold wordAt; rw [beNat_congr h]

/-- The words of the first block. -/
theorem block_one (x : ℕ → ℕ) (i : ℕ) (hi : i < 16) :
    wordAt (fun q => (pad (message x)).getD (512 * 0 + q) false) i = BitVec.ofNat 32 (x (i / 4) / 2 ^ (32 * (3 - i % 4))) := by
  apply BitVec.eq_of_getLsbD_eq
  intro j hj
  rw [wordAt_bit _ _ _ hj, BitVec.getLsbD_ofNat, decide_eq_true hj, Bool.true_and, Nat.testBit_div_two_pow]
  have := pad_low x (32 * i + 31 - j) (by omega)
  rw [show (32 * i + 31 - j) / 128 = i / 4 by omega, show 127 - (32 * i + 31 - j) % 128 = j + 32 * (3 - i % 4) by omega] at this
  rw [← this, Nat.mul_zero, Nat.zero_add]

/-- The words of the second block. -/
def padWord (i : ℕ) : Word := if i = 0 then 0x80000000 else if i = 15 then 512 else 0

theorem block_two (x : ℕ → ℕ) (i : ℕ) (hi : i < 16) :
    wordAt (fun q => (pad (message x)).getD (512 * 1 + q) false) i = padWord i := by
  rw [wordAt_congr (b := fun q => (pad (message x)).getD (512 * 1 + q) false) (b' := padBit) i fun j hj => pad_high x (32 * i + j) (by omega)]
  interval_cases i <;> decide +kernel

/-- SHA-256 of the message. -/
theorem sha256_message (x : ℕ → ℕ) :
    sha256 (message x) = compress (compress iv fun i => BitVec.ofNat 32 (x (i / 4) / 2 ^ (32 * (3 - i % 4)))) padWord := by
  unfold sha256
  rw [pad_len, show 1024 / 512 = 0 + 1 + 1 from rfl, hashBlocks, hashBlocks, hashBlocks, compress_congr _ (block_two x), compress_congr _ (block_one x)]

end Sha256Spec

/-! ## Obligations concern the rows of the component -/

namespace Sha256

variable {p : ℕ} [Fact p.Prime] {c : Cols} {inp : In} {srow : ℤ} {t t' : Table (ZMod p)}

theorem SchedBlock.congr {x y : ℤ → ℤ → ZMod p} (h : ∀ r j, 0 ≤ r → r < 5 → y r j = x r j) (hx : SchedBlock x) : SchedBlock y := by
  unfold SchedBlock Sigma0OK SchedOK Sigma1OK at hx ⊢
  simp only [Int.reduceAdd, Int.reduceNeg] at hx ⊢
  simp only [h 0 _ (by norm_num) (by norm_num), h 1 _ (by norm_num) (by norm_num), h 2 _ (by norm_num) (by norm_num), h 3 _ (by norm_num) (by norm_num),
    h 4 _ (by norm_num) (by norm_num)]
  exact hx

theorem RoundBlock.congr {x y : ℤ → ℤ → ZMod p} {κ : ZMod p} (h : ∀ r j, 0 ≤ r → r < 8 → y r j = x r j) (hx : RoundBlock x κ) : RoundBlock y κ := by
  unfold RoundBlock BigSigma0OK BigSigma1OK EOK AOK MajOK ChOK at hx ⊢
  simp only [Int.reduceAdd, Int.reduceNeg] at hx ⊢
  simp only [h 0 _ (by norm_num) (by norm_num), h 1 _ (by norm_num) (by norm_num), h 2 _ (by norm_num) (by norm_num), h 3 _ (by norm_num) (by norm_num),
    h 4 _ (by norm_num) (by norm_num), h 5 _ (by norm_num) (by norm_num), h 6 _ (by norm_num) (by norm_num), h 7 _ (by norm_num) (by norm_num)]
  exact hx

theorem OutBlock.congr {x y : ℤ → ℤ → ZMod p} (h : ∀ r j, 0 ≤ r → r < 8 → y r j = x r j) (hx : OutBlock x) : OutBlock y := by
  unfold OutBlock OutOK at hx ⊢
  simp only [Int.reduceAdd, Int.reduceNeg] at hx ⊢
  simp only [h 0 _ (by norm_num) (by norm_num), h 1 _ (by norm_num) (by norm_num), h 2 _ (by norm_num) (by norm_num), h 3 _ (by norm_num) (by norm_num)]
  refine ⟨hx.1, hx.2.1, fun i hi => ?_⟩
  have := hx.2.2 i hi
  unfold LimbOK at this ⊢
  simp only [add_zero] at this ⊢
  simp only [h (4 + (i : ℤ)) _ (by omega) (by omega)]
  exact this

/-- What a table must share with an accepted one to be accepted. -/
structure Same (inp : In) (srow : ℤ) (t t' : Table (ZMod p)) : Prop where
  const : ∀ i r, t' .constant i r = t .constant i r
  own : ∀ i r, srow ≤ r → r < srow + 762 → t' .witness i r = t .witness i r
  state : ∀ i < 8, (inp.state i).value t' = (inp.state i).value t
  words : ∀ i < 16, (inp.words i).value t' = (inp.words i).value t

theorem sat_stable (h : Same inp srow t t') (hs : Sat t (circuit p c inp srow)) : Sat t' (circuit p c inp srow) := by
  rw [sat_iff, sat_schedCopies, sat_roundCopies, sat_outCopies] at hs ⊢
  obtain ⟨h1, h2, h3, ⟨k1, k2, k3, k4, k5⟩, h5, ⟨o1, o2, o3⟩⟩ := hs
  have g : ∀ (j : ℤ) (r : ℤ), srow ≤ r → r < srow + 762 → t' .witness (c.w j) r = t .witness (c.w j) r := fun j r a b => h.own _ r a b
  refine ⟨fun n hn => ?_, fun n hn => ⟨?_, ?_⟩, ?_, ⟨fun i hi => ?_, fun i hi => ?_, fun i hi => ?_, fun i hi => ?_, fun r hr => ?_⟩, fun r hr => ?_, ?_, fun i hi => ?_, ?_⟩
  · exact (h1 n hn).congr fun r j a b => g j _ (by omega) (by omega)
  · rw [h.const]; exact (h2 n hn).1
  · exact (h2 n hn).2.congr fun r j a b => g j _ (by omega) (by omega)
  · exact h3.congr fun r j a b => g j _ (by omega) (by omega)
  · rw [g 0 _ (by omega) (by omega), h.words _ (by omega)]; exact k1 i hi
  · rw [g 0 _ (by omega) (by omega), h.words _ (by omega)]; exact k2 i hi
  · rw [g 1 _ (by omega) (by omega), h.words _ (by omega)]; exact k3 i hi
  · rw [g 0 _ (by omega) (by omega), h.words _ (by omega)]; exact k4 i hi
  · obtain ⟨a1, a2, a3, a4, a5⟩ := k5 r hr
    refine ⟨fun hh => ?_, fun hh => ?_, fun hh => ?_, fun hh => ?_, ?_⟩
    · rw [g 0 _ (by omega) (by omega), g 0 _ (by omega) (by omega)]; exact a1 hh
    · rw [g 0 _ (by omega) (by omega), g 0 _ (by omega) (by omega)]; exact a2 hh
    · rw [g 0 _ (by omega) (by omega), g 0 _ (by omega) (by omega)]; exact a3 hh
    · rw [g 1 _ (by omega) (by omega), g 0 _ (by omega) (by omega)]; exact a4 hh
    · rw [g 0 _ (by omega) (by omega), g 8 _ (by omega) (by omega)]; exact a5
  · obtain ⟨a1, a2, a3, a4, a5, a6⟩ := h5 r hr
    refine ⟨?_, ?_, ?_, ?_, ?_, ?_⟩
    all_goals rw [g _ _ (by omega) (by omega), g _ _ (by omega) (by omega)]
    all_goals assumption
  · obtain ⟨a1, a2, a3, a4, a5, a6⟩ := o1
    refine ⟨?_, ?_, ?_, ?_, ?_, ?_⟩
    all_goals rw [g _ _ (by omega) (by omega), g _ _ (by omega) (by omega)]
    all_goals assumption
  · obtain ⟨a1, a2⟩ := o2 i hi
    rw [g _ _ (by omega) (by omega), g _ _ (by omega) (by omega), h.state _ (by omega), h.state _ (by omega)]
    exact ⟨a1, a2⟩
  · obtain ⟨a1, a2, a3, a4, a5, a6, a7, a8⟩ := o3
    refine ⟨?_, ?_, ?_, ?_, ?_, ?_, ?_, ?_⟩
    all_goals rw [g _ _ (by omega) (by omega), g _ _ (by omega) (by omega)]
    all_goals assumption

theorem result_stable (h : Same inp srow t t') (i : ℕ) (hi : i < 8) : (result c srow i).value t' = (result c srow i).value t := by
  unfold result
  split_ifs <;> (simp only [Cols.value_wa]; exact h.own _ _ (by omega) (by omega))

theorem Missing.stable {s : Sha256Spec.State} (h : Same inp srow t t') (hm : Missing c inp srow t s) : Missing c inp srow t' s := by
  have g : ∀ (b m j : ℤ), srow ≤ b + m → b + m < srow + 762 → cells t' c b m j = cells t c b m j := fun b m j h1 h2 => h.own _ _ h1 h2
  refine ⟨?_, ?_, ?_, ?_, ?_, ?_, fun n hn => ?_, fun n hn => ?_, fun n hn => ?_, fun n hn => ?_, fun n hn => ?_, ?_, ?_, fun i hi => ?_⟩
  · rw [g _ _ _ (by omega) (by omega), h.state _ (by omega)]; exact hm.a0
  · rw [g _ _ _ (by omega) (by omega), h.state _ (by omega)]; exact hm.e0
  · rw [g _ _ _ (by omega) (by omega)]; exact hm.b0
  · rw [g _ _ _ (by omega) (by omega)]; exact hm.c0
  · rw [g _ _ _ (by omega) (by omega)]; exact hm.f0
  · rw [g _ _ _ (by omega) (by omega)]; exact hm.g0
  · rw [g _ _ _ (by omega) (by omega), hm.d n hn]
    split_ifs
    · rw [h.state _ (by omega)]
    · rw [g _ _ _ (by omega) (by omega)]
  · rw [g _ _ _ (by omega) (by omega), hm.h n hn]
    split_ifs
    · rw [h.state _ (by omega)]
    · rw [g _ _ _ (by omega) (by omega)]
  · rw [g _ _ _ (by omega) (by omega), hm.w n hn]
    split_ifs
    · rw [h.words _ (by omega)]
    · exact (h.own _ _ (by omega) (by omega)).symm
  · rw [g _ _ _ (by omega) (by omega)]; exact hm.chunk n hn
  · rw [g _ _ _ (by omega) (by omega)]; exact hm.limb n hn
  · rw [g _ _ _ (by omega) (by omega), g _ _ _ (by omega) (by omega)]; exact hm.aOut
  · rw [g _ _ _ (by omega) (by omega), g _ _ _ (by omega) (by omega)]; exact hm.eOut
  · rw [result_stable (inp := inp) h i hi]; exact hm.range i hi

theorem calculate_congr {st st' ws ws' : ℕ → ZMod p} (h1 : ∀ i < 8, st i = st' i) (h2 : ∀ i < 16, ws i = ws' i) {out : ℕ → ZMod p}
    (h : calculate st ws = some out) : ∃ out', calculate st' ws' = some out' ∧ ∀ i < 8, out' i = out i := by
  have hs : sched ws = sched ws' := funext fun n => by
    induction n using Nat.strong_induction_on with
    | _ n ih =>
      rw [sched, sched.eq_1 ws']
      by_cases hn : n < 16
      · rw [if_pos hn, if_pos hn, h2 n hn]
      · rw [if_neg hn, if_neg hn, ih (n - 15) (by omega), ih (n - 2) (by omega), ih (n - 7) (by omega), ih (n - 16) (by omega)]
  have hi : Work.init st = Work.init st' := by
    unfold Work.init
    simp only [h1 0 (by norm_num), h1 1 (by norm_num), h1 2 (by norm_num), h1 3 (by norm_num), h1 4 (by norm_num), h1 5 (by norm_num), h1 6 (by norm_num),
      h1 7 (by norm_num)]
  unfold calculate at h ⊢
  simp only [hs, hi] at h ⊢
  split_ifs at h ⊢ with hh
  refine ⟨_, rfl, fun i hi' => ?_⟩
  have := congrFun (Option.some.inj h) i
  simp only [h1 i hi'] at this
  exact this

end Sha256

namespace Decomposition

theorem sat_stable {p : ℕ} [Fact p.Prime] {c : Cols} {inp : In} {srow : ℤ} {t t' : Table (ZMod p)}
    (h0 : ∀ i r, srow ≤ r → r < srow + 3 → t' .witness i r = t .witness i r) (h1 : inp.d0.value t' = inp.d0.value t) (h2 : inp.d1.value t' = inp.d1.value t)
    (hs : Sat t (circuit c inp srow)) : Sat t' (circuit c inp srow) := by
  rw [sat_iff] at hs ⊢
  have a : ∀ j, t' .witness (c.w j) (srow + 0) = t .witness (c.w j) (srow + 0) := fun j => h0 _ _ (by omega) (by omega)
  have b : ∀ j, t' .witness (c.w j) (srow + 1) = t .witness (c.w j) (srow + 1) := fun j => h0 _ _ (by omega) (by omega)
  have d : ∀ j, t' .witness (c.w j) (srow + 2) = t .witness (c.w j) (srow + 2) := fun j => h0 _ _ (by omega) (by omega)
  simp only [a, b, d, h1, h2]
  exact hs

end Decomposition

namespace Sha256Full

open Sha256Spec (Word)
open Sha256 (W large Large kc)

variable {p : ℕ} [Fact p.Prime] {c : Cols} {inp : In} {srow : ℤ} {t : Table (ZMod p)}

/-- Word `i` of the message given by four numbers. -/
def msgWord (x : ℕ → ℕ) (i : ℕ) : Word := BitVec.ofNat 32 (x (i / 4) / 2 ^ (32 * (3 - i % 4)))

theorem words_msg (x : ℕ → ℕ) (i : ℕ) (hi : i < 8) (k : ℕ) :
    ((Decomposition.words (x (2 * k)) (x (2 * k + 1)) i : ℕ) : ZMod p) = W p (msgWord x (8 * k + i)) := by
  unfold W msgWord Decomposition.words Decomposition.word
  rw [BitVec.toNat_ofNat]
  split_ifs with h
  · rw [show (8 * k + i) / 4 = 2 * k by omega, show (8 * k + i) % 4 = i by omega]
  · rw [show (8 * k + i) / 4 = 2 * k + 1 by omega, show (8 * k + i) % 4 = i - 4 by omega]

theorem iv_W (i : ℕ) (hi : i < 8) : ((ivList.getD i 0 : ℕ) : ZMod p) = W p (Sha256Spec.iv.get i) := by
  interval_cases i <;> rfl

theorem pad_W (i : ℕ) (hi : i < 16) : ((padList.getD i 0 : ℕ) : ZMod p) = W p (Sha256Spec.padWord i) := by
  interval_cases i <;> rfl

theorem pack_half (u : Sha256Spec.State) (k : ℕ) :
    W p (u.get (4 * k + 3)) + W p (u.get (4 * k + 2)) * ((2 ^ 32 : ℕ) : ZMod p) + W p (u.get (4 * k + 1)) * ((2 ^ 64 : ℕ) : ZMod p) +
      W p (u.get (4 * k)) * ((2 ^ 96 : ℕ) : ZMod p) = ((Sha256Spec.half u k : ℕ) : ZMod p) := by
  rw [Sha256Spec.half_eq]
  unfold W
  push_cast
  ring

/-- **C110.** `calculate` is SHA-256 of the 512-bit message, if the four inputs are below `2^128`; it never reads out of bounds. Without the bound
it is SHA-256 of the low 128 bits of each input: the other bits are dropped silently. -/
theorem calculate_eq (hp : 7 ^ 32 ≤ p) (b : ℕ → ZMod p) :
    ∃ out, calculate b = some out ∧
      ∀ k < 2, out k = ((Sha256Spec.half (Sha256Spec.sha256 (Sha256Spec.message fun i => (b i).val % 2 ^ 128)) k : ℕ) : ZMod p) := by
  have hmod : ∀ i < 16, msgWord (fun i => (b i).val % 2 ^ 128) i = msgWord (fun i => (b i).val) i := fun i hi => by
    unfold msgWord
    apply BitVec.eq_of_toNat_eq
    rw [BitVec.toNat_ofNat, BitVec.toNat_ofNat]
    generalize (b (i / 4)).val = v
    have : i % 4 < 4 := Nat.mod_lt _ (by norm_num)
    generalize i % 4 = j at this
    interval_cases j <;> norm_num <;> omega
  rw [Sha256Spec.sha256_message]
  change ∃ out : ℕ → ZMod p, _ ∧ ∀ k < 2, out k = ((Sha256Spec.half (Sha256Spec.compress (Sha256Spec.compress _ (msgWord fun i => (b i).val % 2 ^ 128)) _) k : ℕ) : ZMod p)
  rw [Sha256Spec.compress_congr _ hmod]
  obtain ⟨o1, h1, e1⟩ := Sha256.calculate_eq hp Sha256Spec.iv (msgWord fun i => (b i).val)
  have hw : ∀ i < 16, W p (msgWord (fun i => (b i).val) i) =
      if i < 8 then (Decomposition.calculate (b 0) (b 1)).getD i 0 else (Decomposition.calculate (b 2) (b 3)).getD (i - 8) 0 := fun i hi => by
    rw [Decomposition.calculate_words, Decomposition.calculate_words]
    split_ifs with h
    · have := words_msg (p := p) (fun i => (b i).val) i h 0
      rw [show 8 * 0 + i = i by omega] at this
      rw [← this, List.getD_eq_getElem _ _ (by simpa using h)]; simp
    · have := words_msg (p := p) (fun i => (b i).val) (i - 8) (by omega) 1
      rw [show 8 * 1 + (i - 8) = i by omega] at this
      rw [← this, List.getD_eq_getElem _ _ (by simp; omega)]; simp
  obtain ⟨o1', h1', e1'⟩ := Sha256.calculate_congr (fun i hi => (iv_W i hi).symm) hw h1
  obtain ⟨o2, h2, e2⟩ := Sha256.calculate_eq hp (Sha256Spec.compress Sha256Spec.iv (msgWord fun i => (b i).val)) Sha256Spec.padWord
  obtain ⟨o2', h2', e2'⟩ := Sha256.calculate_congr (st' := o1') (fun i hi => ((e1' i hi).trans (e1 i hi)).symm) (fun i hi => (pad_W i hi).symm) h2
  refine ⟨_, by unfold calculate; simp only [h1', h2', Option.bind_some, Option.map_some]; rfl, fun k hk => ?_⟩
  have e : ∀ i < 8, o2' i = W p ((Sha256Spec.compress (Sha256Spec.compress Sha256Spec.iv (msgWord fun i => (b i).val)) Sha256Spec.padWord).get i) :=
    fun i hi => (e2' i hi).trans (e2 i hi)
  interval_cases k
  · rw [if_pos rfl, ← pack_half, e 0 (by norm_num), e 1 (by norm_num), e 2 (by norm_num), e 3 (by norm_num)]
  · rw [if_neg (by norm_num), ← pack_half, e 4 (by norm_num), e 5 (by norm_num), e 6 (by norm_num), e 7 (by norm_num)]

/-! ## The circuit -/

/-- The constants that the circuit needs. -/
structure Consts (c : Cols) (srow : ℤ) (t : Table (ZMod p)) : Prop where
  iv : ∀ i : ℕ, i < 8 → t .constant (c.k 0) (srow + (i : ℤ)) = W p (Sha256Spec.iv.get i)
  pad : ∀ i : ℕ, i < 16 → t .constant (c.k 0) (srow + 8 + (i : ℤ)) = W p (Sha256Spec.padWord i)
  k1 : ∀ n : ℕ, n < 64 → t .constant (c.k 0) (srow + 6 + 245 + 8 * (n : ℤ)) = kc p n
  k2 : ∀ n : ℕ, n < 64 → t .constant (c.k 0) (srow + 768 + 245 + 8 * (n : ℤ)) = kc p n

theorem mem_const {row : ℤ} {v : ZMod p} (h : Op.constant (c.k 0) row v ∈ circuit p c inp srow) :
    (∃ i : ℕ, i < 8 ∧ row = srow + (i : ℤ) ∧ v = W p (Sha256Spec.iv.get i)) ∨ (∃ i : ℕ, i < 16 ∧ row = srow + 8 + (i : ℤ) ∧ v = W p (Sha256Spec.padWord i)) ∨
    (∃ i : ℕ, i < 64 ∧ row = srow + 6 + 242 + 3 + 8 * (i : ℤ) ∧ v = kc p i) ∨ ∃ i : ℕ, i < 64 ∧ row = srow + 768 + 242 + 3 + 8 * (i : ℤ) ∧ v = kc p i := by
  unfold circuit at h
  simp only [List.mem_append] at h
  rcases h with ((((h | h) | h) | h) | h) | h
  · unfold constants at h
    rcases List.mem_append.1 h with h | h
    · obtain ⟨i, hi, he⟩ := List.mem_map.1 h
      have := Op.constant.inj he
      exact Or.inl ⟨i, List.mem_range.1 hi, this.2.1.symm, by rw [← this.2.2, iv_W i (List.mem_range.1 hi)]⟩
    · obtain ⟨i, hi, he⟩ := List.mem_map.1 h
      have := Op.constant.inj he
      exact Or.inr (Or.inl ⟨i, List.mem_range.1 hi, this.2.1.symm, by rw [← this.2.2, pad_W i (List.mem_range.1 hi)]⟩)
  · simp [Decomposition.circuit] at h
  · simp [Decomposition.circuit] at h
  · exact Or.inr (Or.inr (Or.inl ((Sha256.mem_circuit_const _ _).1 h)))
  · exact Or.inr (Or.inr (Or.inr ((Sha256.mem_circuit_const _ _).1 h)))
  · simp at h

/-- Generating the circuit writes them: the constants of the four parts do not overlap. -/
theorem consts_written (t₀ : Table (ZMod p)) : Consts c srow (writeConsts (circuit p c inp srow) t₀) := by
  have key : ∀ (row : ℤ) (v : ZMod p), Op.constant (c.k 0) row v ∈ circuit p c inp srow →
      writeConsts (circuit p c inp srow) t₀ .constant (c.k 0) row = v := by
    intro row v hv
    refine Sha256.writeConsts_read _ _ _ _ _ (fun v' hv' => ?_) (Or.inr hv)
    rcases mem_const hv with ⟨i, hi, e, rfl⟩ | ⟨i, hi, e, rfl⟩ | ⟨i, hi, e, rfl⟩ | ⟨i, hi, e, rfl⟩ <;>
    rcases mem_const hv' with ⟨j, hj, e', rfl⟩ | ⟨j, hj, e', rfl⟩ | ⟨j, hj, e', rfl⟩ | ⟨j, hj, e', rfl⟩ <;>
    first
    | (exfalso; omega)
    | (obtain rfl : i = j := by omega
       rfl)
  have inC : ∀ o, o ∈ constants (F := ZMod p) c srow → o ∈ circuit p c inp srow := fun o ho => by
    unfold circuit; simp only [List.mem_append]; exact Or.inl (Or.inl (Or.inl (Or.inl (Or.inl ho))))
  refine ⟨fun i hi => key _ _ (inC _ ?_), fun i hi => key _ _ (inC _ ?_), fun n hn => key _ _ ?_, fun n hn => key _ _ ?_⟩
  · rw [← iv_W i hi]; exact List.mem_append_left _ (List.mem_map.2 ⟨i, List.mem_range.2 hi, rfl⟩)
  · rw [← pad_W i hi]; exact List.mem_append_right _ (List.mem_map.2 ⟨i, List.mem_range.2 hi, rfl⟩)
  · unfold circuit; simp only [List.mem_append]
    exact Or.inl (Or.inl (Or.inr ((Sha256.mem_circuit_const _ _).2 ⟨n, hn, by ring, rfl⟩)))
  · unfold circuit; simp only [List.mem_append]
    exact Or.inl (Or.inr ((Sha256.mem_circuit_const _ _).2 ⟨n, hn, by ring, rfl⟩))

theorem sat_constants : Sat t (constants c srow) ↔
    (∀ i : ℕ, i < 8 → t .constant (c.k 0) (srow + (i : ℤ)) = W p (Sha256Spec.iv.get i)) ∧
      ∀ i : ℕ, i < 16 → t .constant (c.k 0) (srow + 8 + (i : ℤ)) = W p (Sha256Spec.padWord i) := by
  unfold constants
  rw [sat_append]
  simp only [Sat, List.mem_map, List.mem_range, forall_exists_index, and_imp, forall_apply_eq_imp_iff₂, holds_constant]
  refine and_congr (forall₂_congr fun i hi => by rw [iv_W i hi]) (forall₂_congr fun i hi => by rw [pad_W i hi])

/-- The gate of the last two rows. -/
theorem sat_gate : Sat t [.gate (gate c) [srow + 1530]] ↔
    (let w := fun (i : ℤ) => t .witness (c.w i) (srow + 1530)
    t .witness (c.w 1) (srow + 1531) = w 7 + w 6 * ((2 ^ 32 : ℕ) : ZMod p) + w 5 * ((2 ^ 64 : ℕ) : ZMod p) + w 4 * ((2 ^ 96 : ℕ) : ZMod p) ∧
    t .witness (c.w 0) (srow + 1531) = w 3 + w 2 * ((2 ^ 32 : ℕ) : ZMod p) + w 1 * ((2 ^ 64 : ℕ) : ZMod p) + w 0 * ((2 ^ 96 : ℕ) : ZMod p)) := by
  simp only [gate, sat_cons, sat_nil, holds_gate, and_true, List.mem_singleton, forall_eq, List.mem_cons, List.not_mem_nil, or_false, forall_eq_or_imp,
    Expr.eval_sub, Expr.eval_add, Expr.eval_mul, Expr.eval_const, Cols.eval_wv, add_zero, sub_eq_zero, show srow + 1530 + 1 = srow + 1531 by ring]

/-- The table after the calls of the four sub-components. -/
def parts (c : Cols) (inp : In) (srow : ℤ) (t : Table (ZMod p)) : Table (ZMod p) :=
  Sha256.assign c (proc2 c srow) (srow + 768) (Sha256.assign c (proc1 c srow) (srow + 6)
    (Decomposition.assign c (dec2 inp) (srow + 3) (Decomposition.assign c (dec1 inp) srow t)))

/-- The values of the inputs. -/
def vals (inp : In) (t : Table (ZMod p)) (i : ℕ) : ℕ := ((inp.data i).value t).val

/-- The hash value of the first block. -/
def mid (x : ℕ → ℕ) : Sha256Spec.State := Sha256Spec.compress Sha256Spec.iv (msgWord x)

theorem sha256_eq (x : ℕ → ℕ) : Sha256Spec.sha256 (Sha256Spec.message x) = Sha256Spec.compress (mid x) Sha256Spec.padWord :=
  Sha256Spec.sha256_message x

theorem out_result {s : ℤ} {n : ℕ} {s' : ℤ} (i : ℕ) (h : s' + 762 ≤ s ∨ s + n ≤ s' + 755) : (Sha256.result c s' i).Outside s n := by
  intro _
  unfold Sha256.result
  split_ifs <;> (simp only [Cols.wa]; omega)

theorem proc2_words {tc : Table (ZMod p)} (cc : ∀ i r, tc .constant i r = t .constant i r) (hk : Consts c srow t) (i : ℕ) (hi : i < 16) :
    ((proc2 c srow).words i).Outside (srow + 768) 762 ∧ ((proc2 c srow).words i).value tc = W p (Sha256Spec.padWord i) :=
  ⟨fun h => (by cases h), (cc _ _).trans (hk.pad i hi)⟩

theorem words2_const {t t' : Table (ZMod p)} (h : ∀ i r, t' .constant i r = t .constant i r) (i : ℕ) :
    ((proc2 c srow).words i).value t' = ((proc2 c srow).words i).value t := h _ _

theorem state1_const {t t' : Table (ZMod p)} (h : ∀ i r, t' .constant i r = t .constant i r) (i : ℕ) :
    ((proc1 c srow).state i).value t' = ((proc1 c srow).state i).value t := h _ _

/-- The four parts are accepted, and stay accepted when the last two rows are filled in. -/
theorem chain (H : Large p) (hp : 2 ^ 128 < p) (hc : c.OK 9) (hin : ∀ k < 4, (inp.data k).Outside srow 1532) (hx : ∀ k < 4, vals inp t k < 2 ^ 128)
    (hk : Consts c srow t) :
    Frame c srow 1530 t (parts c inp srow t) ∧
    (∀ i < 8, (Sha256.result c (srow + 768) i).value (parts c inp srow t) = W p ((Sha256Spec.compress (mid (vals inp t)) Sha256Spec.padWord).get i)) ∧
    ∀ te, Frame c (srow + 1530) 2 (parts c inp srow t) te → Sat te [.gate (gate c) [srow + 1530]] →
      Sat te (circuit p c inp srow) ∧ Sha256.Missing c (proc1 c srow) (srow + 6) te Sha256Spec.iv ∧
        Sha256.Missing c (proc2 c srow) (srow + 768) te (mid (vals inp t)) ∧ ∃ x, (Decomposition.result c srow 0).value te = W p x := by
  have h7 : 7 ^ 32 ≤ p := H.h7
  -- the decompositions
  have hfa := Decomposition.assign_frame (inp := dec1 inp) (srow := srow) hc t
  have hra := Decomposition.assign_result (inp := dec1 inp) (srow := srow) hc t
  have hsa := (Decomposition.decomposition_complete (inp := dec1 inp) (srow := srow) hp hc ((hin 0 (by norm_num)).mono (by omega) (by omega))
    ((hin 1 (by norm_num)).mono (by omega) (by omega)) t).2 ⟨hx 0 (by norm_num), hx 1 (by norm_num)⟩
  unfold parts
  generalize hta : Decomposition.assign c (dec1 inp) srow t = ta at hfa hra hsa
  have va : ∀ k < 4, (inp.data k).value ta = (inp.data k).value t := fun k hk' => hfa.outside ((hin k hk').mono (by omega) (by omega))
  have hfb := Decomposition.assign_frame (inp := dec2 inp) (srow := srow + 3) hc ta
  have hrb := Decomposition.assign_result (inp := dec2 inp) (srow := srow + 3) hc ta
  have hsb := (Decomposition.decomposition_complete (inp := dec2 inp) (srow := srow + 3) hp hc ((hin 2 (by norm_num)).mono (by omega) (by omega))
    ((hin 3 (by norm_num)).mono (by omega) (by omega)) ta).2
    ⟨by rw [show (dec2 inp).d0 = inp.data 2 from rfl, va 2 (by norm_num)]; exact hx 2 (by norm_num),
     by rw [show (dec2 inp).d1 = inp.data 3 from rfl, va 3 (by norm_num)]; exact hx 3 (by norm_num)⟩
  generalize htb : Decomposition.assign c (dec2 inp) (srow + 3) ta = tb at hfb hrb hsb
  -- the first block
  have cb : ∀ i r, tb .constant i r = t .constant i r := fun i r => (hfb.const i r).trans (hfa.const i r)
  have hst1 : ∀ i < 8, ((proc1 c srow).state i).Outside (srow + 6) 762 ∧ ((proc1 c srow).state i).value tb = W p (Sha256Spec.iv.get i) := fun i hi =>
    ⟨fun h => by simp [proc1, cv] at h, (cb _ _).trans (hk.iv i hi)⟩
  have hws1 : ∀ i < 16, ((proc1 c srow).words i).Outside (srow + 6) 762 ∧ ((proc1 c srow).words i).value tb = W p (msgWord (vals inp t) i) := fun i hi => by
    unfold proc1
    by_cases h : i < 8
    · simp only [h, if_true]
      refine ⟨fun _ => Or.inl (by simp [Decomposition.result, Cols.wa]), ?_⟩
      rw [hfb.outside (fun _ => Or.inl (by simp [Decomposition.result, Cols.wa])), hra i h]
      have := words_msg (p := p) (vals inp t) i h 0
      rw [show 8 * 0 + i = i by omega] at this
      exact this
    · simp only [h, if_false]
      refine ⟨fun _ => Or.inl (by simp [Decomposition.result, Cols.wa]; omega), ?_⟩
      rw [hrb (i - 8) (by omega)]
      have := words_msg (p := p) (vals inp t) (i - 8) (by omega) 1
      rw [show 8 * 1 + (i - 8) = i by omega] at this
      rw [← this, show (dec2 inp).d0 = inp.data 2 from rfl, va 2 (by norm_num), show (dec2 inp).d1 = inp.data 3 from rfl, va 3 (by norm_num)]
      rfl
  have hk1 : ∀ n : ℕ, n < 64 → tb .constant (c.k 0) (srow + 6 + 245 + 8 * (n : ℤ)) = kc p n := fun n hn => (cb _ _).trans (hk.k1 n hn)
  have hm1 := Sha256.missing_honest (inp := proc1 c srow) h7 hc Sha256Spec.iv (msgWord (vals inp t)) hk1 hst1 hws1
  have h1 := Sha256.forged_sat (t := tb) (inp := proc1 c srow) H hc Sha256Spec.iv Sha256Spec.iv (msgWord (vals inp t)) (Sha256Spec.schedule (msgWord (vals inp t)))
    hk1 hst1 hws1
  rw [← Sha256.assign_eq (c := c) H Sha256Spec.iv (msgWord (vals inp t)) hst1 hws1] at h1
  obtain ⟨hsc, hfc, hrc⟩ := h1
  generalize htc : Sha256.assign c (proc1 c srow) (srow + 6) tb = tc at hsc hfc hrc hm1
  -- the second block
  have cc : ∀ i r, tc .constant i r = t .constant i r := fun i r => (hfc.const i r).trans (cb i r)
  have hst2 : ∀ i < 8, ((proc2 c srow).state i).Outside (srow + 768) 762 ∧ ((proc2 c srow).state i).value tc = W p ((mid (vals inp t)).get i) := fun i hi =>
    ⟨out_result i (Or.inl (by omega)), by
      rw [show (proc2 c srow).state i = Sha256.result c (srow + 6) i from rfl, hrc i hi, mid, Sha256Spec.compress, Sha256.addState_get]⟩
  have hws2 := proc2_words (c := c) (srow := srow) cc hk
  have hk2 : ∀ n : ℕ, n < 64 → tc .constant (c.k 0) (srow + 768 + 245 + 8 * (n : ℤ)) = kc p n := fun n hn => (cc _ _).trans (hk.k2 n hn)
  have hm2 := Sha256.missing_honest (inp := proc2 c srow) h7 hc (mid (vals inp t)) Sha256Spec.padWord hk2 hst2 hws2
  have h2 := Sha256.forged_sat (t := tc) (inp := proc2 c srow) H hc (mid (vals inp t)) (mid (vals inp t)) Sha256Spec.padWord (Sha256Spec.schedule Sha256Spec.padWord)
    hk2 hst2 hws2
  rw [← Sha256.assign_eq (c := c) H (mid (vals inp t)) Sha256Spec.padWord hst2 hws2] at h2
  obtain ⟨hsd, hfd, hrd⟩ := h2
  generalize htd : Sha256.assign c (proc2 c srow) (srow + 768) tc = td at hsd hfd hrd hm2
  refine ⟨?_, fun i hi => ?_, fun te hfe hg => ?_⟩
  · exact (((hfa.mono (by omega) (by omega)).trans (hfb.mono (by omega) (by omega))).trans (hfc.mono (by omega) (by omega))).trans (hfd.mono (by omega) (by omega))
  · rw [hrd i hi, Sha256Spec.compress, Sha256.addState_get]
  · -- the tables differ only in later rows
    have s2 : Sha256.Same (proc2 c srow) (srow + 768) td te :=
      ⟨fun i r => hfe.const i r, fun i r a b => hfe.row (Or.inl (by omega)) _ _, fun i hi => hfe.outside (out_result i (Or.inl (by omega))),
        fun i hi => words2_const (fun i r => hfe.const i r) i⟩
    have s1 : Sha256.Same (proc1 c srow) (srow + 6) tc te :=
      ⟨fun i r => (hfe.const i r).trans (hfd.const i r),
        fun i r a b => (hfe.row (Or.inl (by omega)) _ _).trans (hfd.row (Or.inl (by omega)) _ _),
        fun i hi => state1_const (fun i r => (hfe.const i r).trans (hfd.const i r)) i, fun i hi => by
          have o : ∀ s n, srow + 6 ≤ s → ((proc1 c srow).words i).Outside s n := fun s n hs _ => Or.inl (by
            unfold proc1
            dsimp only
            split_ifs <;> (simp only [Decomposition.result, Cols.wa]; omega))
          exact (hfe.outside (o _ _ (by omega))).trans (hfd.outside (o _ _ (by omega)))⟩
    have rows : ∀ (i : ℕ) (r : ℤ), r < srow + 6 → te .witness i r = tb .witness i r := fun i r hr =>
      ((hfe.row (Or.inl (by omega)) _ _).trans (hfd.row (Or.inl (by omega)) _ _)).trans (hfc.row (Or.inl (by omega)) _ _)
    have vin : ∀ k < 4, (inp.data k).value te = (inp.data k).value tb := fun k hk' =>
      ((hfe.outside ((hin k hk').mono (by omega) (by omega))).trans (hfd.outside ((hin k hk').mono (by omega) (by omega)))).trans
        (hfc.outside ((hin k hk').mono (by omega) (by omega)))
    have vb : ∀ k < 4, (inp.data k).value tb = (inp.data k).value ta := fun k hk' => hfb.outside ((hin k hk').mono (by omega) (by omega))
    have ce : ∀ i r, te .constant i r = t .constant i r := fun i r => ((hfe.const i r).trans (hfd.const i r)).trans (cc i r)
    refine ⟨?_, hm1.stable s1, hm2.stable s2, msgWord (vals inp t) 0, ?_⟩
    rotate_left
    · exact ((s1.words 0 (by norm_num)).trans (hfc.outside (hws1 0 (by norm_num)).1)).trans (hws1 0 (by norm_num)).2
    unfold circuit
    simp only [sat_append]
    refine ⟨⟨⟨⟨⟨sat_constants.2 ⟨fun i hi => ?_, fun i hi => ?_⟩, ?_⟩, ?_⟩, Sha256.sat_stable s1 hsc⟩, Sha256.sat_stable s2 hsd⟩, hg⟩
    · rw [ce]; exact hk.iv i hi
    · rw [ce]; exact hk.pad i hi
    · refine Decomposition.sat_stable (fun i r a b => ?_) ?_ ?_ hsa
      · rw [rows i r (by omega), hfb.row (Or.inl (by omega))]
      · exact (vin 0 (by norm_num)).trans (vb 0 (by norm_num))
      · exact (vin 1 (by norm_num)).trans (vb 1 (by norm_num))
    · refine Decomposition.sat_stable (fun i r a b => ?_) ?_ ?_ hsb
      · rw [rows i r (by omega)]
      · exact vin 2 (by norm_num)
      · exact vin 3 (by norm_num)

/-- The cells of the last two rows, for a state `g`. -/
def outCell (g : ℕ → ZMod p) (r j : ℕ) : ZMod p :=
  if r = 0 then g j
  else if j = 0 then g 3 + g 2 * ((2 ^ 32 : ℕ) : ZMod p) + g 1 * ((2 ^ 64 : ℕ) : ZMod p) + g 0 * ((2 ^ 96 : ℕ) : ZMod p)
  else g 7 + g 6 * ((2 ^ 32 : ℕ) : ZMod p) + g 5 * ((2 ^ 64 : ℕ) : ZMod p) + g 4 * ((2 ^ 96 : ℕ) : ZMod p)

/-- The last two rows filled from a state `g`. -/
def lastRows (c : Cols) (srow : ℤ) (g : ℕ → ZMod p) : List (Write (ZMod p)) :=
  ((List.range 8).map fun i : ℕ => ⟨.witness, c.w (i : ℤ), srow + 1530, g i⟩) ++
  [⟨.witness, c.w 1, srow + 1531, outCell g 1 1⟩, ⟨.witness, c.w 0, srow + 1531, outCell g 1 0⟩]

theorem lastRows_grid (g : ℕ → ZMod p) : GridWrites c (srow + 1530) 9 2 (outCell g) (lastRows c srow g) := by
  intro x hx
  rcases List.mem_append.1 hx with hx | hx
  · obtain ⟨i, hi, rfl⟩ := List.mem_map.1 hx
    exact ⟨0, by norm_num, i, by have := List.mem_range.1 hi; omega, by simp [outCell]⟩
  · simp only [List.mem_cons, List.not_mem_nil, or_false] at hx
    rcases hx with rfl | rfl
    · exact ⟨1, by norm_num, 1, by norm_num, by simp; ring⟩
    · exact ⟨1, by norm_num, 0, by norm_num, by simp; ring⟩

theorem lastRows_read (hc : c.OK 9) (g : ℕ → ZMod p) (t : Table (ZMod p)) :
    (∀ i < 8, writeAll (lastRows c srow g) t .witness (c.w ((i : ℕ) : ℤ)) (srow + 1530) = g i) ∧
    writeAll (lastRows c srow g) t .witness (c.w 1) (srow + 1531) = outCell g 1 1 ∧
    writeAll (lastRows c srow g) t .witness (c.w 0) (srow + 1531) = outCell g 1 0 := by
  have G := lastRows_grid (c := c) (srow := srow) g
  refine ⟨fun i hi => ?_, ?_, ?_⟩
  · have := G.read hc t (r := 0) (j := i) (by omega) (List.mem_append_left _ (List.mem_map.2 ⟨i, List.mem_range.2 hi, by simp [outCell]⟩))
    simpa [outCell] using this
  · have := G.read hc t (r := 1) (j := 1) (by norm_num) (List.mem_append_right _ (List.mem_cons.2 (Or.inl (by simp; ring))))
    rw [← this]; congr 1; push_cast; ring
  · have := G.read hc t (r := 1) (j := 0) (by norm_num) (List.mem_append_right _ (List.mem_cons_of_mem _ (List.mem_singleton.2 (by simp; ring))))
    rw [← this]; congr 1; push_cast; ring

theorem lastRows_sat (hc : c.OK 9) (g : ℕ → ZMod p) (t : Table (ZMod p)) : Sat (writeAll (lastRows c srow g) t) [.gate (gate c) [srow + 1530]] := by
  obtain ⟨h1, h2, h3⟩ := lastRows_read (srow := srow) hc g t
  rw [sat_gate]
  have e := fun (i : ℕ) (hi : i < 8) => h1 i hi
  have e0 := e 0 (by norm_num); have e1 := e 1 (by norm_num); have e2 := e 2 (by norm_num); have e3 := e 3 (by norm_num)
  have e4 := e 4 (by norm_num); have e5 := e 5 (by norm_num); have e6 := e 6 (by norm_num); have e7 := e 7 (by norm_num)
  simp only [Nat.cast_zero, Nat.cast_one, Nat.cast_ofNat] at e0 e1 e2 e3 e4 e5 e6 e7
  dsimp only
  rw [h2, h3, e0, e1, e2, e3, e4, e5, e6, e7]
  exact ⟨rfl, rfl⟩

theorem assign_lastRows (t : Table (ZMod p)) : assign c inp srow t =
    writeAll (lastRows c srow fun i => (Sha256.result c (srow + 768) i).value (parts c inp srow t)) (parts c inp srow t) := rfl

/-- **C111, completeness.** For inputs below `2^128` the table filled by `generate_assignments` is accepted, and the two outputs are the halves of
SHA-256 of the 512-bit message. `t` is the table after the constants of the circuit have been written. -/
theorem hash_complete (hp : 2 ^ 128 < p) (hc : c.OK 9) (t₀ : Table (ZMod p)) (hin : ∀ k < 4, (inp.data k).Outside srow 1532)
    (hx : ∀ k < 4, ((inp.data k).value (writeConsts (circuit p c inp srow) t₀)).val < 2 ^ 128) :
    let t := writeConsts (circuit p c inp srow) t₀
    Sat (assign c inp srow t) (circuit p c inp srow) ∧ Frame c srow 1532 t (assign c inp srow t) ∧
      ∀ k < 2, (result c srow k).value (assign c inp srow t) =
        ((Sha256Spec.half (Sha256Spec.sha256 (Sha256Spec.message fun i => ((inp.data i).value t).val)) k : ℕ) : ZMod p) := by
  intro t
  have H := large (p := p) (le_trans (by norm_num) hp.le)
  have hk : Consts c srow t := consts_written t₀
  change ∀ k < 4, vals inp t k < 2 ^ 128 at hx
  clear_value t
  obtain ⟨hf, hr, hs⟩ := chain H hp hc hin hx hk
  rw [assign_lastRows]
  have hF := ((lastRows_grid (c := c) (srow := srow) fun i => (Sha256.result c (srow + 768) i).value (parts c inp srow t)).own hc).frame (parts c inp srow t)
  obtain ⟨h1, h2, h3⟩ := lastRows_read (srow := srow) hc (fun i => (Sha256.result c (srow + 768) i).value (parts c inp srow t)) (parts c inp srow t)
  refine ⟨(hs _ hF (lastRows_sat hc _ _)).1, (hf.mono (by omega) (by omega)).trans (hF.mono (by omega) (by omega)), fun k hk' => ?_⟩
  rw [show (fun i => ((inp.data i).value t).val) = vals inp t from rfl, sha256_eq]
  unfold result
  rw [Cols.value_wa]
  interval_cases k
  · rw [show c.w ((0 : ℕ) : ℤ) = c.w 0 from rfl, h3, ← pack_half]
    unfold outCell
    rw [if_neg (by norm_num), if_pos rfl]
    dsimp only
    rw [hr 0 (by norm_num), hr 1 (by norm_num), hr 2 (by norm_num), hr 3 (by norm_num)]
  · rw [show c.w ((1 : ℕ) : ℤ) = c.w 1 from rfl, h2, ← pack_half]
    unfold outCell
    rw [if_neg (by norm_num), if_neg (by norm_num)]
    dsimp only
    rw [hr 4 (by norm_num), hr 5 (by norm_num), hr 6 (by norm_num), hr 7 (by norm_num)]

/-- **C111, the output is not constrained at all.** For every message and *every* two field elements there is an accepted table with this message
whose outputs are these elements. It differs from the table before only inside the component, and it has the honest contents everywhere but in the
last two rows: no copy constraint connects the row of eight words with the second block. -/
theorem hash_any_output (hp : 2 ^ 128 < p) (hc : c.OK 9) (t₀ : Table (ZMod p)) (hin : ∀ k < 4, (inp.data k).Outside srow 1532)
    (hx : ∀ k < 4, ((inp.data k).value (writeConsts (circuit p c inp srow) t₀)).val < 2 ^ 128) (o : ℕ → ZMod p) :
    let t := writeConsts (circuit p c inp srow) t₀
    ∃ t', Sat t' (circuit p c inp srow) ∧ Frame c srow 1532 t t' ∧ Frame c (srow + 1530) 2 (assign c inp srow t) t' ∧
      (∀ k < 4, (inp.data k).value t' = (inp.data k).value t) ∧ ∀ k < 2, (result c srow k).value t' = o k := by
  intro t
  have H := large (p := p) (le_trans (by norm_num) hp.le)
  have hk : Consts c srow t := consts_written t₀
  change ∀ k < 4, vals inp t k < 2 ^ 128 at hx
  clear_value t
  obtain ⟨hf, -, hs⟩ := chain H hp hc hin hx hk
  let g : ℕ → ZMod p := fun i => if i = 3 then o 0 else if i = 7 then o 1 else 0
  have hF := ((lastRows_grid (c := c) (srow := srow) g).own hc).frame (parts c inp srow t)
  have hA := ((lastRows_grid (c := c) (srow := srow) fun i => (Sha256.result c (srow + 768) i).value (parts c inp srow t)).own hc).frame (parts c inp srow t)
  obtain ⟨h1, h2, h3⟩ := lastRows_read (srow := srow) hc g (parts c inp srow t)
  have hFr : Frame c srow 1532 t (writeAll (lastRows c srow g) (parts c inp srow t)) := (hf.mono (by omega) (by omega)).trans (hF.mono (by omega) (by omega))
  refine ⟨_, (hs _ hF (lastRows_sat hc g _)).1, hFr, fun ty i r hn => ?_, fun k hk' => hFr.outside (hin k hk'), fun k hk' => ?_⟩
  · rw [assign_lastRows, hF ty i r hn, hA ty i r hn]
  · unfold result
    rw [Cols.value_wa]
    interval_cases k
    · rw [show c.w ((0 : ℕ) : ℤ) = c.w 0 from rfl, h3]; simp [outCell, g]
    · rw [show c.w ((1 : ℕ) : ℤ) = c.w 1 from rfl, h2]; simp [outCell, g]

/-- What `generate_circuit` would have to add for the output to be the hash. -/
structure Lacks (c : Cols) (inp : In) (srow : ℤ) (t : Table (ZMod p)) : Prop where
  /-- the constraints missing in the two calls of `sha256_process` -/
  first : Sha256.Missing c (proc1 c srow) (srow + 6) t Sha256Spec.iv
  second : Sha256.Missing c (proc2 c srow) (srow + 768) t (mid (vals inp t))
  /-- word 0 of the message is a word (words 1 to 15 are looked up by `sha256_process`) -/
  word0 : ∃ x, (Decomposition.result c srow 0).value t = W p x
  /-- the copy constraints missing here -/
  copies : ∀ i : ℕ, i < 8 → t .witness (c.w (i : ℤ)) (srow + 1530) = (Sha256.result c (srow + 768) i).value t

theorem words_of_sum {x : ZMod p} (hp : 2 ^ 128 < p) (a b d e : Word)
    (h : x = W p e + W p d * 2 ^ 32 + W p b * 2 ^ 64 + W p a * 2 ^ 96) :
    x.val < 2 ^ 128 ∧ ∀ k < 4, BitVec.ofNat 32 (x.val / 2 ^ (32 * (3 - k))) = [a, b, d, e].getD k 0 := by
  have ha := a.isLt; have hb := b.isLt; have hd := d.isLt; have he := e.isLt
  have hv : x.val = e.toNat + d.toNat * 2 ^ 32 + b.toNat * 2 ^ 64 + a.toNat * 2 ^ 96 := by
    apply Decomposition.val_eq
    · rw [h]; unfold W; push_cast; ring
    · omega
  refine ⟨by omega, fun k hk => ?_⟩
  apply BitVec.eq_of_toNat_eq
  rw [BitVec.toNat_ofNat, hv]
  interval_cases k <;> simp <;> omega

/-- **C111, soundness, partial.** With the missing constraints added the inputs are below `2^128` and the outputs are the halves of SHA-256 of the message. -/
theorem hash_sound_partial (hp : 2 ^ 128 < p) (hs : Sat t (circuit p c inp srow)) (hL : Lacks c inp srow t) :
    (∀ k < 4, ((inp.data k).value t).val < 2 ^ 128) ∧
    ∀ k < 2, (result c srow k).value t =
      ((Sha256Spec.half (Sha256Spec.sha256 (Sha256Spec.message fun i => ((inp.data i).value t).val)) k : ℕ) : ZMod p) := by
  have h7 : 7 ^ 32 ≤ p := le_trans (by norm_num) hp.le
  have H := large h7
  unfold circuit at hs
  simp only [sat_append] at hs
  obtain ⟨⟨⟨⟨⟨hC, hA⟩, hB⟩, hP1⟩, hP2⟩, hG⟩ := hs
  obtain ⟨hiv, hpad⟩ := sat_constants.1 hC
  obtain ⟨m, hm, -⟩ := Sha256.schedule_sound h7 hP1 hL.word0
  have hst1 : ∀ i < 8, ((proc1 c srow).state i).value t = W p (Sha256Spec.iv.get i) := hiv
  have hr1 := Sha256.sha256_sound_partial h7 Sha256Spec.iv m hst1 hm hP1 hL.first
  -- the words are those of the message
  rw [Decomposition.sat_iff] at hA hB
  obtain ⟨a0, a1, a2, a3, -⟩ := hA
  obtain ⟨b0, b1, b2, b3, -⟩ := hB
  have w1 : ∀ i : ℕ, i < 8 → t .witness (c.w (i : ℤ)) (srow + 1) = W p (m i) := fun i hi => by
    have := hm i (by omega); simp only [proc1, if_pos hi] at this; exact this
  have w2 : ∀ i : ℕ, i < 8 → t .witness (c.w (i : ℤ)) (srow + 3 + 1) = W p (m (8 + i)) := fun i hi => by
    have := hm (8 + i) (by omega)
    simp only [proc1, if_neg (show ¬ 8 + i < 8 by omega), show 8 + i - 8 = i by omega] at this; exact this
  have x0 := w1 0 (by norm_num); have x1 := w1 1 (by norm_num); have x2 := w1 2 (by norm_num); have x3 := w1 3 (by norm_num)
  have x4 := w1 4 (by norm_num); have x5 := w1 5 (by norm_num); have x6 := w1 6 (by norm_num); have x7 := w1 7 (by norm_num)
  have y0 := w2 0 (by norm_num); have y1 := w2 1 (by norm_num); have y2 := w2 2 (by norm_num); have y3 := w2 3 (by norm_num)
  have y4 := w2 4 (by norm_num); have y5 := w2 5 (by norm_num); have y6 := w2 6 (by norm_num); have y7 := w2 7 (by norm_num)
  simp only [Nat.cast_zero, Nat.cast_one, Nat.cast_ofNat] at x0 x1 x2 x3 x4 x5 x6 x7 y0 y1 y2 y3 y4 y5 y6 y7
  dsimp only at a2 a3 b2 b3
  rw [x0, x1, x2, x3] at a2
  rw [x4, x5, x6, x7] at a3
  rw [y0, y1, y2, y3] at b2
  rw [y4, y5, y6, y7] at b3
  have q0 := words_of_sum hp _ _ _ _ (a0.trans a2)
  have q1 := words_of_sum hp _ _ _ _ (a1.trans a3)
  have q2 := words_of_sum hp _ _ _ _ (b0.trans b2)
  have q3 := words_of_sum hp _ _ _ _ (b1.trans b3)
  have hmw : ∀ i < 16, msgWord (vals inp t) i = m i := fun i hi => by
    unfold msgWord
    have hj : i % 4 < 4 := Nat.mod_lt _ (by norm_num)
    have hq : i / 4 < 4 := by omega
    obtain ⟨q, hq', hi'⟩ : ∃ q < 4, i / 4 = q := ⟨_, hq, rfl⟩
    rw [hi']
    have split : i = 4 * q + i % 4 := by omega
    generalize i % 4 = j at hj split
    subst split
    interval_cases q
    · refine (q0.2 j hj).trans ?_; interval_cases j <;> rfl
    · refine (q1.2 j hj).trans ?_; interval_cases j <;> rfl
    · refine (q2.2 j hj).trans ?_; interval_cases j <;> rfl
    · refine (q3.2 j hj).trans ?_; interval_cases j <;> rfl
  refine ⟨fun k hk => ?_, fun k hk => ?_⟩
  · interval_cases k
    · exact q0.1
    · exact q1.1
    · exact q2.1
    · exact q3.1
  -- the second block
  have hmid : Sha256Spec.compress Sha256Spec.iv m = mid (vals inp t) := (Sha256Spec.compress_congr _ hmw).symm
  rw [hmid] at hr1
  have hw2 : ∀ i < 16, ((proc2 c srow).words i).value t = W p (Sha256Spec.padWord i) := hpad
  have hr2 := Sha256.sha256_sound_partial h7 (mid (vals inp t)) Sha256Spec.padWord hr1 hw2 hP2 hL.second
  rw [sat_gate] at hG
  dsimp only at hG
  have e : ∀ i : ℕ, i < 8 → t .witness (c.w (i : ℤ)) (srow + 1530) = W p ((Sha256Spec.compress (mid (vals inp t)) Sha256Spec.padWord).get i) := fun i hi =>
    (hL.copies i hi).trans (hr2 i hi)
  have e0 := e 0 (by norm_num); have e1 := e 1 (by norm_num); have e2 := e 2 (by norm_num); have e3 := e 3 (by norm_num)
  have e4 := e 4 (by norm_num); have e5 := e 5 (by norm_num); have e6 := e 6 (by norm_num); have e7 := e 7 (by norm_num)
  simp only [Nat.cast_zero, Nat.cast_one, Nat.cast_ofNat] at e0 e1 e2 e3 e4 e5 e6 e7
  rw [e0, e1, e2, e3, e4, e5, e6, e7] at hG
  rw [show (fun i => ((inp.data i).value t).val) = vals inp t from rfl, sha256_eq]
  unfold result
  rw [Cols.value_wa, ← pack_half]
  interval_cases k
  · exact hG.2
  · exact hG.1

/-- The honest table meets the missing constraints: adding them would cost nothing. -/
theorem lacks_honest (hp : 2 ^ 128 < p) (hc : c.OK 9) (t₀ : Table (ZMod p)) (hin : ∀ k < 4, (inp.data k).Outside srow 1532)
    (hx : ∀ k < 4, ((inp.data k).value (writeConsts (circuit p c inp srow) t₀)).val < 2 ^ 128) :
    Lacks c inp srow (assign c inp srow (writeConsts (circuit p c inp srow) t₀)) := by
  have H := large (p := p) (le_trans (by norm_num) hp.le)
  have hk : Consts c srow (writeConsts (circuit p c inp srow) t₀) := consts_written t₀
  generalize writeConsts (circuit p c inp srow) t₀ = t at hx hk
  change ∀ k < 4, vals inp t k < 2 ^ 128 at hx
  obtain ⟨hf, hr, hs⟩ := chain H hp hc hin hx hk
  rw [assign_lastRows]
  generalize hg : (fun i => (Sha256.result c (srow + 768) i).value (parts c inp srow t)) = g
  have hF := ((lastRows_grid (c := c) (srow := srow) g).own hc).frame (parts c inp srow t)
  obtain ⟨h1, h2, h3⟩ := lastRows_read (srow := srow) hc g (parts c inp srow t)
  obtain ⟨s0, s1, s2, s3⟩ := hs _ hF (lastRows_sat hc _ _)
  have hFr : Frame c srow 1532 t (writeAll (lastRows c srow g) (parts c inp srow t)) := (hf.mono (by omega) (by omega)).trans (hF.mono (by omega) (by omega))
  generalize hte : writeAll (lastRows c srow g) (parts c inp srow t) = te at *
  have hv : vals inp te 0 = vals inp t 0 ∧ vals inp te 1 = vals inp t 1 ∧ vals inp te 2 = vals inp t 2 ∧ vals inp te 3 = vals inp t 3 := by
    unfold vals
    refine ⟨?_, ?_, ?_, ?_⟩ <;> rw [hFr.outside (hin _ (by norm_num))]
  refine ⟨s1, ?_, ?_, fun i hi => ?_⟩
  · have : mid (vals inp te) = mid (vals inp t) := by
      unfold mid
      refine Sha256Spec.compress_congr _ fun i hi => ?_
      unfold msgWord
      have : i / 4 < 4 := by omega
      obtain ⟨q, hq⟩ : ∃ q, i / 4 = q := ⟨_, rfl⟩
      rw [hq] at this ⊢
      interval_cases q
      · rw [hv.1]
      · rw [hv.2.1]
      · rw [hv.2.2.1]
      · rw [hv.2.2.2]
    rw [this]; exact s2
  · exact s3
  · rw [h1 i hi, ← hg]
    exact (hF.outside (out_result i (Or.inl (by omega)))).symm

section Example

/-- Four public inputs, all bits set in the first, zero in the others. -/
def exIn : In := ⟨fun i => ⟨0, i, false, .publicInput⟩⟩
@[inherit_doc exIn] def exTable : Table (ZMod pallasP) := fun ty _ r => if ty = .publicInput ∧ r = 0 then ((2 ^ 128 - 1 : ℕ) : ZMod pallasP) else 0

theorem exOut (k : ℕ) : (exIn.data k).Outside 0 1532 := fun h => by simp [exIn] at h

theorem exSmall (k : ℕ) (_ : k < 4) : ((exIn.data k).value (writeConsts (circuit pallasP Sha256.exCols exIn 0) exTable)).val < 2 ^ 128 := by
  rw [Sha256.value_writeConsts _ _ _ (by simp [exIn])]
  simp only [exIn, exTable, Var.value]
  split_ifs
  · rw [ZMod.val_natCast, Nat.mod_eq_of_lt (by norm_num [pallasP])]; norm_num
  · rw [ZMod.val_zero]; norm_num

theorem pallas_128 : 2 ^ 128 < pallasP := by norm_num [pallasP]

example : Sat (assign Sha256.exCols exIn 0 (writeConsts (circuit pallasP Sha256.exCols exIn 0) exTable)) (circuit pallasP Sha256.exCols exIn 0) :=
  (hash_complete pallas_128 Sha256.exCols_ok exTable (fun k _ => exOut k) exSmall).1

/-- The digest zero is accepted for this message. -/
example : ∃ t', Sat t' (circuit pallasP Sha256.exCols exIn 0) ∧
    (exIn.data 0).value t' = (exIn.data 0).value (writeConsts (circuit pallasP Sha256.exCols exIn 0) exTable) ∧
    ∀ k < 2, (result Sha256.exCols 0 k).value t' = 0 := by
  obtain ⟨t', h1, -, -, h2, h3⟩ := hash_any_output pallas_128 Sha256.exCols_ok exTable (fun k _ => exOut k) exSmall fun _ => 0
  exact ⟨t', h1, h2 0 (by norm_num), h3⟩

/-- The hypotheses of `hash_sound_partial` are met. -/
example := hash_sound_partial pallas_128 (hash_complete pallas_128 Sha256.exCols_ok exTable (fun k _ => exOut k) exSmall).1
  (lacks_honest pallas_128 Sha256.exCols_ok exTable (fun k _ => exOut k) exSmall)

/-- `calculate` on an input of more than 128 bits drops the upper bits: `2^128` gives the hash of the zero message. -/
example : ∃ o o', calculate (p := pallasP) (fun _ => ((2 ^ 128 : ℕ) : ZMod pallasP)) = some o ∧ calculate (p := pallasP) (fun _ => 0) = some o' ∧
    ∀ k < 2, o k = o' k := by
  obtain ⟨o, h, e⟩ := calculate_eq (p := pallasP) Sha256.pallas_large fun _ => ((2 ^ 128 : ℕ) : ZMod pallasP)
  obtain ⟨o', h', e'⟩ := calculate_eq (p := pallasP) Sha256.pallas_large fun _ => 0
  refine ⟨o, o', h, h', fun k hk => ?_⟩
  rw [e k hk, e' k hk, ZMod.val_natCast, Nat.mod_eq_of_lt (show 2 ^ 128 < pallasP by norm_num [pallasP]), ZMod.val_zero]
  simp only [Nat.mod_self, Nat.zero_mod]

end Example
end Sha256Full
end Verif
