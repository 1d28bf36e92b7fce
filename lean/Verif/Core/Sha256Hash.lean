import Verif.Core.Sha256Spec
import Mathlib.Data.Nat.Bits
import Mathlib.Tactic.IntervalCases
import Mathlib.Tactic.NormNum
import Mathlib.Tactic.SplitIfs

/-!
# SHA-256 (FIPS 180-4, sections 3.1, 5.1.1, 5.2.1, 6.2)

Messages and hash values as strings of bits, most significant bit of every word first.
-/

namespace Verif
namespace Sha256Spec

/-- The number with the given `n` bits, most significant first. -/
def beNat (b : ℕ → Bool) (n : ℕ) : ℕ := (List.range n).foldl (fun a j => 2 * a + (b j).toNat) 0

/-- Word `i` of a string of bits (3.1). -/
def wordAt (b : ℕ → Bool) (i : ℕ) : Word := BitVec.ofNat 32 (beNat (fun j => b (32 * i + j)) 32)

/-- A hash value from 256 bits. -/
def stateOf (b : ℕ → Bool) : State :=
  ⟨wordAt b 0, wordAt b 1, wordAt b 2, wordAt b 3, wordAt b 4, wordAt b 5, wordAt b 6, wordAt b 7⟩

/-- Bit `q` of a hash value. -/
def digestBit (u : State) (q : ℕ) : Bool := (u.get (q / 32)).getLsbD (31 - q % 32)

/-- The least `n ≥ 0` with `l + 1 + n ≡ 448 (mod 512)` (5.1.1). -/
def zeros (l : ℕ) : ℕ := (959 - l % 512) % 512

/-- The padded message (5.1.1): a one, zeros, and the length in 64 bits. -/
def pad (m : List Bool) : List Bool :=
  m ++ [true] ++ List.replicate (zeros m.length) false ++ (List.range 64).map fun i => m.length.testBit (63 - i)

/-- The hash value after the first `n` blocks of 512 bits (5.2.1, 6.2.2). -/
def hashBlocks (m : List Bool) : ℕ → State
  | 0 => iv
  | n + 1 => compress (hashBlocks m n) (wordAt fun q => m.getD (512 * n + q) false)

/-- SHA-256 of a message of less than `2^64` bits. -/
def sha256 (m : List Bool) : State := hashBlocks (pad m) ((pad m).length / 512)

/-! ### Facts about the encoding -/

theorem beNat_succ (b : ℕ → Bool) (n : ℕ) : beNat b (n + 1) = 2 * beNat b n + (b n).toNat := by
  rw [beNat, List.range_succ, List.foldl_append]; rfl

theorem beNat_bit (b : ℕ → Bool) (n j : ℕ) (hj : j < n) : (beNat b n).testBit j = b (n - 1 - j) := by
  induction n generalizing j with
  | zero => omega
  | succ n ih =>
    have e : beNat b (n + 1) = Nat.bit (b n) (beNat b n) := by rw [beNat_succ, Nat.bit_val]
    rw [e]
    cases j with
    | zero => rw [Nat.testBit_bit_zero]; simp
    | succ j => rw [Nat.testBit_bit_succ, ih j (by omega)]; congr 1; omega

/-- Bit `j` of word `i`, counted from the least significant, is bit `32 i + 31 - j` of the string. -/
theorem wordAt_bit (b : ℕ → Bool) (i j : ℕ) (hj : j < 32) : (wordAt b i).getLsbD j = b (32 * i + 31 - j) := by
  rw [wordAt, BitVec.getLsbD_ofNat, decide_eq_true hj, Bool.true_and, beNat_bit _ _ _ hj]
  congr 1; omega

theorem stateOf_get (b : ℕ → Bool) (i : ℕ) (hi : i < 8) : (stateOf b).get i = wordAt b i := by
  interval_cases i <;> rfl

/-- The padded length is a multiple of 512. -/
theorem pad_length (m : List Bool) : (pad m).length % 512 = 0 := by
  have e : (pad m).length = m.length + 1 + zeros m.length + 64 := by simp [pad]; omega
  rw [e, zeros]
  omega

theorem zeros_spec (l : ℕ) : (l + 1 + zeros l) % 512 = 448 ∧ ∀ n < zeros l, (l + 1 + n) % 512 ≠ 448 := by
  unfold zeros
  constructor
  · omega
  · intro n hn; omega

/-- Equal words have equal bits. -/
theorem digestBit_inj (u v : State) (h : ∀ q < 256, digestBit u q = digestBit v q) : u = v := by
  have key : ∀ i < 8, u.get i = v.get i := by
    intro i hi
    apply BitVec.eq_of_getLsbD_eq
    intro j hj
    have := h (32 * i + 31 - j) (by omega)
    unfold digestBit at this
    rw [show (32 * i + 31 - j) / 32 = i by omega, show 31 - (32 * i + 31 - j) % 32 = j by omega] at this
    exact this
  ext1
  · exact key 0 (by norm_num)
  · exact key 1 (by norm_num)
  · exact key 2 (by norm_num)
  · exact key 3 (by norm_num)
  · exact key 4 (by norm_num)
  · exact key 5 (by norm_num)
  · exact key 6 (by norm_num)
  · exact key 7 (by norm_num)

/-! ### Evaluation

The schedule as a list, newest word first; used to compute hash values. -/

/-- One more word of the schedule. -/
def nextWord (l : List Word) : Word := smallSigma1 (l.getD 1 0) + l.getD 6 0 + smallSigma0 (l.getD 14 0) + l.getD 15 0

/-- The first `n` words, newest first. -/
def schedList (m : ℕ → Word) : ℕ → List Word
  | 0 => []
  | n + 1 => let l := schedList m n; (if n < 16 then m n else nextWord l) :: l

theorem schedList_get (m : ℕ → Word) (n j : ℕ) (hj : j < n) : (schedList m n).getD j 0 = schedule m (n - 1 - j) := by
  induction n using Nat.strong_induction_on generalizing j with
  | _ n ih =>
    cases n with
    | zero => omega
    | succ n =>
      cases j with
      | zero =>
        show (if n < 16 then m n else nextWord (schedList m n)) = _
        rw [show n + 1 - 1 - 0 = n by omega, schedule]
        split_ifs with h
        · rfl
        · rw [nextWord, ih n (by omega) 1 (by omega), ih n (by omega) 6 (by omega), ih n (by omega) 14 (by omega), ih n (by omega) 15 (by omega),
            show n - 1 - 1 = n - 2 by omega, show n - 1 - 6 = n - 7 by omega, show n - 1 - 14 = n - 15 by omega, show n - 1 - 15 = n - 16 by omega]
      | succ j =>
        show (schedList m n).getD j 0 = _
        rw [ih n (by omega) j (by omega)]
        congr 1; omega

/-- All rounds over a list of constants and words. -/
def roundsList : List (Word × Word) → State → State
  | [], s => s
  | (kt, wt) :: l, s => roundsList l (round s kt wt)

theorem roundsList_append (l m : List (Word × Word)) (s : State) : roundsList (l ++ m) s = roundsList m (roundsList l s) := by
  induction l generalizing s with
  | nil => rfl
  | cons t l ih => exact ih _

theorem roundsList_eq (w : ℕ → Word) (s : State) (n : ℕ) : roundsList ((List.range n).map fun i => (k i, w i)) s = rounds w s n := by
  induction n with
  | zero => rfl
  | succ n ih => rw [List.range_succ, List.map_append, roundsList_append, ih]; rfl

/-- `n` more words. -/
def extend (l : List Word) : ℕ → List Word
  | 0 => l
  | n + 1 => extend (nextWord l :: l) n

theorem extend_eq (m : ℕ → Word) (n t : ℕ) (ht : 16 ≤ t) : extend (schedList m t) n = schedList m (t + n) := by
  induction n generalizing t with
  | zero => rfl
  | succ n ih =>
    have e : nextWord (schedList m t) :: schedList m t = schedList m (t + 1) := by
      show _ = (if t < 16 then m t else nextWord (schedList m t)) :: schedList m t
      rw [if_neg (by omega)]
    rw [extend, e, ih (t + 1) (by omega)]
    congr 1; omega

/-- The compression function, computed with lists. -/
def compressFast (s : State) (block : List Word) : State := addState s (roundsList (kList.zip (extend block.reverse 48).reverse) s)

theorem compressFast_eq (s : State) (m : ℕ → Word) (block : List Word) (hb : (List.range 16).map m = block) : compressFast s block = compress s m := by
  have hlen : ∀ n, (schedList m n).length = n := by
    intro n
    induction n with
    | zero => rfl
    | succ n ih => show (schedList m n).length + 1 = n + 1; rw [ih]
  have e : kList.zip (schedList m 64).reverse = (List.range 64).map fun i => (k i, schedule m i) := by
    apply List.ext_getElem
    · simp [hlen]; rfl
    · intro i h1 h2
      have hi : i < 64 := by simpa using h2
      have hk : kList.length = 64 := rfl
      rw [List.getElem_zip, List.getElem_map, List.getElem_range, List.getElem_reverse]
      have := schedList_get m 64 (64 - 1 - i) (by omega)
      rw [List.getD_eq_getElem _ _ (by rw [hlen]; omega), show 64 - 1 - (64 - 1 - i) = i by omega] at this
      simp only [hlen]
      rw [this, k, List.getD_eq_getElem _ _ (by omega)]
  rw [compressFast, ← hb, show ((List.range 16).map m).reverse = schedList m 16 from rfl, extend_eq m 48 16 (by norm_num), e, roundsList_eq, compress]

/-- SHA-256 of the message "abc" (FIPS 180-4, example B.1). -/
example : sha256 ((List.range 24).map fun i => (0x616263 : ℕ).testBit (23 - i)) =
    ⟨0xba7816bf, 0x8f01cfea, 0x414140de, 0x5dae2223, 0xb00361a3, 0x96177a9c, 0xb410ff61, 0xf20015ad⟩ := by
  rw [sha256, show (pad ((List.range 24).map fun i => (0x616263 : ℕ).testBit (23 - i))).length / 512 = 1 by decide +kernel, hashBlocks, hashBlocks,
    ← compressFast_eq _ _ [0x61626380, 0, 0, 0, 0, 0, 0, 0, 0, 0, 0, 0, 0, 0, 0, 24] (by decide +kernel)]
  decide +kernel

end Sha256Spec
end Verif
