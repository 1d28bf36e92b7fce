import Verif.Core.Sha512Spec
import Mathlib.Data.Nat.Bits
import Mathlib.Tactic.Ring
import Mathlib.Tactic.NormNum

/-!
# Messages of SHA-512 (FIPS 180-4, sections 5.1.2, 5.2.2), and strings of bits counted from the least significant end
-/

namespace Verif
namespace Sha512Spec

/-- The least `n ≥ 0` with `l + 1 + n ≡ 896 (mod 1024)` (5.1.2). -/
def zeros (l : ℕ) : ℕ := (1919 - l % 1024) % 1024

/-- Bit `q` of the padded message (5.1.2): the message, a one, zeros, and the length in 128 bits. -/
def padBit (m : List Bool) (q : ℕ) : Bool :=
  if q < m.length then m.getD q false
  else if q = m.length then true
  else if q < m.length + 1 + zeros m.length then false
  else m.length.testBit (127 - (q - (m.length + 1 + zeros m.length)))

/-- The number of blocks. -/
def blocks (l : ℕ) : ℕ := (l + 1 + zeros l + 128) / 1024

/-- `w` are the words of the padded message: bit `j` of word `i`, counted from the most significant, is bit `64 i + j` (3.1). -/
def IsPadding (m : List Bool) (n : ℕ) (w : ℕ → Word) : Prop :=
  blocks m.length = n ∧ ∀ i < 16 * n, ∀ j < 64, (w i).getMsbD j = padBit m (64 * i + j)

/-- The number with the given words, least significant first. -/
def leNat : List ℕ → ℕ
  | [] => 0
  | w :: l => w + 2 ^ 64 * leNat l

theorem leNat_digit (l : List ℕ) (h : ∀ w ∈ l, w < 2 ^ 64) (i : ℕ) : leNat l / 2 ^ (64 * i) % 2 ^ 64 = l.getD i 0 := by
  induction l generalizing i with
  | nil => simp [leNat]
  | cons w l ih =>
    have hw := h w (by simp)
    cases i with
    | zero => rw [leNat, Nat.mul_zero, pow_zero, Nat.div_one, Nat.add_mul_mod_self_left, Nat.mod_eq_of_lt hw]; rfl
    | succ i =>
      rw [leNat, show 64 * (i + 1) = 64 + 64 * i by ring, pow_add, ← Nat.div_div_eq_div_mul, Nat.add_mul_div_left _ _ (by norm_num), Nat.div_eq_of_lt hw, zero_add,
        ih (fun w hw => h w (by simp [hw])), List.getD_cons_succ]

/-- The length field of a padded message of two blocks fixes the length. -/
theorem IsPadding.length {m : List Bool} {w : ℕ → Word} (h : IsPadding m 2 w) (hm : m.length < 2 ^ 128) (h30 : (w 30).toNat = 0) {l : ℕ}
    (h31 : (w 31).toNat = l) : m.length = l := by
  obtain ⟨hb, hw⟩ := h
  have hz : m.length + 1 + zeros m.length = 1920 := by
    have h0 : (m.length + 1 + zeros m.length + 128) % 1024 = 0 := by unfold zeros; omega
    unfold blocks at hb
    omega
  have bit : ∀ i j, 30 ≤ i → i < 32 → j < 64 → (w i).getMsbD j = m.length.testBit (127 - (64 * i + j - 1920)) := fun i j h1 h2 h3 => by
    rw [hw i (by omega) j h3]
    unfold padBit
    rw [hz, if_neg (by omega), if_neg (by omega), if_neg (by omega)]
  apply Nat.eq_of_testBit_eq
  intro j
  rcases lt_or_ge j 64 with hj | hj
  · have := bit 31 (63 - j) (by omega) (by omega) (by omega)
    rw [show 127 - (64 * 31 + (63 - j) - 1920) = j by omega] at this
    rw [← this, ← h31, BitVec.getMsbD, show 64 - 1 - (63 - j) = j by omega]
    simp [show 63 - j < 64 by omega, BitVec.getLsbD]
  · have hl : l.testBit j = false := Nat.testBit_lt_two_pow (lt_of_lt_of_le (h31 ▸ (w 31).isLt) (Nat.pow_le_pow_right (by norm_num) hj))
    rw [hl]
    rcases lt_or_ge j 128 with hj2 | hj2
    · have := bit 30 (127 - j) (by omega) (by omega) (by omega)
      rw [show 127 - (64 * 30 + (127 - j) - 1920) = j by omega] at this
      rw [← this, BitVec.getMsbD, show 64 - 1 - (127 - j) = j - 64 by omega]
      simp [BitVec.getLsbD, h30]
    · exact Nat.testBit_lt_two_pow (lt_of_lt_of_le hm (Nat.pow_le_pow_right (by norm_num) hj2))

end Sha512Spec
end Verif
