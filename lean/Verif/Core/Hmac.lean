import Verif.Core.Sha256Hash

/-!
# HMAC-SHA-256 (RFC 2104)

Keys, messages and hash values are strings of bits, most significant bit of every byte first. The block length is 64 bytes.
-/

namespace Verif
namespace Sha256Spec

/-- The bits of a hash value. -/
def digestBits (u : State) : List Bool := (List.range 256).map (digestBit u)

/-- The key, hashed if longer than a block, with zeros appended up to the block length (RFC 2104, section 2 and step 1). -/
def blockKey (k : List Bool) : List Bool :=
  let k0 := if 512 < k.length then digestBits (sha256 k) else k
  k0 ++ List.replicate (512 - k0.length) false

/-- XOR with the byte `b` repeated (steps 2 and 5). -/
def xorByte (k : List Bool) (b : ℕ) : List Bool := (List.range k.length).map fun i => k.getD i false ^^ b.testBit (7 - i % 8)

/-- `H(K XOR opad, H(K XOR ipad, text))`. -/
def hmac (k m : List Bool) : State :=
  sha256 (xorByte (blockKey k) 0x5c ++ digestBits (sha256 (xorByte (blockKey k) 0x36 ++ m)))

theorem blockKey_length (k : List Bool) : (blockKey k).length = 512 := by
  unfold blockKey
  split_ifs with h
  · rw [List.length_append, List.length_replicate, digestBits, List.length_map, List.length_range]
  · rw [List.length_append, List.length_replicate]; omega

theorem xorByte_length (k : List Bool) (b : ℕ) : (xorByte k b).length = k.length := by simp [xorByte]

/-! ### Evaluation -/

/-- The bits of blocks of 16 words. -/
def bitsOf (b : List (List Word)) : List Bool := (List.range (512 * b.length)).map fun q => ((b.getD (q / 512) []).getD (q % 512 / 32) 0).getLsbD (31 - q % 32)

/-- Hash values are computed block by block. -/
theorem hashBlocks_eval (m : List Bool) (b : List (List Word)) (hb : ∀ l ∈ b, l.length = 16) (h : m = bitsOf b) (n : ℕ) (hn : n ≤ b.length) :
    hashBlocks m n = (b.take n).foldl compressFast iv := by
  induction n with
  | zero => rfl
  | succ n ih =>
    have hl : b[n].length = 16 := hb _ (List.getElem_mem _)
    rw [hashBlocks, ih (by omega), List.take_add_one, List.getElem?_eq_getElem (by omega), Option.toList, List.foldl_append, List.foldl_cons, List.foldl_nil,
      compressFast_eq _ (wordAt fun q => m.getD (512 * n + q) false)]
    apply List.ext_getElem
    · simp [hl]
    · intro i h1 h2
      have hi : i < 16 := by omega
      rw [List.getElem_map, List.getElem_range]
      apply BitVec.eq_of_getLsbD_eq
      intro j hj
      rw [wordAt_bit _ _ _ hj, h, bitsOf, List.getD_eq_getElem _ _ (by rw [List.length_map, List.length_range]; omega), List.getElem_map, List.getElem_range,
        show (512 * n + (32 * i + 31 - j)) / 512 = n by omega, show (512 * n + (32 * i + 31 - j)) % 512 / 32 = i by omega,
        show 31 - (512 * n + (32 * i + 31 - j)) % 32 = j by omega, List.getD_eq_getElem b _ (by omega), List.getD_eq_getElem _ _ h2]

theorem hashBlocks_bits (m : List Bool) (b : List (List Word)) (hb : ∀ l ∈ b, l.length = 16) (h : m = bitsOf b) :
    hashBlocks m (m.length / 512) = b.foldl compressFast iv := by
  rw [show m.length / 512 = b.length by rw [h, bitsOf, List.length_map, List.length_range]; omega, hashBlocks_eval m b hb h _ le_rfl, List.take_length]

/-- HMAC from the blocks of the two messages and the inner hash value. -/
theorem hmac_eval (k m : List Bool) (ib ob : List (List Word)) (u : State) (hi : ∀ l ∈ ib, l.length = 16) (ho : ∀ l ∈ ob, l.length = 16)
    (h1 : pad (xorByte (blockKey k) 0x36 ++ m) = bitsOf ib) (h2 : ib.foldl compressFast iv = u)
    (h3 : pad (xorByte (blockKey k) 0x5c ++ digestBits u) = bitsOf ob) : hmac k m = ob.foldl compressFast iv := by
  have e1 : sha256 (xorByte (blockKey k) 0x36 ++ m) = u := by rw [sha256, hashBlocks_bits _ _ hi h1, h2]
  rw [hmac, e1, sha256, hashBlocks_bits _ _ ho h3]

/-- Bits of a string of `n` bytes. -/
def bytes (n : ℕ) (x : ℕ) : List Bool := (List.range (8 * n)).map fun i => x.testBit (8 * n - 1 - i)

/-- RFC 4231, test case 2: key "Jefe", text "what do ya want for nothing?". -/
example : hmac (bytes 4 0x4a656665) (bytes 28 0x7768617420646f2079612077616e7420666f72206e6f7468696e673f) =
    ⟨0x5bdcc146, 0xbf60754e, 0x6a042426, 0x089575c7, 0x5a003f08, 0x9d273983, 0x9dec58b9, 0x64ec3843⟩ := by
  refine (hmac_eval (bytes 4 0x4a656665) (bytes 28 0x7768617420646f2079612077616e7420666f72206e6f7468696e673f)
    [[0x7c535053, 0x36363636, 0x36363636, 0x36363636, 0x36363636, 0x36363636, 0x36363636, 0x36363636, 0x36363636, 0x36363636, 0x36363636, 0x36363636, 0x36363636, 0x36363636, 0x36363636, 0x36363636], [0x77686174, 0x20646f20, 0x79612077, 0x616e7420, 0x666f7220, 0x6e6f7468, 0x696e673f, 0x80000000, 0x0, 0x0, 0x0, 0x0, 0x0, 0x0, 0x0, 0x2e0]]
    [[0x16393a39, 0x5c5c5c5c, 0x5c5c5c5c, 0x5c5c5c5c, 0x5c5c5c5c, 0x5c5c5c5c, 0x5c5c5c5c, 0x5c5c5c5c, 0x5c5c5c5c, 0x5c5c5c5c, 0x5c5c5c5c, 0x5c5c5c5c, 0x5c5c5c5c, 0x5c5c5c5c, 0x5c5c5c5c, 0x5c5c5c5c], [0xa2e48586, 0x3d27f9d8, 0x64ac8d80, 0x2432a1ed, 0x477d8c4c, 0x6f349d16, 0xd4e7e917, 0xc629cad7, 0x80000000, 0x0, 0x0, 0x0, 0x0, 0x0, 0x0, 0x300]]
    ⟨0xa2e48586, 0x3d27f9d8, 0x64ac8d80, 0x2432a1ed, 0x477d8c4c, 0x6f349d16, 0xd4e7e917, 0xc629cad7⟩ ?_ ?_ ?_ ?_ ?_).trans ?_ <;> decide +kernel

end Sha256Spec
end Verif
