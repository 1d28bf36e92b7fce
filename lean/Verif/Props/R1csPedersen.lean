import Verif.Model.R1csPedersen
import Verif.Core.Pedersen
import Verif.Props.R1csCurve
import Verif.Props.R1csMux
import Verif.Props.R1csSha256
import Verif.Core.Jubjub

/-!
# C96: the windowed fixed-base multiplication of the Pedersen hash
-/

set_option linter.unusedSectionVars false
set_option linter.unusedSimpArgs false

namespace Verif
namespace R1cs
namespace Pedersen

open Curve Montgomery WeierstrassCurve.Affine Verif.Pedersen

section
variable {p : ℕ} [Fact p.Prime] {A : ZMod p}

/-! ### Points -/

theorem x_ne_of {s : Asg (ZMod p)} {P Q : Pt (ZMod p)} {G H : (curve A).Point} (hP : Coords s P G) (hQ : Coords s Q H) (h1 : G - H ≠ 0) (h2 : G + H ≠ 0) :
    P.X.eval s ≠ Q.X.eval s := by
  obtain ⟨x1, y1, n1, rfl, e1⟩ := hP
  obtain ⟨x2, y2, n2, rfl, e2⟩ := hQ
  simp only [Pt.eval, Prod.mk.injEq] at e1 e2
  rw [e1.1, e2.1]
  rintro rfl
  have f1 := equation_of n1
  have f2 := equation_of n2
  have : (y1 - y2) * (y1 + y2) = 0 := by linear_combination f1 - f2
  rcases mul_eq_zero.1 this with h | h
  · have : y1 = y2 := sub_eq_zero.1 h
    subst this
    exact h1 (sub_self _)
  · exact h2 (add_opp n1 n2 (eq_neg_of_add_eq_zero_left h))

theorem nonTors_of {P : (curve A).Point} {r : ℕ} (hr : r % 2 = 1) (h : r • P = 0) : NonTors P := by
  match P, h with
  | .zero, _ => trivial
  | .some x y n, h =>
    show y ≠ 0
    rintro rfl
    have h2 : (2 : ℕ) • (Point.some x 0 n : (curve A).Point) = 0 := by rw [two_nsmul]; exact add_opp n n (by simp)
    obtain ⟨q, hq⟩ : ∃ q, r = 2 * q + 1 := ⟨r / 2, by omega⟩
    rw [hq, add_nsmul, mul_nsmul, h2, one_nsmul] at h
    have hz : q • (0 : (curve A).Point) = 0 := nsmul_zero q
    have h : q • (0 : (curve A).Point) + Point.some x 0 n = 0 := h
    rw [hz, zero_add] at h
    exact absurd h (by simp)

theorem coords_of_ne {P : (curve A).Point} (h : P ≠ 0) : ∃ x y n, P = Point.some x y n ∧ coord P = (x, y) := by
  match P, h with
  | .zero, h => exact absurd rfl h
  | .some x y n, _ => exact ⟨x, y, n, rfl, rfl⟩

theorem neg_point {x y : ZMod p} (n : (curve A).Nonsingular x y) : ∃ n', (-Point.some x y n : (curve A).Point) = Point.some x (-y) n' := by
  have e : (curve A).negY x y = -y := by simp [WeierstrassCurve.Affine.negY, curve]
  have n' := (WeierstrassCurve.Affine.nonsingular_neg x y).2 n
  rw [e] at n'
  refine ⟨n', ?_⟩
  rw [Point.neg_some]
  simp only [e]

namespace Mul
variable (k : Mul p A)

theorem current_eq (S : (curve A).Point) (j : ℕ) : current S j = (j + 1 : ℕ) • S := by
  induction j with
  | zero => simp [current]
  | succ j ih => rw [current, ih, add_smul (j + 1) 1, one_smul]

/-- The table of window `i` belongs to `16 ^ (i % c)` times the base point of the segment. -/
theorem start_eq (i : ℕ) : k.start i = (16 ^ (i % k.c) : ℕ) • k.point (i / k.c) := by
  induction i with
  | zero => simp [start]
  | succ i ih =>
    rw [start]
    split_ifs with h
    · rw [h, pow_zero, one_smul]
    · obtain ⟨e1, e2⟩ := seg_mod h
      rw [current_eq, ih, ← e1, ← e2, pow_succ, ← add_smul, ← add_smul, ← mul_smul]
      congr 1
      ring

/-- The conditions on the curve, the base points and the sizes. -/
structure Good (scale a d : ZMod p) (r : ℕ) : Prop where
  params : Params A scale a d
  c2 : 2 ≤ k.c
  n1 : 1 ≤ k.n
  ord : ∀ t, t ≤ (k.n - 1) / k.c → addOrderOf (k.point t) = r
  odd : r % 2 = 1
  big : 4 * (16 ^ k.c - 1) < 15 * r

/-- The values of the bits. -/
def Bits (s : Asg (ZMod p)) (m : ℕ → Bool) : Prop := ∀ i < 3 * k.n, val s (k.bit i) = b2f (m i)

/-- What both the constraints and the assignment say about the values. -/
structure Vals (scale a d : ZMod p) (s : Asg (ZMod p)) (m : ℕ → Bool) : Prop where
  look : ∀ i < k.n, val s (k.winY i) = signed3 (k.tabY i) (m (3 * i)) (m (3 * i + 1)) (m (3 * i + 2)) ∧ val s (k.b0b1 i) = b2f (m (3 * i) && m (3 * i + 1))
  add : ∀ i < k.n, i % k.c ≠ 0 → AddOk A s (k.adder i)
  conv : ∀ q < k.convPts.length, ConvOk scale s (k.conv q)
  ed : ∀ q < k.convPts.length - 1, TEd.On a d ((k.ed q).p1.eval s).1 ((k.ed q).p1.eval s).2 → TEd.On a d ((k.ed q).p2.eval s).1 ((k.ed q).p2.eval s).2 →
    (k.edRes q).eval s = TEd.add a d ((k.ed q).p1.eval s) ((k.ed q).p2.eval s)
  res : (val s k.x, val s k.y) = k.last.eval s

variable {k} {scale a d : ZMod p} {r : ℕ}

theorem Good.lt (h : k.Good scale a d r) {z : ℤ} {i : ℕ} (hz : 15 * |z| ≤ 4 * (16 ^ (i % k.c + 1) - 1)) : |z| < r := by
  have hc := h.c2
  have hm : i % k.c + 1 ≤ k.c := Nat.mod_lt _ (by omega)
  have hp : (16 : ℤ) ^ (i % k.c + 1) ≤ 16 ^ k.c := pow_le_pow_right₀ (by norm_num) hm
  have hb : 4 * ((16 : ℤ) ^ k.c - 1) < 15 * r := by
    have := h.big
    have h1 : 1 ≤ 16 ^ k.c := Nat.one_le_pow _ _ (by norm_num)
    zify [h1] at this
    exact this
  omega

theorem Good.ord' (h : k.Good scale a d r) {i : ℕ} (hi : i < k.n) : addOrderOf (k.point (i / k.c)) = r :=
  h.ord _ (Nat.div_le_div_right (by omega))

theorem win_eval {s : Asg (ZMod p)} {m : ℕ → Bool} (hb : k.Bits s m) (i : ℕ) (hi : i < k.n) (hv : val s (k.b0b1 i) = b2f (m (3 * i) && m (3 * i + 1))) :
    (k.win i).X.eval s = k.tabX i ((m (3 * i)).toNat + 2 * (m (3 * i + 1)).toNat) := by
  unfold win
  simp only [eval_cons, eval_nil, val_zero, hb (3 * i) (by omega), hb (3 * i + 1) (by omega), hv]
  cases m (3 * i) <;> cases m (3 * i + 1) <;> (simp; try ring)

/-- Window `i` is the digit with its weight times the base point. -/
theorem win_coords (h : k.Good scale a d r) {s : Asg (ZMod p)} {m : ℕ → Bool} (hb : k.Bits s m) {i : ℕ} (hi : i < k.n)
    (hv : val s (k.winY i) = signed3 (k.tabY i) (m (3 * i)) (m (3 * i + 1)) (m (3 * i + 2)) ∧ val s (k.b0b1 i) = b2f (m (3 * i) && m (3 * i + 1))) :
    Coords s (k.win i) ((enc m i * 16 ^ (i % k.c)) • k.point (i / k.c)) := by
  have ho := h.ord' hi
  obtain ⟨hY, hB⟩ := hv
  have hX := win_eval hb i hi hB
  obtain ⟨j, hj⟩ : ∃ j, j = (m (3 * i)).toNat + 2 * (m (3 * i + 1)).toNat := ⟨_, rfl⟩
  have hQ : current (k.start i) j = (((j + 1 : ℕ) : ℤ) * 16 ^ (i % k.c)) • k.point (i / k.c) := by
    rw [current_eq, start_eq, ← mul_smul, ← natCast_zsmul]
    congr 1

  have hj3 : j ≤ 3 := by
    have := Bool.toNat_lt (m (3 * i)); have := Bool.toNat_lt (m (3 * i + 1)); omega
  have hne : (((j + 1 : ℕ) : ℤ) * 16 ^ (i % k.c)) • k.point (i / k.c) ≠ 0 := by
    have hp : (0 : ℤ) < 16 ^ (i % k.c) := by positivity
    have hj1 : (1 : ℤ) ≤ ((j + 1 : ℕ) : ℤ) := by omega
    have hj4 : ((j + 1 : ℕ) : ℤ) ≤ 4 := by omega
    have hab : |((j + 1 : ℕ) : ℤ) * 16 ^ (i % k.c)| = ((j + 1 : ℕ) : ℤ) * 16 ^ (i % k.c) := abs_of_nonneg (by positivity)
    refine smul_ne ho ?_ (h.lt (i := i) ?_)
    · rw [hab]; nlinarith
    · rw [hab, pow_succ]; nlinarith
  obtain ⟨x, y, n, e, ec⟩ := coords_of_ne hne
  have hx : k.tabX i j = x := by unfold tabX; rw [hQ, ec]
  have hy : k.tabY i j = y := by unfold tabY; rw [hQ, ec]
  have hWY : (k.win i).Y.eval s = if m (3 * i + 2) then -y else y := by
    show (Lc.var _ : Lc (ZMod p)).eval s = _
    rw [eval_var, hY, signed3, ← hj, hy]
  rw [← hj, hx] at hX
  have he : enc m i = (if m (3 * i + 2) then -1 else 1) * ((j + 1 : ℕ) : ℤ) := by unfold enc; rw [hj]; push_cast; ring
  cases h2 : m (3 * i + 2) with
  | false =>
    rw [h2] at hWY he
    refine ⟨x, y, n, ?_, ?_⟩
    · rw [he, ← e]; simp
    · unfold Pt.eval; rw [hX, hWY]; simp
  | true =>
    rw [h2] at hWY he
    obtain ⟨n', e'⟩ := neg_point n
    refine ⟨x, -y, n', ?_, ?_⟩
    · rw [he, ← e', ← e, ← neg_smul]; congr 1; simp; ring
    · unfold Pt.eval; rw [hX, hWY]; simp

/-! ### The adders of a segment -/

theorem nAdd_succ_of_zero {i : ℕ} (h : i % k.c = 0) : k.nAdd (i + 1) = k.nAdd i := by rw [nAdd, if_pos h]
theorem nAdd_succ_of_ne {i : ℕ} (h : i % k.c ≠ 0) : k.nAdd (i + 1) = k.nAdd i + 1 := by rw [nAdd, if_neg h]

theorem seg_of_zero {c : ℕ} {m : ℕ → Bool} {i : ℕ} (h : i % c = 0) : seg c m i = enc m i * 16 ^ (i % c) := by
  cases i with
  | zero => rw [h]; simp [seg]
  | succ i => rw [seg, if_pos h, h, pow_zero, mul_one]

/-- After window `i` the segment's sum is in the window or in the adder, and the adder's inputs have different abscissas. -/
theorem segment (h : k.Good scale a d r) {s : Asg (ZMod p)} {m : ℕ → Bool} (hb : k.Bits s m) (hv : k.Vals scale a d s m) (i : ℕ) (hi : i < k.n) :
    (i % k.c = 0 → Coords s (k.win i) (seg k.c m i • k.point (i / k.c))) ∧
    (i % k.c ≠ 0 → Coords s (k.addRes (k.nAdd i)) (seg k.c m i • k.point (i / k.c)) ∧ (k.adder i).p1.X.eval s ≠ (k.adder i).p2.X.eval s) := by
  induction i with
  | zero =>
    refine ⟨fun h0 => ?_, fun h0 => absurd (Nat.zero_mod _) h0⟩
    rw [seg_of_zero h0]; exact win_coords h hb hi (hv.look 0 hi)
  | succ i ih =>
    refine ⟨fun h0 => ?_, fun h0 => ?_⟩
    · rw [seg_of_zero h0]; exact win_coords h hb hi (hv.look _ hi)
    · obtain ⟨e1, e2⟩ := seg_mod h0
      have ih := ih (by omega)
      have hw := win_coords h hb hi (hv.look _ hi)
      have ho := h.ord' hi
      have hP : Coords s (k.adder (i + 1)).p1 (seg k.c m i • k.point ((i + 1) / k.c)) := by
        rw [← e2]
        show Coords s (if (i + 1) % k.c = 1 then k.win (i + 1 - 1) else k.addRes (k.nAdd (i + 1) - 1)) _
        split_ifs with h1
        · exact ih.1 (by omega)
        · have hne : i % k.c ≠ 0 := by omega
          rw [nAdd_succ_of_ne hne, Nat.add_sub_cancel]
          exact (ih.2 hne).1
      have sb := (seg_bound k.c m i).2
      rw [e1] at sb
      obtain ⟨d1, d2⟩ := digit_bound m (i + 1) ((i + 1) % k.c)
      obtain ⟨b1, b2, b3, b4⟩ := step_bound sb d1 d2
      rw [← pow_succ'] at b3 b4
      have hne : (k.adder (i + 1)).p1.X.eval s ≠ (k.adder (i + 1)).p2.X.eval s := by
        refine x_ne_of hP hw ?_ ?_
        · rw [← sub_smul]; exact smul_ne ho b2 (h.lt b4)
        · have := smul_ne ho b1 (h.lt b3)
          rw [add_zsmul] at this; exact this
      refine ⟨?_, hne⟩
      have := coords_of_ok hP hw hne (hv.add _ hi h0)
      rw [← add_zsmul] at this
      rw [seg, if_neg h0]
      exact this

/-! ### The ends of the segments -/

theorem nAdd_eq (hc : 2 ≤ k.c) (q e : ℕ) (he : e < k.c) : k.nAdd (k.c * q + e) = q * (k.c - 1) + (e - 1) := by
  induction q generalizing e with
  | zero =>
    induction e with
    | zero => simp [nAdd]
    | succ e ih =>
      have ih := ih (by omega)
      rw [← add_assoc, nAdd]
      simp only [Nat.mul_zero, Nat.zero_add, Nat.zero_mul] at *
      rw [Nat.mod_eq_of_lt (by omega)]
      split_ifs with h0
      · rw [ih]; omega
      · rw [ih]; omega
  | succ q ihq =>
    induction e with
    | zero =>
      have h1 := ihq (k.c - 1) (by omega)
      have e1 : k.c * (q + 1) + 0 = (k.c * q + (k.c - 1)) + 1 := by rw [Nat.mul_add]; omega
      rw [e1, nAdd_succ_of_ne (by rw [Nat.mul_add_mod, Nat.mod_eq_of_lt (by omega)]; omega), h1, Nat.add_mul]
      omega
    | succ e ih =>
      have ih := ih (by omega)
      rw [← add_assoc, nAdd, Nat.mul_add_mod, Nat.mod_eq_of_lt (show e < k.c by omega)]
      split_ifs with h0
      · rw [ih]; omega
      · rw [ih]; omega

/-- The points that the converted points are. -/
def convG (k : Mul p A) (m : ℕ → Bool) : List (curve A).Point :=
  (if (k.n - 1) % k.c = 0 then [seg k.c m (k.n - 1) • k.point ((k.n - 1) / k.c)] else []) ++
    (List.range ((k.nAdd k.n - 1) / k.width)).map (fun t => seg k.c m (k.c * t + (k.c - 1)) • k.point t) ++
    (if k.n > 1 then [if (k.n - 1) % k.c = 0 then seg k.c m (k.n - 2) • k.point ((k.n - 2) / k.c) else seg k.c m (k.n - 1) • k.point ((k.n - 1) / k.c)] else [])

/-- The number of windows in terms of complete segments. -/
theorem counts (hc : 2 ≤ k.c) (hn : 1 ≤ k.n) : ∃ q e, k.n = k.c * q + e + 1 ∧ e < k.c ∧ (k.n - 1) / k.c = q ∧ (k.n - 1) % k.c = e ∧
    k.nAdd k.n = q * (k.c - 1) + e ∧ (k.nAdd k.n - 1) / k.width = if e = 0 then q - 1 else q := by
  have h1 := Nat.div_add_mod (k.n - 1) k.c
  have h2 := Nat.mod_lt (k.n - 1) (show 0 < k.c by omega)
  obtain ⟨q, hq⟩ : ∃ q, q = (k.n - 1) / k.c := ⟨_, rfl⟩
  obtain ⟨e, he⟩ : ∃ e, e = (k.n - 1) % k.c := ⟨_, rfl⟩
  rw [← hq, ← he] at h1
  rw [← he] at h2
  have hN : k.n = k.c * q + e + 1 := by omega
  have hA : k.nAdd k.n = q * (k.c - 1) + e := by
    rw [hN, nAdd, nAdd_eq hc q e h2, Nat.mul_add_mod, Nat.mod_eq_of_lt h2]
    split_ifs with h0
    · omega
    · omega
  refine ⟨q, e, hN, h2, hq.symm, he.symm, hA, ?_⟩
  rw [hA]
  unfold width
  have hw : 0 < k.c - 1 := by omega
  split_ifs with h0
  · subst h0
    cases q with
    | zero => simp
    | succ q =>
      have : (q + 1) * (k.c - 1) + 0 - 1 = q * (k.c - 1) + (k.c - 1 - 1) := by rw [Nat.add_mul]; omega
      rw [this, mul_comm, Nat.mul_add_div hw, Nat.div_eq_of_lt (by omega)]; omega
  · have : q * (k.c - 1) + e - 1 = (k.c - 1) * q + (e - 1) := by rw [mul_comm]; omega
    rw [this, Nat.mul_add_div hw, Nat.div_eq_of_lt (by omega), Nat.add_zero]

theorem div_of {c q e : ℕ} (h : e < c) : (c * q + e) / c = q := by
  rw [Nat.mul_add_div (by omega), Nat.div_eq_of_lt h, Nat.add_zero]

theorem mod_of {c q e : ℕ} (h : e < c) : (c * q + e) % c = e := by rw [Nat.mul_add_mod, Nat.mod_eq_of_lt h]

/-- The converted points have the coordinates of the ends of the segments. -/
theorem conv_coords (h : k.Good scale a d r) {s : Asg (ZMod p)} {m : ℕ → Bool} (hb : k.Bits s m) (hv : k.Vals scale a d s m) :
    List.Forall₂ (fun P G => Coords s P G) k.convPts (k.convG m) := by
  have hc := h.c2
  obtain ⟨q, e, hN, he, hq, hem, hA, hL⟩ := counts hc h.n1
  have sg := segment h hb hv
  have key : ∀ i < k.n, i % k.c ≠ 0 → ∀ j, j = k.nAdd i → Coords s (k.addRes j) (seg k.c m i • k.point (i / k.c)) := by
    rintro i hi h0 j rfl; exact ((sg i hi).2 h0).1
  unfold convPts convG
  refine List.rel_append (List.rel_append ?_ ?_) ?_
  · split_ifs with h0
    · exact List.Forall₂.cons ((sg _ (by omega)).1 h0) List.Forall₂.nil
    · exact List.Forall₂.nil
  · rw [List.forall₂_map_left_iff, List.forall₂_map_right_iff, List.forall₂_same]
    intro t ht
    have ht := List.mem_range.1 ht
    have htq : t < q := by
      rw [hL] at ht; split_ifs at ht <;> omega
    have hcq : k.c * t + k.c ≤ k.c * q := by
      have := Nat.mul_le_mul_left k.c (show t + 1 ≤ q by omega)
      rw [Nat.mul_add] at this; omega
    have := key (k.c * t + (k.c - 1)) (by omega) (by rw [mod_of (by omega)]; omega) ((t + 1) * k.width - 1) (by
      rw [nAdd_eq hc _ _ (by omega)]; unfold width; rw [Nat.add_mul]; omega)
    rw [div_of (by omega)] at this
    exact this
  · split_ifs with hn1 h0
    · -- the last window starts a segment: the last adder ends the segment before
      refine List.Forall₂.cons ?_ List.Forall₂.nil
      rw [hem] at h0
      subst h0
      obtain ⟨q, rfl⟩ : ∃ q', q = q' + 1 := ⟨q - 1, by cases q with | zero => simp at hN; omega | succ q => rfl⟩
      have e2 : k.n - 2 = k.c * q + (k.c - 1) := by rw [hN, Nat.mul_add]; omega
      rw [e2, hA]
      refine key _ (by rw [← e2]; omega) (by rw [mod_of (by omega)]; omega) _ ?_
      rw [nAdd_eq hc _ _ (by omega), Nat.add_mul]; omega
    · refine List.Forall₂.cons ?_ List.Forall₂.nil
      have e2 : k.n - 1 = k.c * q + e := by omega
      rw [hem] at h0
      refine key _ (by omega) (by rw [hem]; exact h0) _ ?_
      rw [hA, e2, nAdd_eq hc _ _ he]; omega
    · exact List.Forall₂.nil

/-- The ends of the segments add up to the hash. -/
theorem convG_sum (hc : 2 ≤ k.c) (hn : 1 ≤ k.n) (m : ℕ → Bool) : (k.convG m).sum = toPoint k.c k.point m k.n := by
  obtain ⟨q, e, hN, he, hq, hem, hA, hL⟩ := counts hc hn
  have ht := toPoint_succ (show 0 < k.c by omega) k.point m (k.n - 1)
  rw [Nat.sub_add_cancel hn, hq] at ht
  have hsum : ∀ L : ℕ, ((List.range L).map fun t => seg k.c m (k.c * t + (k.c - 1)) • k.point t).sum =
      ∑ t ∈ Finset.range L, seg k.c m (k.c * t + (k.c - 1)) • k.point t := fun L => by
    induction L with
    | zero => simp
    | succ L ih => rw [List.range_succ, List.map_append, List.sum_append, ih, Finset.sum_range_succ]; simp
  unfold convG
  rw [List.sum_append, List.sum_append, hsum, hL, ht, hem, hq]
  by_cases h0 : e = 0
  · simp only [if_pos h0, List.sum_singleton]
    subst h0
    cases q with
    | zero =>
      have : k.n = 1 := by simpa using hN
      rw [if_neg (by omega)]
      simp
    | succ q =>
      have e2 : k.n - 2 = k.c * q + (k.c - 1) := by rw [hN, Nat.mul_add]; omega
      rw [if_pos (by rw [hN, Nat.mul_add]; omega), List.sum_singleton, e2, div_of (by omega), Nat.add_sub_cancel, Finset.sum_range_succ]
      abel
  · simp only [if_neg h0]
    rw [if_pos (show k.n > 1 by omega)]
    simp

/-! ### The sum of the segments -/

theorem convG_killed (h : k.Good scale a d r) (m : ℕ → Bool) : ∀ g ∈ k.convG m, r • g = 0 := by
  have hz : ∀ (z : ℤ) t, t ≤ (k.n - 1) / k.c → r • (z • k.point t) = 0 := by
    intro z t ht
    rw [smul_comm, ← h.ord t ht, addOrderOf_nsmul_eq_zero, zsmul_zero]
  have hc := h.c2
  obtain ⟨q, e, hN, he, hq, hem, hA, hL⟩ := counts hc h.n1
  intro g hg
  simp only [convG, List.mem_append, List.mem_map, List.mem_range] at hg
  rcases hg with (hg | ⟨t, ht, rfl⟩) | hg
  · split_ifs at hg
    · rw [List.mem_singleton] at hg; rw [hg]; exact hz _ _ le_rfl
    · simp at hg
  · refine hz _ _ ?_
    rw [hq]; rw [hL] at ht
    split_ifs at ht <;> omega
  · split_ifs at hg
    · rw [List.mem_singleton] at hg; rw [hg]; exact hz _ _ (Nat.div_le_div_right (by omega))
    · rw [List.mem_singleton] at hg; rw [hg]; exact hz _ _ le_rfl
    · simp at hg

theorem sum_killed {l : List (curve A).Point} (h : ∀ g ∈ l, r • g = 0) : r • l.sum = 0 := by
  induction l with
  | nil => simp
  | cons x l ih => rw [List.sum_cons, nsmul_add, h x (by simp), ih fun g hg => h g (by simp [hg]), add_zero]

theorem convPts_pos (h : k.Good scale a d r) : 1 ≤ k.convPts.length := by
  unfold convPts
  simp only [List.length_append]
  have := h.n1
  by_cases h1 : k.n > 1
  · rw [if_pos h1]; simp
  · rw [if_pos (show (k.n - 1) % k.c = 0 by rw [show k.n = 1 by omega]; simp), List.length_singleton]; omega

/-- The point that edwards adder `q` gets as its first argument. -/
def acc (k : Mul p A) (q : ℕ) : Pt (ZMod p) := if q = 0 then k.convRes 0 else k.edRes (q - 1)

theorem conv_vals (h : k.Good scale a d r) {s : Asg (ZMod p)} {m : ℕ → Bool} (hb : k.Bits s m) (hv : k.Vals scale a d s m) (q : ℕ)
    (hq : q < k.convPts.length) : ∃ g, (k.convG m)[q]? = some g ∧ Coords s (k.conv q).p g ∧ r • g = 0 ∧ (k.convRes q).eval s = toEd scale g := by
  have hf := conv_coords h hb hv
  have hl := hf.length_eq
  have hg : q < (k.convG m).length := by omega
  have hcq : Coords s (k.conv q).p (k.convG m)[q] := by
    show Coords s (k.convPts.getD q ⟨[], []⟩) _
    rw [List.getD_eq_getElem _ _ hq]
    exact hf.get hq hg
  have hk := convG_killed h m _ (List.getElem_mem hg)
  refine ⟨(k.convG m)[q], List.getElem?_eq_getElem hg, hcq, hk, ?_⟩
  show (Pt.vars _ _ : Pt (ZMod p)).eval s = _
  rw [eval_vars]
  exact toEd_of_ok h.params hcq (nonTors_of h.odd hk) (hv.conv q hq)

theorem acc_vals (h : k.Good scale a d r) {s : Asg (ZMod p)} {m : ℕ → Bool} (hb : k.Bits s m) (hv : k.Vals scale a d s m) (q : ℕ)
    (hq : q < k.convPts.length) : (k.acc q).eval s = toEd scale ((k.convG m).take (q + 1)).sum := by
  induction q with
  | zero =>
    obtain ⟨g, hg, -, -, e⟩ := conv_vals h hb hv 0 hq
    rw [List.take_add_one, hg]
    simpa [acc] using e
  | succ q ih =>
    obtain ⟨g, hg, -, hk, e⟩ := conv_vals h hb hv (q + 1) hq
    have ih := ih (by omega)
    have hT : r • ((k.convG m).take (q + 1)).sum = 0 := sum_killed fun g hg => convG_killed h m g (List.mem_of_mem_take hg)
    have n1 := nonTors_of h.odd hT
    have n2 := nonTors_of h.odd hk
    have hS : r • (((k.convG m).take (q + 1)).sum + g) = 0 := by rw [nsmul_add, hT, hk, add_zero]
    have n3 := nonTors_of h.odd hS
    have hed := hv.ed q (by omega)
    have e1 : (k.ed q).p1.eval s = toEd scale ((k.convG m).take (q + 1)).sum := ih
    have e2 : (k.ed q).p2.eval s = toEd scale g := e
    rw [e1, e2] at hed
    rw [List.take_add_one, hg, Option.toList_some, List.sum_append, List.sum_singleton, toEd_add h.params _ _ n1 n2 n3]
    have : k.acc (q + 1) = k.edRes q := by simp [acc]
    rw [this]
    exact hed (toEd_on h.params _) (toEd_on h.params _)

/-- The result of the values. -/
theorem result_of_vals (h : k.Good scale a d r) {s : Asg (ZMod p)} {m : ℕ → Bool} (hb : k.Bits s m) (hv : k.Vals scale a d s m) :
    (val s k.x, val s k.y) = toEd scale (toPoint k.c k.point m k.n) := by
  have hl := (conv_coords h hb hv).length_eq
  have h1 := convPts_pos h
  have := acc_vals h hb hv (k.convPts.length - 1) (by omega)
  rw [Nat.sub_add_cancel h1, hl, List.take_length, convG_sum h.c2 h.n1] at this
  rw [hv.res, ← this, ← hl]
  congr 1
  unfold last acc
  split_ifs with h0
  · rw [h0]
  · rw [show k.convPts.length - 2 = k.convPts.length - 1 - 1 by omega]

/-! ### Soundness -/

theorem mem_adders {i : ℕ} (hi : i < k.n) (h0 : i % k.c ≠ 0) : k.adder i ∈ k.adders := by
  unfold adders
  exact List.mem_flatMap.2 ⟨i, List.mem_range.2 hi, by rw [if_neg h0]; simp⟩

theorem adders_mem {q : MontAdd (ZMod p)} (h : q ∈ k.adders) : ∃ i < k.n, i % k.c ≠ 0 ∧ q = k.adder i := by
  obtain ⟨i, hi, hq⟩ := List.mem_flatMap.1 h
  split_ifs at hq with h0
  · cases hq
  · exact ⟨i, List.mem_range.1 hi, h0, List.mem_singleton.1 hq⟩

theorem vals_of_gates (h : k.Good scale a d r) {s : Asg (ZMod p)} {m : ℕ → Bool} (hb : k.Bits s m) (hs : Sat s (k.gates scale a d)) : k.Vals scale a d s m := by
  simp only [gates, sat_append, sat_flatMap, List.mem_range, sat_cons, sat_nil, and_true, Constraint.Holds, eval_const, eval_var, one_mul] at hs
  obtain ⟨⟨⟨⟨h1, h2⟩, h3⟩, h4⟩, h5⟩ := hs
  refine ⟨fun i hi => ?_, fun i hi h0 => montAdd_ok_of_gates (h2 _ (mem_adders hi h0)), fun q hq => convert_ok_of_gates (h3 q hq), fun q hq c1 c2 => ?_, ?_⟩
  · exact lookup3_sound _ _ _ _ s _ _ _ (hb (3 * i) (by omega)) (hb (3 * i + 1) (by omega)) (hb (3 * i + 2) (by omega)) (h1 i hi)
  · show (Pt.vars _ _ : Pt (ZMod p)).eval s = _
    rw [eval_vars]
    exact edAdd_sound h.params.comp c1 c2 (h4 q hq)
  · rw [h5.1, h5.2]; rfl

/-- **C96**: every accepted result is the Pedersen hash of the message to a point: the sum over the windows of the signed digit with its weight times the
base point of the window's segment, as a point of the twisted Edwards curve. -/
theorem mul_sound (h : k.Good scale a d r) {s : Asg (ZMod p)} {m : ℕ → Bool} (hb : k.Bits s m) (hs : Sat s (k.gates scale a d)) :
    (val s k.x, val s k.y) = toEd scale (toPoint k.c k.point m k.n) := result_of_vals h hb (vals_of_gates h hb hs)

/-! ### Completeness -/

theorem vals_of_steps (hp8 : 8 ≤ p) (h : k.Good scale a d r) {s : Asg (ZMod p)} {m : ℕ → Bool} (hb : k.Bits s m) (hs : Sha.Eqs s (k.steps scale a d)) :
    k.Vals scale a d s m := by
  simp only [steps, Sha.eqs_append, Sha.eqs_flatMap, List.mem_range, Sha.eqs_cons] at hs
  obtain ⟨⟨⟨⟨h1, h2⟩, h3⟩, h4⟩, h5⟩ := hs
  refine ⟨fun i hi => ?_, fun i hi h0 => montAdd_ok_of_steps (h2 _ (mem_adders hi h0)), fun q hq => convert_ok_of_steps (h3 q hq), fun q hq c1 c2 => ?_, ?_⟩
  · have := h1 i hi
    simp only [lookSteps, Sha.eqs_cons] at this
    obtain ⟨e1, e2, -⟩ := this
    have b0 := hb (3 * i) (by omega)
    have b1 := hb (3 * i + 1) (by omega)
    have b2 := hb (3 * i + 2) (by omega)
    rw [b0, b1] at e1
    rw [b0, b1, b2] at e2
    have hi : ((0 + (0 + b2f (m (3 * i + 2))) + (0 + (0 + b2f (m (3 * i + 2))) + b2f (m (3 * i + 1))) +
        (0 + (0 + b2f (m (3 * i + 2))) + (0 + (0 + b2f (m (3 * i + 2))) + b2f (m (3 * i + 1))) + b2f (m (3 * i))) : ZMod p)).val =
        (m (3 * i)).toNat + 2 * (m (3 * i + 1)).toNat + 4 * (m (3 * i + 2)).toNat := by
      have : (0 + (0 + b2f (m (3 * i + 2))) + (0 + (0 + b2f (m (3 * i + 2))) + b2f (m (3 * i + 1))) +
          (0 + (0 + b2f (m (3 * i + 2))) + (0 + (0 + b2f (m (3 * i + 2))) + b2f (m (3 * i + 1))) + b2f (m (3 * i))) : ZMod p) =
          (((m (3 * i)).toNat + 2 * (m (3 * i + 1)).toNat + 4 * (m (3 * i + 2)).toNat : ℕ) : ZMod p) := by
        push_cast
        cases m (3 * i) <;> cases m (3 * i + 1) <;> cases m (3 * i + 2) <;> simp <;> ring
      rw [this, ZMod.val_natCast_of_lt]
      have h3 := Bool.toNat_lt (m (3 * i))
      have h4 := Bool.toNat_lt (m (3 * i + 1))
      have h5 := Bool.toNat_lt (m (3 * i + 2))
      omega
    refine ⟨?_, by rw [e1]; cases m (3 * i) <;> cases m (3 * i + 1) <;> simp⟩
    rw [e2]
    simp only [hi, signed3]
    cases m (3 * i) <;> cases m (3 * i + 1) <;> cases m (3 * i + 2) <;> simp
  · show (Pt.vars _ _ : Pt (ZMod p)).eval s = _
    rw [eval_vars]
    exact edAdd_sound h.params.comp c1 c2 (edAdd_gates_of_steps h.params.comp c1 c2 (h4 q hq))
  · rw [h5.1, h5.2.1]; rfl

theorem lookup3_gates_of {c : ℕ → ZMod p} {b : ℕ → ℕ} {b0b1 result : ℕ} {s : Asg (ZMod p)} {x0 x1 x2 : Bool} (h0 : val s (b 0) = b2f x0)
    (h1 : val s (b 1) = b2f x1) (h2 : val s (b 2) = b2f x2) (h : val s result = signed3 c x0 x1 x2 ∧ val s b0b1 = b2f (x0 && x1)) :
    Sat s (lookup3Gates c b b0b1 result) := by
  simp only [lookup3Gates, sat_cons, sat_nil, and_true, Constraint.Holds, eval_sub, eval_add, eval_const, eval_cons, eval_nil, eval_var, h0,
    h1, h2, val_zero, mul_one, add_zero, h.1, h.2]
  cases x0 <;> cases x1 <;> cases x2 <;> simp [signed3] <;> ring

theorem gates_of_steps (hp8 : 8 ≤ p) (h : k.Good scale a d r) {s : Asg (ZMod p)} {m : ℕ → Bool} (hb : k.Bits s m) (hs : Sha.Eqs s (k.steps scale a d)) :
    Sat s (k.gates scale a d) := by
  have hv := vals_of_steps hp8 h hb hs
  simp only [steps, Sha.eqs_append, Sha.eqs_flatMap, List.mem_range, Sha.eqs_cons] at hs
  obtain ⟨⟨⟨⟨-, -⟩, -⟩, h4⟩, h5⟩ := hs
  simp only [gates, sat_append, sat_flatMap, List.mem_range, sat_cons, sat_nil, and_true, Constraint.Holds, eval_const, eval_var, one_mul]
  refine ⟨⟨⟨⟨fun i hi => ?_, fun q hq => ?_⟩, fun q hq => ?_⟩, fun q hq => ?_⟩, h5.1, h5.2.1⟩
  · exact lookup3_gates_of (b := fun j => k.bit (3 * i + j)) (hb (3 * i) (by omega)) (hb (3 * i + 1) (by omega)) (hb (3 * i + 2) (by omega)) (hv.look i hi)
  · obtain ⟨i, hi, h0, rfl⟩ := adders_mem hq
    exact montAdd_gates_of_ok (((segment h hb hv i hi).2 h0).2) (hv.add i hi h0)
  · obtain ⟨g, -, hg, hk, -⟩ := conv_vals h hb hv q hq
    have hn := nonTors_of h.odd hk
    obtain ⟨x, y, n, rfl, e⟩ := hg
    simp only [Pt.eval, Prod.mk.injEq] at e
    exact convert_gates_of_ok (by rw [e.2]; exact hn) (by rw [e.1]; exact x_ne h.params (equation_of n)) (hv.conv q hq)
  · obtain ⟨g, hg, -, hk, e⟩ := conv_vals h hb hv (q + 1) (by omega)
    have ha := acc_vals h hb hv q (by omega)
    have hT : r • ((k.convG m).take (q + 1)).sum = 0 := sum_killed fun g hg => convG_killed h m g (List.mem_of_mem_take hg)
    have e1 : (k.ed q).p1.eval s = toEd scale ((k.convG m).take (q + 1)).sum := ha
    have e2 : (k.ed q).p2.eval s = toEd scale g := e
    refine edAdd_gates_of_steps h.params.comp ?_ ?_ (h4 q hq)
    · rw [e1]; exact toEd_on h.params _
    · rw [e2]; exact toEd_on h.params _

/-! ### The assignment writes every variable once -/

/-- The number of variables after which the component has been allocated. -/
def stop (k : Mul p A) : ℕ := k.eBase + 9 * (k.convPts.length - 1)

/-- The variables of the input and of the result are not among those of the component, and the result is not among the input. -/
structure WF (k : Mul p A) : Prop where
  b0 : k.base ≠ 0
  x0 : k.x ≠ 0
  y0 : k.y ≠ 0
  xy : k.x ≠ k.y
  xb : k.x < k.base ∨ k.stop ≤ k.x
  yb : k.y < k.base ∨ k.stop ≤ k.y
  bits : ∀ i < 3 * k.n, k.bit i < k.base ∧ k.bit i ≠ k.x ∧ k.bit i ≠ k.y

/-- Readable when the variables below `b` have been written. -/
def Rd (k : Mul p A) (b v : ℕ) : Prop := v < b ∧ v ≠ k.x ∧ v ≠ k.y

/-- A block that writes exactly the variables from `a` to `b`. -/
def RB (k : Mul p A) (l : List (Step (ZMod p))) (a b : ℕ) : Prop := a ≤ b ∧ Sha.Blk l (k.Rd b) (fun v => a ≤ v ∧ v < b)

theorem RB.append {l m : List (Step (ZMod p))} {a b c : ℕ} (h1 : k.RB l a b) (h2 : k.RB m b c) : k.RB (l ++ m) a c := by
  obtain ⟨l1, b1⟩ := h1
  obtain ⟨l2, b2⟩ := h2
  refine ⟨by omega, (b1.append b2 ?_).mono ?_ ?_⟩
  · rintro v ⟨hv, -⟩ ⟨h, -⟩; omega
  · rintro v (⟨h, hx⟩ | h)
    · exact ⟨by omega, hx⟩
    · exact h
  · rintro v (h | h) <;> omega

theorem RB.nil (a : ℕ) : k.RB [] a a := ⟨le_rfl, trivial, fun _ h => (by cases h), fun _ h => (by cases h)⟩

theorem RB.loop {f : ℕ → List (Step (ZMod p))} {g : ℕ → ℕ} (n : ℕ) (h : ∀ i < n, k.RB (f i) (g i) (g (i + 1))) :
    k.RB ((List.range n).flatMap f) (g 0) (g n) := by
  induction n with
  | zero => exact RB.nil _
  | succ n ih =>
    rw [List.range_succ, List.flatMap_append]
    refine (ih fun i hi => h i (by omega)).append ?_
    simpa using h n (by omega)

theorem RB.single {v : ℕ} {f : Asg (ZMod p) → ZMod p} (h0 : v ≠ 0) (hx : v ≠ k.x) (hy : v ≠ k.y) (hf : Reads f (k.Rd v)) : k.RB [(v, f)] v (v + 1) := by
  refine ⟨by omega, (Sha.Blk.single h0 hf fun h => by have := h.1; omega).mono ?_ ?_⟩
  · rintro i (⟨h, hi⟩ | rfl)
    · exact ⟨by omega, hi⟩
    · exact ⟨by omega, hx, hy⟩
  · rintro i rfl; omega

/-- The linear combinations of a point only use readable variables. -/
def PtRd (k : Mul p A) (P : Pt (ZMod p)) (b : ℕ) : Prop := P.X.Uses (k.Rd b) ∧ P.Y.Uses (k.Rd b)

theorem PtRd.mono {P : Pt (ZMod p)} {b c : ℕ} (h : k.PtRd P b) (hbc : b ≤ c) : k.PtRd P c :=
  ⟨fun t ht => (h.1 t ht).imp_right fun ⟨h, h'⟩ => ⟨by omega, h'⟩, fun t ht => (h.2 t ht).imp_right fun ⟨h, h'⟩ => ⟨by omega, h'⟩⟩

theorem PtRd.imp {P : Pt (ZMod p)} {b : ℕ} (h : k.PtRd P b) {Q : ℕ → Prop} (hQ : ∀ v, v < b → Q v) : P.X.Uses Q ∧ P.Y.Uses Q :=
  ⟨fun t ht => (h.1 t ht).imp_right fun h => hQ _ h.1, fun t ht => (h.2 t ht).imp_right fun h => hQ _ h.1⟩

theorem ptRd_vars {x y b : ℕ} (hx : k.Rd b x) (hy : k.Rd b y) : k.PtRd (Pt.vars x y) b := ⟨uses_var hx, uses_var hy⟩

theorem RB.montAdd (A' : ZMod p) {q : MontAdd (ZMod p)} {b : ℕ} (h0 : b ≠ 0) (hx : q.x = b) (hy : q.y = b + 1) (hl : q.lambda = b + 2)
    (h : ∀ i < 3, k.Rd (b + 3) (b + i)) (h1 : k.PtRd q.p1 b) (h2 : k.PtRd q.p2 b) : k.RB (q.steps A') b (b + 3) := by
  have R : ∀ {P : Pt (ZMod p)}, k.PtRd P b → Reads (fun s => P.X.eval s) (k.Rd (b + 3)) ∧ Reads (fun s => P.Y.eval s) (k.Rd (b + 3)) := fun hP =>
    ⟨reads_eval _ (hP.mono (by omega)).1, reads_eval _ (hP.mono (by omega)).2⟩
  have rx : k.Rd (b + 3) q.x := hx ▸ h 0 (by omega)
  have ry : k.Rd (b + 3) q.y := hy ▸ h 1 (by omega)
  have rl : k.Rd (b + 3) q.lambda := hl ▸ h 2 (by omega)
  refine ⟨by omega, MontAdd.ssa A' ⟨by omega, by omega, by omega, by omega, by omega, by omega, h1.imp fun v hv => by omega, h2.imp fun v hv => by omega⟩, ?_, ?_⟩
  · intro t ht
    simp only [MontAdd.steps, List.mem_cons, List.not_mem_nil, or_false] at ht
    rcases ht with rfl | rfl | rfl
    · refine ⟨rl, fun s s' hs => ?_⟩
      dsimp only
      rw [agree (h1.mono (Nat.le_add_right b 3)).1 hs, agree (h1.mono (Nat.le_add_right b 3)).2 hs, agree (h2.mono (Nat.le_add_right b 3)).1 hs,
        agree (h2.mono (Nat.le_add_right b 3)).2 hs]
    · refine ⟨rx, fun s s' hs => ?_⟩
      dsimp only
      rw [agree (h1.mono (Nat.le_add_right b 3)).1 hs, agree (h2.mono (Nat.le_add_right b 3)).1 hs, hs _ rl]
    · refine ⟨ry, fun s s' hs => ?_⟩
      dsimp only
      rw [agree (h1.mono (Nat.le_add_right b 3)).1 hs, agree (h1.mono (Nat.le_add_right b 3)).2 hs, hs _ rl, hs _ rx]
  · intro t ht
    simp only [MontAdd.steps, List.mem_cons, List.not_mem_nil, or_false] at ht
    rcases ht with rfl | rfl | rfl <;> (dsimp only; omega)

theorem RB.convert (sc : ZMod p) {q : Convert (ZMod p)} {b : ℕ} (h0 : b ≠ 0) (hx : q.x = b) (hy : q.y = b + 1) (h : ∀ i < 2, k.Rd (b + 2) (b + i))
    (h1 : k.PtRd q.p b) : k.RB (q.steps sc) b (b + 2) := by
  have rx : k.Rd (b + 2) q.x := hx ▸ h 0 (by omega)
  have ry : k.Rd (b + 2) q.y := hy ▸ h 1 (by omega)
  refine ⟨by omega, Convert.ssa sc ⟨by omega, by omega, by omega, h1.imp fun v hv => by omega⟩, ?_, ?_⟩
  · intro t ht
    simp only [Convert.steps, List.mem_cons, List.not_mem_nil, or_false] at ht
    rcases ht with rfl | rfl
    · refine ⟨rx, fun s s' hs => ?_⟩
      dsimp only
      rw [agree (h1.mono (Nat.le_add_right b 2)).1 hs, agree (h1.mono (Nat.le_add_right b 2)).2 hs]
    · refine ⟨ry, fun s s' hs => ?_⟩
      dsimp only
      rw [agree (h1.mono (Nat.le_add_right b 2)).1 hs]
  · intro t ht
    simp only [Convert.steps, List.mem_cons, List.not_mem_nil, or_false] at ht
    rcases ht with rfl | rfl <;> (dsimp only; omega)

theorem RB.edAdd (a' d' : ZMod p) {q : EdAdd (ZMod p)} {b : ℕ} (h0 : b ≠ 0) (hx : q.x = b) (hy : q.y = b + 1) (hbb : q.base = b + 2)
    (h : ∀ i < 9, k.Rd (b + 9) (b + i)) (h1 : k.PtRd q.p1 b) (h2 : k.PtRd q.p2 b) : k.RB (q.steps a' d') b (b + 9) := by
  have rx : k.Rd (b + 9) q.x := hx ▸ h 0 (by omega)
  have ry : k.Rd (b + 9) q.y := hy ▸ h 1 (by omega)
  have r0 : k.Rd (b + 9) q.x1x2 := by have := h 2 (by omega); rwa [← hbb] at this
  have r1 : k.Rd (b + 9) q.x1y2 := by have := h 3 (by omega); rwa [show b + 3 = q.base + 1 by omega] at this
  have r2 : k.Rd (b + 9) q.y1y2 := by have := h 4 (by omega); rwa [show b + 4 = q.base + 2 by omega] at this
  have r3 : k.Rd (b + 9) q.y1x2 := by have := h 5 (by omega); rwa [show b + 5 = q.base + 3 by omega] at this
  have r4 : k.Rd (b + 9) q.prod := by have := h 6 (by omega); rwa [show b + 6 = q.base + 4 by omega] at this
  have r5 : k.Rd (b + 9) q.dprod := by have := h 7 (by omega); rwa [show b + 7 = q.base + 5 by omega] at this
  have r6 : k.Rd (b + 9) q.ax1x2 := by have := h 8 (by omega); rwa [show b + 8 = q.base + 6 by omega] at this
  have g1 := h1.mono (Nat.le_add_right b 9)
  have g2 := h2.mono (Nat.le_add_right b 9)
  refine ⟨by omega, EdAdd.ssa a' d' ⟨by omega, by omega, by omega, by omega, by omega, by omega, h1.imp fun v hv => by omega, h2.imp fun v hv => by omega⟩, ?_, ?_⟩
  · intro t ht
    simp only [EdAdd.steps, List.mem_cons, List.not_mem_nil, or_false] at ht
    rcases ht with rfl | rfl | rfl | rfl | rfl | rfl | rfl | rfl | rfl
    · exact ⟨r0, fun s s' hs => by dsimp only; rw [agree g1.1 hs, agree g2.1 hs]⟩
    · exact ⟨r1, fun s s' hs => by dsimp only; rw [agree g1.1 hs, agree g2.2 hs]⟩
    · exact ⟨r2, fun s s' hs => by dsimp only; rw [agree g1.2 hs, agree g2.2 hs]⟩
    · exact ⟨r3, fun s s' hs => by dsimp only; rw [agree g1.2 hs, agree g2.1 hs]⟩
    · exact ⟨r4, fun s s' hs => by dsimp only; rw [hs _ r0, hs _ r2]⟩
    · exact ⟨r5, fun s s' hs => by dsimp only; rw [hs _ r4]⟩
    · exact ⟨r6, fun s s' hs => by dsimp only; rw [hs _ r0]⟩
    · exact ⟨rx, fun s s' hs => by dsimp only; rw [hs _ r1, hs _ r3, hs _ r5]⟩
    · exact ⟨ry, fun s s' hs => by dsimp only; rw [hs _ r2, hs _ r6, hs _ r5]⟩
  · refine (EdAdd.writes a' d' q).mono ?_
    rintro v (rfl | rfl | h) <;> omega

theorem nAdd_mono {i j : ℕ} (h : i ≤ j) : k.nAdd i ≤ k.nAdd j := by
  induction j with
  | zero => rw [Nat.le_zero.1 h]
  | succ j ih =>
    rcases Nat.lt_or_ge i (j + 1) with h1 | h1
    · have := ih (by omega)
      rw [nAdd]; split_ifs <;> omega
    · rw [show i = j + 1 by omega]

theorem WF.rd (h : k.WF) {v b : ℕ} (h1 : k.base ≤ v) (h2 : v < k.stop) (h3 : v < b) : k.Rd b v := by
  have := h.xb; have := h.yb
  exact ⟨h3, by omega, by omega⟩

theorem WF.ptRd_win (h : k.WF) {i : ℕ} (hi : i < k.n) : k.PtRd (k.win i) (k.base + 2 * (i + 1)) := by
  have hs : k.base + 2 * k.n ≤ k.stop := by unfold stop eBase cBase aBase; omega
  have hb : ∀ j < 3 * k.n, k.Rd (k.base + 2 * (i + 1)) (k.bit j) := fun j hj => by
    have := h.bits j hj; exact ⟨by omega, this.2.1, this.2.2⟩
  constructor
  · intro t ht
    simp only [win, List.mem_cons, List.not_mem_nil, or_false] at ht
    rcases ht with rfl | rfl | rfl | rfl
    · left; rfl
    · right; exact hb _ (by omega)
    · right; exact hb _ (by omega)
    · right; exact h.rd (by unfold b0b1; omega) (by unfold b0b1; omega) (by unfold b0b1; omega)
  · exact uses_var (h.rd (by unfold winY; omega) (by unfold winY; omega) (by unfold winY; omega))

theorem WF.ptRd_add (h : k.WF) {q : ℕ} (hq : q < k.nAdd k.n) : k.PtRd (k.addRes q) (k.aBase + 3 * (q + 1)) := by
  have hs : k.aBase + 3 * k.nAdd k.n ≤ k.stop := by unfold stop eBase cBase; omega
  have hb : k.base ≤ k.aBase := by unfold aBase; omega
  exact ptRd_vars (h.rd (by omega) (by omega) (by omega)) (h.rd (by omega) (by omega) (by omega))

theorem WF.ptRd_conv (h : k.WF) {q : ℕ} (hq : q < k.convPts.length) : k.PtRd (k.convRes q) (k.cBase + 2 * (q + 1)) := by
  have hs : k.cBase + 2 * k.convPts.length ≤ k.stop := by unfold stop eBase; omega
  have hb : k.base ≤ k.cBase := by unfold cBase aBase; omega
  exact ptRd_vars (h.rd (by omega) (by omega) (by omega)) (h.rd (by omega) (by omega) (by omega))

theorem WF.ptRd_ed (h : k.WF) {q : ℕ} (hq : q < k.convPts.length - 1) : k.PtRd (k.edRes q) (k.eBase + 9 * (q + 1)) := by
  have hs : k.eBase + 9 * (k.convPts.length - 1) ≤ k.stop := by unfold stop; omega
  have hb : k.base ≤ k.eBase := by unfold eBase cBase aBase; omega
  exact ptRd_vars (h.rd (by omega) (by omega) (by omega)) (h.rd (by omega) (by omega) (by omega))

theorem adders_flatMap {β : Type} (f : MontAdd (ZMod p) → List β) :
    k.adders.flatMap f = (List.range k.n).flatMap fun i => if i % k.c = 0 then [] else f (k.adder i) := by
  unfold adders
  rw [List.flatMap_assoc]
  congr 1
  funext i
  split_ifs <;> simp

/-- The steps before the result is written. -/
theorem blocks (hc : 2 ≤ k.c) (hn : 1 ≤ k.n) (h : k.WF) :
    k.RB ((List.range k.n).flatMap k.lookSteps ++ k.adders.flatMap (fun m => m.steps A) ++
      ((List.range k.convPts.length).flatMap fun q => (k.conv q).steps scale) ++
      ((List.range (k.convPts.length - 1)).flatMap fun q => (k.ed q).steps a d)) k.base k.stop := by
  have hb0 := h.b0
  have hstop : k.stop = k.eBase + 9 * (k.convPts.length - 1) := rfl
  have heB : k.eBase = k.cBase + 2 * k.convPts.length := rfl
  have hcB : k.cBase = k.aBase + 3 * k.nAdd k.n := rfl
  have haB : k.aBase = k.base + 2 * k.n := rfl
  refine RB.append (b := k.eBase) (RB.append (b := k.cBase) (RB.append (b := k.aBase) ?_ ?_) ?_) ?_
  · refine RB.loop (g := fun i => k.base + 2 * i) k.n fun i hi => ?_
    have hbit : ∀ j < 3, ∀ b, k.base ≤ b → k.Rd b (k.bit (3 * i + j)) := fun j hj b hb => by
      have := h.bits (3 * i + j) (by omega); exact ⟨by omega, this.2.1, this.2.2⟩
    have r1 : k.Rd (k.base + 2 * (i + 1)) (k.base + 2 * i) := h.rd (by omega) (by omega) (by omega)
    have r2 : k.Rd (k.base + 2 * (i + 1)) (k.base + 2 * i + 1) := h.rd (by omega) (by omega) (by omega)
    have s1 : k.RB [(k.b0b1 i, fun s => val s (k.bit (3 * i)) * val s (k.bit (3 * i + 1)))] (k.base + 2 * i) (k.base + 2 * i + 1) :=
      RB.single (v := k.base + 2 * i) (by omega) r1.2.1 r1.2.2 fun s s' hs => by
        have b0 : val s (k.bit (3 * i)) = val s' (k.bit (3 * i)) := hs _ (hbit 0 (by omega) _ (by omega))
        have b1 : val s (k.bit (3 * i + 1)) = val s' (k.bit (3 * i + 1)) := hs _ (hbit 1 (by omega) _ (by omega))
        rw [b0, b1]
    refine s1.append (RB.single (v := k.base + 2 * i + 1) (by omega) r2.2.1 r2.2.2 fun s s' hs => ?_)
    have b0 : val s (k.bit (3 * i)) = val s' (k.bit (3 * i)) := hs _ (hbit 0 (by omega) _ (by omega))
    have b1 : val s (k.bit (3 * i + 1)) = val s' (k.bit (3 * i + 1)) := hs _ (hbit 1 (by omega) _ (by omega))
    have b2 : val s (k.bit (3 * i + 2)) = val s' (k.bit (3 * i + 2)) := hs _ (hbit 2 (by omega) _ (by omega))
    dsimp only
    rw [b0, b1, b2]
  · rw [adders_flatMap]
    have e0 : k.aBase = k.aBase + 3 * k.nAdd 0 := rfl
    rw [hcB]
    conv => arg 3; rw [e0]
    refine RB.loop (g := fun i => k.aBase + 3 * k.nAdd i) k.n fun i hi => ?_
    split_ifs with h0
    · have := nAdd_succ_of_zero h0
      rw [this]
      exact RB.nil _
    · have e := nAdd_succ_of_ne h0
      have hm := nAdd_mono (k := k) (show i + 1 ≤ k.n by omega)
      rw [e, Nat.mul_add, ← add_assoc]
      refine RB.montAdd A (by omega) rfl rfl rfl (fun j hj => h.rd (by omega) (by omega) (by omega)) ?_ ((h.ptRd_win hi).mono (by omega))
      show k.PtRd (if i % k.c = 1 then k.win (i - 1) else k.addRes (k.nAdd i - 1)) _
      split_ifs with h1
      · exact (h.ptRd_win (show i - 1 < k.n by omega)).mono (by omega)
      · have hpos : 1 ≤ k.nAdd i := by
          have he := Nat.mod_lt i (show 0 < k.c by omega)
          have := nAdd_eq hc (i / k.c) (i % k.c) he
          rw [Nat.div_add_mod] at this
          omega
        exact (h.ptRd_add (show k.nAdd i - 1 < k.nAdd k.n by omega)).mono (by omega)
  · refine RB.loop (g := fun q => k.cBase + 2 * q) k.convPts.length fun q hq => ?_
    refine RB.convert scale (by omega) rfl rfl (fun j hj => h.rd (by omega) (by omega) (by omega)) ?_
    show k.PtRd (k.convPts.getD q ⟨[], []⟩) _
    rw [List.getD_eq_getElem _ _ hq]
    have hmem := List.getElem_mem hq
    obtain ⟨q', e, hN, he, hq', hem, hA, hL⟩ := counts hc hn
    have hw : ∀ t, t < q' → k.c * t + k.c ≤ k.c * q' := fun t ht => by
      have := Nat.mul_le_mul_left k.c (show t + 1 ≤ q' by omega)
      rw [Nat.mul_add] at this; omega
    generalize k.convPts[q] = P at hmem
    simp only [convPts, List.mem_append, List.mem_map, List.mem_range] at hmem
    rcases hmem with (hg | ⟨t, ht, rfl⟩) | hg
    · split_ifs at hg
      · rw [List.mem_singleton.1 hg]; exact (h.ptRd_win (show k.n - 1 < k.n by omega)).mono (by omega)
      · simp at hg
    · have h1 : (t + 1) * k.width ≤ (k.nAdd k.n - 1) / k.width * k.width := Nat.mul_le_mul_right _ (by omega)
      have h2 := Nat.div_mul_le_self (k.nAdd k.n - 1) k.width
      have h3 : 1 ≤ (t + 1) * k.width := Nat.mul_pos (by omega) (by unfold width; omega)
      exact (h.ptRd_add (show (t + 1) * k.width - 1 < k.nAdd k.n by omega)).mono (by omega)
    · split_ifs at hg with hn1
      · rw [List.mem_singleton.1 hg]
        have : 1 ≤ k.nAdd k.n := by
          have h2 := nAdd_mono (k := k) (show 2 ≤ k.n by omega)
          have : k.nAdd 2 = 1 := by simp [nAdd, Nat.mod_eq_of_lt (show 1 < k.c by omega)]
          omega
        exact (h.ptRd_add (show k.nAdd k.n - 1 < k.nAdd k.n by omega)).mono (by omega)
      · simp at hg
  · refine RB.loop (g := fun q => k.eBase + 9 * q) (k.convPts.length - 1) fun q hq => ?_
    refine RB.edAdd a d (by omega) rfl rfl rfl (fun j hj => h.rd (by omega) (by omega) (by omega)) ?_ ((h.ptRd_conv (by omega)).mono (by omega))
    show k.PtRd (if q = 0 then k.convRes 0 else k.edRes (q - 1)) _
    split_ifs with h0
    · exact (h.ptRd_conv (by omega)).mono (by omega)
    · exact (h.ptRd_ed (show q - 1 < k.convPts.length - 1 by omega)).mono (by omega)

theorem steps_blk (hg : k.Good scale a d r) (h : k.WF) :
    Ssa (k.steps scale a d) ∧ Writes (k.steps scale a d) (fun v => k.base ≤ v ∧ v < k.stop ∨ v = k.x ∨ v = k.y) := by
  obtain ⟨hle, hb⟩ := blocks (scale := scale) (a := a) (d := d) hg.c2 hg.n1 h
  have hl : k.PtRd k.last k.stop := by
    have h1 := convPts_pos hg
    unfold last
    split_ifs with h0
    · exact (h.ptRd_conv (by omega)).mono (by unfold stop eBase; omega)
    · exact (h.ptRd_ed (show k.convPts.length - 2 < k.convPts.length - 1 by omega)).mono (by unfold stop; omega)
  have hxb := h.xb
  have hyb := h.yb
  have bx := Sha.Blk.single (p := p) (v := k.x) h.x0 (reads_eval k.last.X hl.1) fun h => h.2.1 rfl
  have by' := Sha.Blk.single (p := p) (v := k.y) h.y0 (reads_eval k.last.Y hl.2) fun h => h.2.2 rfl
  have bxy := bx.append by' (by
    rintro v (hv | rfl) e
    · exact hv.2.2 e
    · exact h.xy e)
  have := hb.append bxy (by
    rintro v hv (e | e)
    · exact hv.2.1 e
    · exact hv.2.2 e)
  exact ⟨this.ssa, this.writes⟩

/-- **C96**, completeness: for every message the assignment satisfies the constraints, keeps the bits, and gives the hash. -/
theorem mul_complete (hp8 : 8 ≤ p) (h : k.Good scale a d r) (hw : k.WF) {s : Asg (ZMod p)} {m : ℕ → Bool} (hb : k.Bits s m) :
    Sat (run (k.steps scale a d) s) (k.gates scale a d) ∧ k.Bits (run (k.steps scale a d) s) m ∧
      (val (run (k.steps scale a d) s) k.x, val (run (k.steps scale a d) s) k.y) = toEd scale (toPoint k.c k.point m k.n) := by
  obtain ⟨hs, hwr⟩ := steps_blk h hw
  have hb' : k.Bits (run (k.steps scale a d) s) m := fun i hi => by
    have := hw.bits i hi
    rw [run_keep _ s hwr (by omega)]
    exact hb i hi
  have hg := gates_of_steps hp8 h hb' (run_eq _ hs s)
  exact ⟨hg, hb', mul_sound h hb' hg⟩

/-! ### Collisions -/

theorem toPoint_killed (h : k.Good scale a d r) (m : ℕ → Bool) : r • toPoint k.c k.point m k.n = 0 := by
  rw [← convG_sum h.c2 h.n1]; exact sum_killed (convG_killed h m)

/-- **C98**: for messages of at most `c` windows, two accepted assignments with the same result have the same bits. The bound on the order is the one that
defines `c` in the specification of the hash. -/
theorem mul_inj (h : k.Good scale a d r) (hn : k.n ≤ k.c) (hc : 8 * (16 ^ k.n - 1) < 15 * r) {s s' : Asg (ZMod p)} {m m' : ℕ → Bool} (hb : k.Bits s m)
    (hb' : k.Bits s' m') (hs : Sat s (k.gates scale a d)) (hs' : Sat s' (k.gates scale a d)) (hx : val s k.x = val s' k.x) (hy : val s k.y = val s' k.y) :
    ∀ i < 3 * k.n, m i = m' i := by
  have e1 := mul_sound h hb hs
  have e2 := mul_sound h hb' hs'
  rw [hx, hy, e2] at e1
  have := toEd_inj h.params (nonTors_of h.odd (toPoint_killed h m')) (nonTors_of h.odd (toPoint_killed h m)) e1
  exact toPoint_inj h.n1 hn (h.ord 0 (Nat.zero_le _)) hc this.symm

/-! ### Padding -/

/-- The message padded with zeros. -/
def padMsg (len : ℕ) (m : ℕ → Bool) : ℕ → Bool := fun i => if i < len then m i else false

/-- The component of a padded input. -/
structure Padded (k : Mul p A) (len : ℕ) (input : ℕ → ℕ) (padBase : ℕ) : Prop where
  bit : k.bit = padBit len input padBase
  n : k.n = padWindows len
  pos : padBase ≠ 0
  fresh : ∀ i < len, input i < padBase

theorem padWindows_eq (len : ℕ) : 3 * padWindows len = if len % 3 = 0 then len else len + (3 - len % 3) := by
  unfold padWindows
  split_ifs with h <;> omega

/-- **C97**, the part that holds: if the padding variables have the value 0, an accepted result is the hash of the message padded with zeros. Missing: no
constraint says that they have this value. -/
theorem padded_sound_partial (h : k.Good scale a d r) {len : ℕ} {input : ℕ → ℕ} {padBase : ℕ} (hp : k.Padded len input padBase) {s : Asg (ZMod p)}
    {m : ℕ → Bool} (hb : ∀ i < len, val s (input i) = b2f (m i)) (hz : ∀ j < 3 * k.n - len, val s (padBase + j) = 0) (hs : Sat s (k.gates scale a d)) :
    (val s k.x, val s k.y) = toEd scale (toPoint k.c k.point (padMsg len m) k.n) := by
  refine mul_sound h (fun i hi => ?_) hs
  rw [hp.bit, padBit, padMsg]
  split_ifs with hl
  · exact hb i hl
  · rw [hz (i - len) (by omega)]; rfl

/-- If the length is a multiple of 3 nothing is padded, and the result is the hash of the message. -/
theorem unpadded_sound (h : k.Good scale a d r) {len : ℕ} {input : ℕ → ℕ} {padBase : ℕ} (hp : k.Padded len input padBase) (h3 : len % 3 = 0)
    {s : Asg (ZMod p)} {m : ℕ → Bool} (hb : ∀ i < len, val s (input i) = b2f (m i)) (hs : Sat s (k.gates scale a d)) :
    (val s k.x, val s k.y) = toEd scale (toPoint k.c k.point m k.n) := by
  have e := padWindows_eq len
  rw [if_pos h3, ← hp.n] at e
  refine mul_sound h (fun i hi => ?_) hs
  rw [hp.bit, padBit, if_pos (by omega)]
  exact hb i (by omega)

/-- Flipping the last bit of the message changes the hash. -/
theorem toPoint_flip (h : k.Good scale a d r) {m m' : ℕ → Bool} (he : ∀ i, i ≠ 3 * k.n - 1 → m i = m' i) (h0 : m (3 * k.n - 1) = false)
    (h1 : m' (3 * k.n - 1) = true) : toPoint k.c k.point m k.n ≠ toPoint k.c k.point m' k.n := by
  have hn := h.n1
  obtain ⟨n, hN⟩ : ∃ n, k.n = n + 1 := ⟨k.n - 1, by omega⟩
  have ho := h.ord' (show n < k.n by omega)
  rw [hN] at he h0 h1 ⊢
  unfold toPoint
  rw [Finset.sum_range_succ, Finset.sum_range_succ]
  have hrest : ∑ i ∈ Finset.range n, (enc m i * 16 ^ (i % k.c)) • k.point (i / k.c) = ∑ i ∈ Finset.range n, (enc m' i * 16 ^ (i % k.c)) • k.point (i / k.c) := by
    refine Finset.sum_congr rfl fun i hi => ?_
    have hi := Finset.mem_range.1 hi
    unfold enc
    rw [he (3 * i) (by omega), he (3 * i + 1) (by omega), he (3 * i + 2) (by omega)]
  have henc : enc m' n = -enc m n := by
    unfold enc
    rw [he (3 * n) (by omega), he (3 * n + 1) (by omega), show m (3 * n + 2) = false from h0, show m' (3 * n + 2) = true from h1]
    simp
  rw [hrest, henc]
  intro e
  have e := add_left_cancel e
  obtain ⟨Q, hQ⟩ : ∃ Q, Q = (enc m n * 16 ^ (n % k.c)) • k.point (n / k.c) := ⟨_, rfl⟩
  rw [neg_mul, neg_zsmul, ← hQ] at e
  have h2 : (2 : ℕ) • Q = 0 := by rw [two_nsmul]; nth_rewrite 1 [e]; exact neg_add_cancel Q
  have hr : r • Q = 0 := by rw [hQ, smul_comm, ← ho, addOrderOf_nsmul_eq_zero, zsmul_zero]
  obtain ⟨q, hq⟩ : ∃ q, r = 2 * q + 1 := ⟨r / 2, by have := h.odd; omega⟩
  rw [hq, add_nsmul, mul_nsmul, h2, nsmul_zero, one_nsmul, zero_add, hQ] at hr
  obtain ⟨d1, d2⟩ := digit_bound m n (n % k.c)
  have hpp : (0 : ℤ) < 16 ^ (n % k.c) := by positivity
  refine smul_ne ho (by omega) (h.lt (i := n) ?_) hr
  rw [pow_succ]; omega

/-- **C97**, negation: if the length of the input is not a multiple of 3, the input does not determine the result. For every message there are two accepted
assignments with the same input and different results. -/
theorem padding_unconstrained (hp8 : 8 ≤ p) (h : k.Good scale a d r) (hw : k.WF) {len : ℕ} {input : ℕ → ℕ} {padBase : ℕ} (hp : k.Padded len input padBase)
    (h3 : len % 3 ≠ 0) {s : Asg (ZMod p)} {m : ℕ → Bool} (hb : ∀ i < len, val s (input i) = b2f (m i)) :
    ∃ s1 s2 : Asg (ZMod p), (∀ i < len, val s1 (input i) = b2f (m i) ∧ val s2 (input i) = b2f (m i)) ∧ Sat s1 (k.gates scale a d) ∧
      Sat s2 (k.gates scale a d) ∧ (val s1 k.x, val s1 k.y) ≠ (val s2 k.x, val s2 k.y) := by
  have e := padWindows_eq len
  rw [if_neg h3, ← hp.n] at e
  let M : Bool → ℕ → Bool := fun b i => if i < len then m i else b && decide (i = 3 * k.n - 1)
  let S : Bool → Asg (ZMod p) := fun b v => if padBase ≤ v then b2f (M b (v - padBase + len)) else s v
  have hS : ∀ b, k.Bits (S b) (M b) := by
    intro b i hi
    rw [hp.bit, padBit]
    split_ifs with hl
    · have := hp.fresh i hl
      have e1 : val (S b) (input i) = val s (input i) := val_congr (by simp only [S]; rw [if_neg (by omega)])
      rw [e1, hb i hl]
      simp only [M]; rw [if_pos hl]
    · have hpos := hp.pos
      have e1 : val (S b) (padBase + (i - len)) = S b (padBase + (i - len)) := val_pos _ (by omega)
      rw [e1]
      simp only [S]
      rw [if_pos (by omega), show padBase + (i - len) - padBase + len = i by omega]
  have key := fun b => mul_complete hp8 h hw (hS b)
  refine ⟨run (k.steps scale a d) (S false), run (k.steps scale a d) (S true), fun i hi => ?_, (key false).1, (key true).1, ?_⟩
  · have hin : ∀ b, val (run (k.steps scale a d) (S b)) (input i) = b2f (m i) := fun b => by
      have := (key b).2.1 i (by omega)
      rw [hp.bit, padBit, if_pos hi] at this
      rw [this]
      simp only [M]; rw [if_pos hi]
    exact ⟨hin false, hin true⟩
  · rw [(key false).2.2, (key true).2.2]
    intro heq
    have := toEd_inj h.params (nonTors_of h.odd (toPoint_killed h _)) (nonTors_of h.odd (toPoint_killed h _)) heq
    refine toPoint_flip h ?_ ?_ ?_ this
    · intro i hi
      simp only [M]
      split_ifs
      · rfl
      · simp [hi]
    · simp only [M]; rw [if_neg (by omega)]; rfl
    · simp only [M]; rw [if_neg (by omega)]; simp

end Mul
end
/-! ### Concrete cases -/

namespace Ex

instance fact_prime_523 : Fact (Nat.Prime 523) := ⟨by norm_num⟩

/-- A small curve with a subgroup of order 71: `y^2 = x^3 + 87 x^2 + x` over the field of 523 elements. -/
theorem params : Params (87 : ZMod 523) 1 89 85 :=
  ⟨by decide, by decide, by decide, by decide, ⟨52, by decide, by decide⟩, by
    exact_mod_cast Jubjub.nonsquare_of_pow 523 (by decide +kernel) 85 (by decide +kernel) (by decide +kernel) (by decide +kernel)⟩

theorem nonsing {x y : ZMod 523} (h : y ^ 2 = x ^ 3 + 87 * x ^ 2 + x) (hy : y ≠ 0) : (curve (87 : ZMod 523)).Nonsingular x y := by
  rw [WeierstrassCurve.Affine.nonsingular_iff', WeierstrassCurve.Affine.equation_iff]
  simp only [curve, zero_mul, add_zero, one_mul]
  refine ⟨by linear_combination h, Or.inr ?_⟩
  intro e
  have : (2 : ZMod 523) * y = 0 := by linear_combination e
  exact hy ((mul_eq_zero.1 this).resolve_left (by decide))

def P : (curve (87 : ZMod 523)).Point := .some 31 375 (nonsing (by decide) (by decide))

theorem dbl {x y x' y' l : ZMod 523} (n : (curve (87 : ZMod 523)).Nonsingular x y) (n' : (curve (87 : ZMod 523)).Nonsingular x' y')
    (h : y ≠ -y ∧ 2 * y * l = 3 * x ^ 2 + 2 * 87 * x + 1 ∧ x' = l ^ 2 - 87 - x - x ∧ y' = l * (x - x') - y) :
    (Point.some x y n + .some x y n : (curve (87 : ZMod 523)).Point) = .some x' y' n' := by
  obtain ⟨h1, h2, rfl, rfl⟩ := h
  obtain ⟨_, e⟩ := add_cases n n l (Or.inr ⟨rfl, h1, h2⟩)
  exact e

theorem two_P : (2 : ℕ) • P = .some 451 303 (nonsing (by decide) (by decide)) := by rw [two_nsmul]; exact dbl (l := 230) _ _ (by decide)
theorem four_P : (4 : ℕ) • P = .some 472 299 (nonsing (by decide) (by decide)) := by
  rw [show 4 = 2 + 2 from rfl, add_nsmul, two_P]; exact dbl (l := 320) _ _ (by decide)
theorem eight_P : (8 : ℕ) • P = .some 272 160 (nonsing (by decide) (by decide)) := by
  rw [show 8 = 4 + 4 from rfl, add_nsmul, four_P]; exact dbl (l := 439) _ _ (by decide)
theorem nine_P : (9 : ℕ) • P = .some 383 28 (nonsing (by decide) (by decide)) := by
  rw [show 9 = 8 + 1 from rfl, add_nsmul, eight_P, one_nsmul]
  obtain ⟨_, e⟩ := add_cases (nonsing (x := 272) (y := 160) (by decide) (by decide)) (nonsing (x := 31) (y := 375) (by decide) (by decide)) 36
    (Or.inl ⟨by decide, by decide⟩)
  exact e
theorem p18 : (18 : ℕ) • P = .some 105 505 (nonsing (by decide) (by decide)) := by
  rw [show 18 = 9 + 9 from rfl, add_nsmul, nine_P]; exact dbl (l := 64) _ _ (by decide)
theorem p36 : (36 : ℕ) • P = .some 13 364 (nonsing (by decide) (by decide)) := by
  rw [show 36 = 18 + 18 from rfl, add_nsmul, p18]; exact dbl (l := 288) _ _ (by decide)
theorem p72 : (72 : ℕ) • P = P := by
  rw [show 72 = 36 + 36 from rfl, add_nsmul, p36]; exact dbl (l := 511) _ _ (by decide)

theorem p71 : (71 : ℕ) • P = 0 := by
  have h := p72
  rw [show 72 = 71 + 1 from rfl, add_nsmul, one_nsmul] at h
  exact add_eq_right.1 h

theorem order (t : ℕ) (ht : t ≤ 1) : addOrderOf ((t + 1) • P) = 71 := by
  have : Fact (Nat.Prime 71) := ⟨by norm_num⟩
  refine addOrderOf_eq_prime ?_ ?_
  · rw [smul_comm, p71, nsmul_zero]
  · rcases Nat.le_one_iff_eq_zero_or_eq_one.1 ht with rfl | rfl
    · rw [one_nsmul]; exact WeierstrassCurve.Affine.Point.some_ne_zero _
    · rw [two_P]; exact WeierstrassCurve.Affine.Point.some_ne_zero _

/-- Seven bits in variables 3 to 9, padded with variables 10 and 11; two chunks in a segment, three windows, two segments. -/
def mul : Mul 523 (87 : ZMod 523) := ⟨2, 3, Mul.padBit 7 (fun i => 3 + i) 10, fun t => (t + 1) • P, 1, 2, 12⟩

theorem good : mul.Good 1 89 85 71 := ⟨params, by decide, by decide, order, by norm_num, by decide⟩

theorem wf : mul.WF := ⟨by decide, by decide, by decide, by decide, by decide, by decide, by decide⟩

theorem padded : mul.Padded 7 (fun i => 3 + i) 10 := ⟨rfl, rfl, by decide, by decide⟩

/-- The message 1, 0, 1, 1, 0, 0, 1. -/
def msg (i : ℕ) : Bool := i == 0 || i == 2 || i == 3 || i == 6
def start : Asg (ZMod 523) := fun v => if v < 10 then b2f (msg (v - 3)) else 0

/-- The assignment with the padding of the constructor is accepted, and the result is the hash. -/
example : let s := run (mul.steps 1 89 85) start
    Sat s (mul.gates 1 89 85) ∧ (val s 1, val s 2) = toEd 1 (toPoint 2 (fun t => (t + 1) • P) msg 3) := by
  have h := Mul.mul_complete (by norm_num) good wf (s := start) (m := msg) (by unfold Mul.Bits; decide)
  exact ⟨h.1, h.2.2⟩

/-- There are also accepted assignments with different results. -/
example : ∃ s1 s2 : Asg (ZMod 523), (∀ i < 7, val s1 (3 + i) = b2f (msg i) ∧ val s2 (3 + i) = b2f (msg i)) ∧ Sat s1 (mul.gates 1 89 85) ∧
    Sat s2 (mul.gates 1 89 85) ∧ (val s1 1, val s1 2) ≠ (val s2 1, val s2 2) :=
  Mul.padding_unconstrained (by norm_num) good wf padded (by norm_num) (s := start) (m := msg) (by decide)

/-- A component of one window. -/
def small : Mul 523 (87 : ZMod 523) := ⟨2, 1, fun i => 3 + i, fun t => (t + 1) • P, 1, 2, 6⟩

example (s s' : Asg (ZMod 523)) (m m' : ℕ → Bool) (hb : ∀ i < 3, val s (3 + i) = b2f (m i)) (hb' : ∀ i < 3, val s' (3 + i) = b2f (m' i))
    (hs : Sat s (small.gates 1 89 85)) (hs' : Sat s' (small.gates 1 89 85)) (hx : val s 1 = val s' 1) (hy : val s 2 = val s' 2) : ∀ i < 3, m i = m' i :=
  Mul.mul_inj (k := small) (r := 71) ⟨params, by decide, by decide, fun t ht => order t (le_trans ht (by decide)), by norm_num, by decide⟩ (by decide) (by decide) hb hb' hs hs' hx hy

end Ex

end Pedersen
end R1cs
end Verif
