import Verif.Props.R1csPedersen
import Mathlib.Algebra.Polynomial.Roots
import Mathlib.Tactic.ComputeDegree

/-!
# C99: an accepted Pedersen hash does not make its input bits
-/

set_option linter.unusedSectionVars false
set_option linter.unusedSimpArgs false

namespace Verif
namespace R1cs
namespace Pedersen

open Curve Montgomery WeierstrassCurve.Affine Verif.Pedersen

section
variable {p : ℕ} [Fact p.Prime] {A : ZMod p}

/-- The value of the bilinear interpolation of a table of four entries. -/
def bilin (c : ℕ → ZMod p) (u v : ZMod p) : ZMod p := c 0 + u * (c 1 - c 0) + v * (c 2 - c 0) + u * v * (c 3 - c 2 - c 1 + c 0)

theorem bilin_bits (c : ℕ → ZMod p) (u v : Bool) : bilin c (b2f u) (b2f v) = c (u.toNat + 2 * v.toNat) := by
  unfold bilin
  cases u <;> cases v <;> (simp; try ring)

/-- Tables in which the columns differ in the first coordinate and no entry has second coordinate 0: every entry is also the value at a point whose first
coordinate is not a bit. -/
theorem other_point (hp8 : 8 ≤ p) (cx cy : ℕ → ZMod p) (h0 : cx 2 ≠ cx 0) (h1 : cx 3 ≠ cx 1) (b0 b1 : Bool) (hy : cy (b0.toNat + 2 * b1.toNat) ≠ 0) :
    ∃ t v : ZMod p, ¬ IsBit t ∧ bilin cx t v = cx (b0.toNat + 2 * b1.toNat) ∧ bilin cy t v ≠ 0 := by
  have hsx : bilin cx (b2f b0) (b2f b1) = cx (b0.toNat + 2 * b1.toNat) := bilin_bits cx b0 b1
  have hsy : bilin cy (b2f b0) (b2f b1) ≠ 0 := by rw [bilin_bits]; exact hy
  set x := cx (b0.toNat + 2 * b1.toNat) with hx
  let D : Polynomial (ZMod p) := Polynomial.C (cx 2 - cx 0) + Polynomial.C (cx 3 - cx 2 - cx 1 + cx 0) * Polynomial.X
  let N : Polynomial (ZMod p) := (Polynomial.C (cy 0) + Polynomial.C (cy 1 - cy 0) * Polynomial.X) * D +
    (Polynomial.C (x - cx 0) - Polynomial.C (cx 1 - cx 0) * Polynomial.X) *
      (Polynomial.C (cy 2 - cy 0) + Polynomial.C (cy 3 - cy 2 - cy 1 + cy 0) * Polynomial.X)
  let q : Polynomial (ZMod p) := Polynomial.X * (Polynomial.X - Polynomial.C 1) * D * N
  have eD : ∀ t, D.eval t = (cx 2 - cx 0) + (cx 3 - cx 2 - cx 1 + cx 0) * t := by intro t; simp [D]
  have eN : ∀ t, N.eval t = (cy 0 + (cy 1 - cy 0) * t) * D.eval t + (x - cx 0 - (cx 1 - cx 0) * t) * ((cy 2 - cy 0) + (cy 3 - cy 2 - cy 1 + cy 0) * t) := by
    intro t; simp [N]
  have hDb : D.eval (b2f b0) ≠ 0 := by
    rw [eD]
    cases b0
    · simpa [sub_eq_zero] using h0
    · intro e
      apply h1
      have e' : cx 2 - cx 0 + (cx 3 - cx 2 - cx 1 + cx 0) * 1 = 0 := e
      linear_combination e'
  have hNb : N.eval (b2f b0) ≠ 0 := by
    intro e
    have key : bilin cy (b2f b0) (b2f b1) * D.eval (b2f b0) = N.eval (b2f b0) := by
      rw [eN, ← hsx, eD]
      unfold bilin
      ring
    rw [e] at key
    exact (mul_ne_zero hsy hDb) key
  have hq : q ≠ 0 := by
    refine mul_ne_zero (mul_ne_zero (mul_ne_zero Polynomial.X_ne_zero (Polynomial.X_sub_C_ne_zero _)) ?_) ?_
    · intro e; exact hDb (by rw [e, Polynomial.eval_zero])
    · intro e; exact hNb (by rw [e, Polynomial.eval_zero])
  have hdeg : q.natDegree ≤ 5 := by
    simp only [q, N, D]
    compute_degree
  obtain ⟨t, ht⟩ := Polynomial.exists_eval_ne_zero_of_natDegree_lt_card q hq (by
    rw [Cardinal.mk_fintype, ZMod.card]
    exact_mod_cast (by omega : q.natDegree < p))
  have ht' : t * (t - 1) * D.eval t * N.eval t ≠ 0 := by simpa [q] using ht
  have hN : N.eval t ≠ 0 := right_ne_zero_of_mul ht'
  have hD : D.eval t ≠ 0 := right_ne_zero_of_mul (left_ne_zero_of_mul ht')
  have ht1 := left_ne_zero_of_mul (left_ne_zero_of_mul ht')
  refine ⟨t, (x - cx 0 - (cx 1 - cx 0) * t) / D.eval t, ?_, ?_, ?_⟩
  · rintro (e | e)
    · rw [e, zero_mul] at ht1; exact ht1 rfl
    · rw [e, sub_self, mul_zero] at ht1; exact ht1 rfl
  · have := div_mul_cancel₀ (x - cx 0 - (cx 1 - cx 0) * t) hD
    unfold bilin
    rw [eD] at this ⊢
    linear_combination this
  · intro e
    apply hN
    have := div_mul_cancel₀ (x - cx 0 - (cx 1 - cx 0) * t) hD
    unfold bilin at e
    rw [eN]
    linear_combination D.eval t * e - ((cy 2 - cy 0) + (cy 3 - cy 2 - cy 1 + cy 0) * t) * this

theorem coord_ne {r : ℕ} (hr : r % 2 = 1) {G : (curve A).Point} (hG : G ≠ 0) (h : r • G = 0) : (coord G).2 ≠ 0 := by
  have := nonTors_of hr h
  obtain ⟨x, y, n, rfl, e⟩ := coords_of_ne hG
  rw [e]
  exact this

theorem coord_fst_ne {G H : (curve A).Point} (hG : G ≠ 0) (hH : H ≠ 0) (h1 : G - H ≠ 0) (h2 : G + H ≠ 0) : (coord G).1 ≠ (coord H).1 := by
  obtain ⟨x1, y1, n1, e1, f1⟩ := coords_of_ne hG
  obtain ⟨x2, y2, n2, e2, f2⟩ := coords_of_ne hH
  rw [f1, f2]
  have := x_ne_of (s := fun _ => 0) (P := ⟨Lc.const x1, Lc.const y1⟩) (Q := ⟨Lc.const x2, Lc.const y2⟩) (G := G) (H := H)
    ⟨x1, y1, n1, e1, by simp [Pt.eval]⟩ ⟨x2, y2, n2, e2, by simp [Pt.eval]⟩ h1 h2
  simpa using this

namespace Mul
variable {k : Mul p A} {scale a d : ZMod p} {r : ℕ}

/-- Small multiples of the start of a window are not zero. -/
theorem start_ne (h : k.Good scale a d r) {i : ℕ} (hi : i < k.n) {j : ℕ} (hj0 : j ≠ 0) (hj : j ≤ 4) : (j : ℕ) • k.start i ≠ 0 := by
  have e : (j : ℕ) • k.start i = ((j : ℤ) * 16 ^ (i % k.c)) • k.point (i / k.c) := by
    rw [start_eq, ← mul_smul, ← natCast_zsmul]
    congr 1
  have hp : (0 : ℤ) < 16 ^ (i % k.c) := by positivity
  have hj1 : (1 : ℤ) ≤ (j : ℤ) := by omega
  have hj4 : (j : ℤ) ≤ 4 := by omega
  have hab : |(j : ℤ) * 16 ^ (i % k.c)| = (j : ℤ) * 16 ^ (i % k.c) := abs_of_nonneg (by positivity)
  rw [e]
  refine smul_ne (h.ord' hi) ?_ (h.lt (i := i) ?_)
  · rw [hab]; nlinarith
  · rw [hab, pow_succ]; nlinarith

theorem start_killed (h : k.Good scale a d r) {i : ℕ} (hi : i < k.n) (j : ℕ) : r • (j • k.start i) = 0 := by
  have h0 : r • k.point (i / k.c) = 0 := by rw [← h.ord' hi]; exact addOrderOf_nsmul_eq_zero _
  rw [start_eq, smul_comm r j, smul_comm r, h0, nsmul_zero, nsmul_zero]

theorem tab_props (h : k.Good scale a d r) {i : ℕ} (hi : i < k.n) :
    k.tabX i 2 ≠ k.tabX i 0 ∧ k.tabX i 3 ≠ k.tabX i 1 ∧ ∀ j ≤ 3, k.tabY i j ≠ 0 := by
  have n1 := start_ne h hi (j := 1) (by norm_num) (by norm_num)
  have n2 := start_ne h hi (j := 2) (by norm_num) (by norm_num)
  have n3 := start_ne h hi (j := 3) (by norm_num) (by norm_num)
  have n4 := start_ne h hi (j := 4) (by norm_num) (by norm_num)
  refine ⟨?_, ?_, fun j hj => ?_⟩
  · unfold tabX
    rw [current_eq, current_eq]
    refine coord_fst_ne n3 n1 ?_ ?_
    · rw [show (2 + 1 : ℕ) = 2 + (0 + 1) from rfl, add_nsmul, add_sub_cancel_right]
      exact n2
    · rw [← add_nsmul]; exact n4
  · unfold tabX
    rw [current_eq, current_eq]
    refine coord_fst_ne n4 n2 ?_ ?_
    · rw [show (3 + 1 : ℕ) = 2 + (1 + 1) from rfl, add_nsmul, add_sub_cancel_right]
      exact n2
    · rw [← add_nsmul]
      intro e
      obtain ⟨q, hq⟩ : ∃ q, r = 2 * q + 1 := ⟨r / 2, by have := h.odd; omega⟩
      have hk := start_killed h hi 3
      have e' : (2 : ℕ) • ((3 : ℕ) • k.start i) = 0 := by rw [← mul_nsmul']; exact e
      rw [hq, add_nsmul, mul_nsmul, e', nsmul_zero, one_nsmul, zero_add] at hk
      exact n3 hk
  · unfold tabY
    rw [current_eq]
    exact coord_ne h.odd (start_ne h hi (by omega) (by omega)) (start_killed h hi _)

/-! ### Assignments that differ in one window -/

/-- The variables that the other assignment changes: the input of window `i` and the product of its first two bits. -/
def Changed (k : Mul p A) (i v : ℕ) : Prop := v = k.bit (3 * i) ∨ v = k.bit (3 * i + 1) ∨ v = k.bit (3 * i + 2) ∨ v = k.b0b1 i

/-- Two assignments give a point the same coordinates. -/
def Same (s s' : Asg (ZMod p)) (P : Pt (ZMod p)) : Prop := P.X.eval s' = P.X.eval s ∧ P.Y.eval s' = P.Y.eval s

theorem montAdd_same {s s' : Asg (ZMod p)} {q : MontAdd (ZMod p)} (h1 : Same s s' q.p1) (h2 : Same s s' q.p2) (hx : val s' q.x = val s q.x)
    (hy : val s' q.y = val s q.y) (hl : val s' q.lambda = val s q.lambda) (h : Sat s (q.gates A)) : Sat s' (q.gates A) := by
  simpa only [MontAdd.gates, sat_cons, sat_nil, Constraint.Holds, eval_sub, eval_add, eval_var, eval_const, h1.1, h1.2, h2.1, h2.2, hx, hy, hl] using h

theorem convert_same {s s' : Asg (ZMod p)} {q : Convert (ZMod p)} (h1 : Same s s' q.p) (hx : val s' q.x = val s q.x)
    (hy : val s' q.y = val s q.y) (h : Sat s (q.gates scale)) : Sat s' (q.gates scale) := by
  simpa only [Convert.gates, sat_cons, sat_nil, Constraint.Holds, eval_sub, eval_add, eval_smul, eval_var, eval_const, h1.1, h1.2, hx, hy] using h

theorem edAdd_same {s s' : Asg (ZMod p)} {q : EdAdd (ZMod p)} (h1 : Same s s' q.p1) (h2 : Same s s' q.p2) (hx : val s' q.x = val s q.x)
    (hy : val s' q.y = val s q.y) (hb : ∀ i < 7, val s' (q.base + i) = val s (q.base + i)) (h : Sat s (q.gates a d)) : Sat s' (q.gates a d) := by
  have e0 : val s' q.base = val s q.base := hb 0 (by norm_num)
  simpa only [EdAdd.gates, EdAdd.x1x2, EdAdd.x1y2, EdAdd.y1y2, EdAdd.y1x2, EdAdd.prod, EdAdd.dprod, EdAdd.ax1x2, sat_cons, sat_nil, Constraint.Holds,
    eval_cons, eval_nil, val_zero, eval_sub, eval_add, eval_var, eval_const, h1.1, h1.2, h2.1, h2.2, hx, hy, e0, hb 1 (by norm_num), hb 2 (by norm_num),
    hb 3 (by norm_num), hb 4 (by norm_num), hb 5 (by norm_num), hb 6 (by norm_num)] using h

theorem win_eval_bilin {s : Asg (ZMod p)} {i : ℕ} {u v : ZMod p} (h0 : val s (k.bit (3 * i)) = u) (h1 : val s (k.bit (3 * i + 1)) = v)
    (h2 : val s (k.b0b1 i) = u * v) : (k.win i).X.eval s = bilin (k.tabX i) u v := by
  unfold win bilin
  simp only [eval_cons, eval_nil, val_zero, h0, h1, h2]
  ring

/-- **C99**, negation: the constraints do not make the input bits. For every accepted assignment with a message as input and every window there is another
accepted assignment with the same result in which the first input variable of the window is not a bit; the two differ only in the three input variables of
the window and in the product of the first two. -/
theorem input_not_bits (hp8 : 8 ≤ p) (h : k.Good scale a d r) (hw : k.WF) (hbit : ∀ i < 3 * k.n, k.bit i ≠ 0)
    (hinj : ∀ i < 3 * k.n, ∀ j < 3 * k.n, k.bit i = k.bit j → i = j) {s : Asg (ZMod p)} {m : ℕ → Bool} (hb : k.Bits s m)
    (hs : Sat s (k.gates scale a d)) {i : ℕ} (hi : i < k.n) :
    ∃ s' : Asg (ZMod p), Sat s' (k.gates scale a d) ∧ ¬ IsBit (val s' (k.bit (3 * i))) ∧ (∀ v, ¬ k.Changed i v → s' v = s v) ∧
      val s' k.x = val s k.x ∧ val s' k.y = val s k.y := by
  have hv := vals_of_gates h hb hs
  obtain ⟨hY, hB⟩ := hv.look i hi
  obtain ⟨g1, g2, g3⟩ := tab_props h hi
  have hj3 : (m (3 * i)).toNat + 2 * (m (3 * i + 1)).toNat ≤ 3 := by
    have := Bool.toNat_lt (m (3 * i)); have := Bool.toNat_lt (m (3 * i + 1)); omega
  obtain ⟨t, v, ht, hx, hy⟩ := other_point hp8 (k.tabX i) (k.tabY i) g1 g2 (m (3 * i)) (m (3 * i + 1)) (g3 _ hj3)
  have h2 : (2 : ZMod p) ≠ 0 := by
    have h2 : ((2 : ℕ) : ZMod p) ≠ 0 := by
      rw [Ne, ZMod.natCast_eq_zero_iff]
      exact fun e => absurd (Nat.le_of_dvd (by norm_num) e) (by omega)
    exact_mod_cast h2
  let w : ZMod p := (bilin (k.tabY i) t v - val s (k.winY i)) / (2 * bilin (k.tabY i) t v)
  have hwv : 2 * bilin (k.tabY i) t v * w = bilin (k.tabY i) t v - val s (k.winY i) := mul_div_cancel₀ _ (mul_ne_zero h2 hy)
  let s' : Asg (ZMod p) := fun z => if z = k.bit (3 * i) then t else if z = k.bit (3 * i + 1) then v else if z = k.bit (3 * i + 2) then w else
    if z = k.b0b1 i then t * v else s z
  have b0 := hw.bits (3 * i) (by omega)
  have b1 := hw.bits (3 * i + 1) (by omega)
  have b2 := hw.bits (3 * i + 2) (by omega)
  have n01 : k.bit (3 * i + 1) ≠ k.bit (3 * i) := fun e => absurd (hinj _ (by omega) _ (by omega) e) (by omega)
  have n02 : k.bit (3 * i + 2) ≠ k.bit (3 * i) := fun e => absurd (hinj _ (by omega) _ (by omega) e) (by omega)
  have n12 : k.bit (3 * i + 2) ≠ k.bit (3 * i + 1) := fun e => absurd (hinj _ (by omega) _ (by omega) e) (by omega)
  have hbb : k.b0b1 i = k.base + 2 * i := rfl
  have hb0 := hw.b0
  have old : ∀ z, ¬ k.Changed i z → s' z = s z := by
    intro z hz
    unfold Changed at hz
    push Not at hz
    show (if z = _ then _ else _) = _
    rw [if_neg hz.1, if_neg hz.2.1, if_neg hz.2.2.1, if_neg hz.2.2.2]
  have oldv : ∀ z, ¬ k.Changed i z → val s' z = val s z := fun z hz => val_congr (old z hz)
  have high : ∀ z, k.base ≤ z → z ≠ k.b0b1 i → val s' z = val s z := by
    intro z hz hne
    apply oldv
    unfold Changed
    omega
  have lowbit : ∀ j < 3 * k.n, j ≠ 3 * i → j ≠ 3 * i + 1 → j ≠ 3 * i + 2 → val s' (k.bit j) = val s (k.bit j) := by
    intro j hj h0 h1 h2
    apply oldv
    have hj' := hw.bits j hj
    rintro (e | e | e | e)
    · exact h0 (hinj _ hj _ (by omega) e)
    · exact h1 (hinj _ hj _ (by omega) e)
    · exact h2 (hinj _ hj _ (by omega) e)
    · omega
  have hst : k.base + 2 * k.n ≤ k.stop := by unfold stop eBase cBase aBase; omega
  have ex : val s' k.x = val s k.x := by
    apply oldv
    have := hw.xb
    unfold Changed
    omega
  have ey : val s' k.y = val s k.y := by
    apply oldv
    have := hw.yb
    unfold Changed
    omega
  have v0 : val s' (k.bit (3 * i)) = t := by
    rw [val_pos _ (hbit (3 * i) (by omega))]
    exact if_pos rfl
  have v1 : val s' (k.bit (3 * i + 1)) = v := by
    rw [val_pos _ (hbit (3 * i + 1) (by omega))]
    show (if _ then _ else _) = _
    rw [if_neg n01, if_pos rfl]
  have v2 : val s' (k.bit (3 * i + 2)) = w := by
    rw [val_pos _ (hbit (3 * i + 2) (by omega))]
    show (if _ then _ else _) = _
    rw [if_neg n02, if_neg n12, if_pos rfl]
  have v3 : val s' (k.b0b1 i) = t * v := by
    rw [val_pos _ (by omega)]
    show (if _ then _ else _) = _
    rw [if_neg (by omega), if_neg (by omega), if_neg (by omega), if_pos rfl]
  have v4 : ∀ j, val s' (k.winY j) = val s (k.winY j) := fun j => high _ (by unfold winY; omega) (by unfold winY; omega)
  have sameW : ∀ j < k.n, Same s s' (k.win j) := by
    intro j hj
    refine ⟨?_, by show (Lc.var _ : Lc (ZMod p)).eval _ = (Lc.var _ : Lc (ZMod p)).eval _; rw [eval_var, eval_var]; exact v4 j⟩
    by_cases e : j = i
    · subst e
      rw [win_eval_bilin v0 v1 v3, hx, win_eval hb j hj hB]
    · have a0 := lowbit (3 * j) (by omega) (by omega) (by omega) (by omega)
      have a1 := lowbit (3 * j + 1) (by omega) (by omega) (by omega) (by omega)
      have a2 : val s' (k.b0b1 j) = val s (k.b0b1 j) := high _ (by unfold b0b1; omega) (by unfold b0b1; omega)
      unfold win
      simp only [eval_cons, eval_nil, a0, a1, a2, val_zero]
  have sameV : ∀ x y, k.base + 2 * k.n ≤ x → k.base + 2 * k.n ≤ y → Same s s' (Pt.vars x y) := by
    intro x y h1 h2
    unfold Same Pt.vars
    simp only [eval_var]
    exact ⟨high _ (by omega) (by omega), high _ (by omega) (by omega)⟩
  have sameA : ∀ q, Same s s' (k.addRes q) := fun q => sameV _ _ (by unfold aBase; omega) (by unfold aBase; omega)
  have sameC : ∀ q, Same s s' (k.convRes q) := fun q => sameV _ _ (by unfold cBase aBase; omega) (by unfold cBase aBase; omega)
  have sameE : ∀ q, Same s s' (k.edRes q) := fun q => sameV _ _ (by unfold eBase cBase aBase; omega) (by unfold eBase cBase aBase; omega)
  have sameP : ∀ P ∈ k.convPts, Same s s' P := by
    intro P hP
    unfold convPts at hP
    rw [List.mem_append, List.mem_append] at hP
    rcases hP with (hP | hP) | hP
    · split_ifs at hP
      · rw [List.mem_singleton] at hP; subst hP; exact sameW _ (by omega)
      · cases hP
    · obtain ⟨q, -, rfl⟩ := List.mem_map.1 hP
      exact sameA _
    · split_ifs at hP
      · rw [List.mem_singleton] at hP; subst hP; exact sameA _
      · cases hP
  have hs0 := hs
  simp only [gates, sat_append, sat_flatMap, List.mem_range] at hs ⊢
  obtain ⟨⟨⟨⟨f1, f2⟩, f3⟩, f4⟩, f5⟩ := hs
  refine ⟨s', ⟨⟨⟨⟨fun j hj => ?_, fun q hq => ?_⟩, fun q hq => ?_⟩, fun q hq => ?_⟩, ?_⟩, by rw [v0]; exact ht, old, ex, ey⟩
  · by_cases e : j = i
    · subst e
      simp only [lookup3Gates, sat_cons, sat_nil, and_true, Constraint.Holds, eval_sub, eval_add, eval_cons, eval_nil, eval_var, val_zero, v1, v2, v3, v4]
      rw [show k.bit (3 * j + 0) = k.bit (3 * j) from rfl, v0]
      refine ⟨rfl, ?_⟩
      unfold bilin at hwv
      linear_combination hwv
    · have a0 : val s' (k.bit (3 * j + 0)) = val s (k.bit (3 * j + 0)) := lowbit (3 * j) (by omega) (by omega) (by omega) (by omega)
      have a1 := lowbit (3 * j + 1) (by omega) (by omega) (by omega) (by omega)
      have a2 := lowbit (3 * j + 2) (by omega) (by omega) (by omega) (by omega)
      have a3 : val s' (k.b0b1 j) = val s (k.b0b1 j) := high _ (by unfold b0b1; omega) (by unfold b0b1; omega)
      simpa only [lookup3Gates, sat_cons, sat_nil, and_true, Constraint.Holds, eval_sub, eval_add, eval_cons, eval_nil, eval_var, val_zero, a0, a1, a2, a3, v4]
        using f1 j hj
  · obtain ⟨j, hj, -, rfl⟩ := adders_mem hq
    refine montAdd_same ?_ (sameW j hj) ?_ ?_ ?_ (f2 _ hq)
    · unfold adder
      dsimp only
      split_ifs
      · exact sameW _ (by omega)
      · exact sameA _
    all_goals exact high _ (by unfold adder aBase; dsimp only; omega) (by unfold adder aBase b0b1; dsimp only; omega)
  · refine convert_same ?_ ?_ ?_ (f3 q hq)
    · unfold conv
      dsimp only
      rw [List.getD_eq_getElem _ _ hq]
      exact sameP _ (List.getElem_mem _)
    all_goals exact high _ (by unfold conv cBase aBase; dsimp only; omega) (by unfold conv cBase aBase b0b1; dsimp only; omega)
  · refine edAdd_same ?_ (sameC _) ?_ ?_ ?_ (f4 q hq)
    · unfold ed
      dsimp only
      split_ifs
      · exact sameC _
      · exact sameE _
    · exact high _ (by unfold ed eBase cBase aBase; dsimp only; omega) (by unfold ed eBase cBase aBase b0b1; dsimp only; omega)
    · exact high _ (by unfold ed eBase cBase aBase; dsimp only; omega) (by unfold ed eBase cBase aBase b0b1; dsimp only; omega)
    · intro z _
      exact high _ (by unfold ed eBase cBase aBase; dsimp only; omega) (by unfold ed eBase cBase aBase b0b1; dsimp only; omega)
  · have hl : Same s s' k.last := by
      unfold last
      split_ifs
      · exact sameC _
      · exact sameE _
    simpa only [sat_cons, sat_nil, Constraint.Holds, eval_const, eval_var, ex, ey, hl.1, hl.2] using f5

end Mul
end
/-! ### Concrete case -/

namespace Ex

/-- The hash of the message of `Ex.msg` is also the result of an accepted assignment whose first input variable is not a bit. -/
example : ∃ s' : Asg (ZMod 523), Sat s' (mul.gates 1 89 85) ∧ ¬ IsBit (val s' 3) ∧ (val s' 1, val s' 2) = toEd 1 (toPoint 2 (fun t => (t + 1) • P) msg 3) := by
  have h := Mul.mul_complete (by norm_num) good wf (s := start) (m := msg) (by unfold Mul.Bits; decide)
  obtain ⟨s', h1, h2, -, h4, h5⟩ := Mul.input_not_bits (by norm_num) good wf (by decide) (by decide) h.2.1 h.1 (i := 0) (by decide)
  refine ⟨s', h1, h2, ?_⟩
  rw [show (1 : ℕ) = mul.x from rfl, show (2 : ℕ) = mul.y from rfl, h4, h5]
  exact h.2.2

end Ex
end Pedersen
end R1cs
end Verif
