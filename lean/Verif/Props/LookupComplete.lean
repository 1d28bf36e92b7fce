import Verif.Props.LookupVerifier

/-!
# C64: completeness of the lookup argument verifier
-/

set_option linter.unusedSimpArgs false
set_option linter.unusedSectionVars false
set_option linter.unusedVariables false

namespace Verif
namespace LookupVerifier
variable {F : Type*} [Field F]

/-! ### The component's own rows as blocks -/

/-- The first two rows. -/
def maskBlock (c : Cols) (x : In) (s : ℤ) : Block F where
  start := s
  rows := 2
  ops := [.gate (maskGate c) [s, s + 1], .copy (c.wa 0 s) (x.qlast 0), .copy (c.wa 0 (s + 1)) (x.qlast 1),
    .copy (c.wa 1 s) (x.qblind 0), .copy (c.wa 1 (s + 1)) (x.qblind 1)]
  run := maskRun c x s
  needs v := ∃ i < 2, v = x.qlast i ∨ v = x.qblind i
  pre _ := True

theorem maskRun_eq (c : Cols) (x : In) (s : ℤ) (t : Table F) : maskRun c x s t =
    (((((t.set .witness (c.w 0) s ((x.qlast 0).value t)).set .witness (c.w 1) s ((x.qblind 0).value t)).set .witness (c.w 2) s
      (maskVal x t 0)).set .witness (c.w 0) (s + 1) ((x.qlast 1).value t)).set .witness (c.w 1) (s + 1)
      ((x.qblind 1).value t)).set .witness (c.w 2) (s + 1) (maskVal x t 1) := rfl

theorem maskBlock_good (c : Cols) {w : ℕ} (hw : 4 ≤ w) (hc : c.OK w) (x : In) (s : ℤ) : (maskBlock c x s : Block F).Good c := by
  have hF : ∀ t : Table F, Frame c s 2 t (maskRun c x s t) := by
    intro t
    rw [maskRun_eq]
    exact ((((((Frame.refl c s 2 t).setOK hc (by omega) (by omega) _ _).setOK hc (by omega) (by omega) _ _).setOK hc (by omega)
      (by omega) _ _).setOK hc (by omega) (by omega) _ _).setOK hc (by omega) (by omega) _ _).setOK hc (by omega) (by omega) _ _
  constructor
  · exact hF
  · intro t _ h
    have hin : ∀ i < 2, (x.qlast i).value (maskRun c x s t) = (x.qlast i).value t ∧
        (x.qblind i).value (maskRun c x s t) = (x.qblind i).value t := fun i hi =>
      ⟨(hF t).outside (h _ ⟨i, hi, Or.inl rfl⟩), (hF t).outside (h _ ⟨i, hi, Or.inr rfl⟩)⟩
    have e01 : c.w 0 ≠ c.w 1 := by rw [Ne, hc.inj (by omega) (by omega)]; omega
    have e02 : c.w 0 ≠ c.w 2 := by rw [Ne, hc.inj (by omega) (by omega)]; omega
    have e12 : c.w 1 ≠ c.w 2 := by rw [Ne, hc.inj (by omega) (by omega)]; omega
    have v0 : maskRun c x s t .witness (c.w 0) s = (x.qlast 0).value t := by
      rw [maskRun_eq]; simp [Table.set_apply, e01, e02, e12]
    have v1 : maskRun c x s t .witness (c.w 1) s = (x.qblind 0).value t := by
      rw [maskRun_eq]; simp [Table.set_apply, e01, e02, e12]
    have v2 : maskRun c x s t .witness (c.w 2) s = maskVal x t 0 := by
      rw [maskRun_eq]; simp [Table.set_apply, e01, e02, e12]
    have v3 : maskRun c x s t .witness (c.w 0) (s + 1) = (x.qlast 1).value t := by
      rw [maskRun_eq]; simp [Table.set_apply, e01, e02, e12]
    have v4 : maskRun c x s t .witness (c.w 1) (s + 1) = (x.qblind 1).value t := by
      rw [maskRun_eq]; simp [Table.set_apply, e01, e02, e12]
    have v5 : maskRun c x s t .witness (c.w 2) (s + 1) = maskVal x t 1 := by
      rw [maskRun_eq]; simp [Table.set_apply, e01, e02, e12]
    simp only [maskBlock, sat_cons, sat_nil, and_true, holds_gate, holds_copy, Cols.value_wa, List.mem_cons, List.not_mem_nil,
      or_false, forall_eq_or_imp, forall_eq, (hin 0 (by omega)).1, (hin 0 (by omega)).2, (hin 1 (by omega)).1,
      (hin 1 (by omega)).2, v0, v1, v3, v4, mask_iff, v2, v5]
    simp [maskVal]
  · intro t t' ha h
    have hin : ∀ i < 2, (x.qlast i).value t' = (x.qlast i).value t ∧ (x.qblind i).value t' = (x.qblind i).value t :=
      fun i hi => ⟨ha.input _ ⟨i, hi, Or.inl rfl⟩, ha.input _ ⟨i, hi, Or.inr rfl⟩⟩
    have o0 : ∀ i, t' .witness i s = t .witness i s := fun i => ha.own i s (by simp [maskBlock]) (by simp [maskBlock])
    have o1 : ∀ i, t' .witness i (s + 1) = t .witness i (s + 1) :=
      fun i => ha.own i (s + 1) (by simp [maskBlock]) (by simp [maskBlock])
    simp only [maskBlock, sat_cons, sat_nil, and_true, holds_gate, holds_copy, Cols.value_wa, List.mem_cons, List.not_mem_nil,
      or_false, forall_eq_or_imp, forall_eq, (hin 0 (by omega)).1, (hin 0 (by omega)).2, (hin 1 (by omega)).1,
      (hin 1 (by omega)).2, mask_iff, o0, o1] at h ⊢
    exact h
  · intro _ _ _ _ h; exact h

/-- The cells read when the last rows are assigned, and what the obligations compare them with. -/
structure FIn where
  vl0 : Var
  vl1 : Var
  l0 : Var
  ql : Var
  mask : Var
  h : Var
  g : Var

def finalWrites (c : Cols) (w : ℕ) (row : ℤ) (l1 l2 : List F) : List (Write F) :=
  rowWrites c w row l1 ++ rowWrites c w (row + (4 / w + 1 : ℕ)) l2

/-- The last rows. -/
def finalBlock (c : Cols) (w : ℕ) (y : FIn) (s : ℤ) : Block F where
  start := s
  rows := 4 / w + 1 + (5 / w + 1)
  ops := [.gate (gate1 c w) [s], .gate (gate2 c w) [s + (4 / w + 1 : ℕ)],
   .copy (c.wa 0 s) y.vl0, .copy (c.wa 1 s) y.l0, .copy (c.wa 3 s) y.ql,
   .copy (c.wa 0 (s + (4 / w + 1 : ℕ))) y.vl0, .copy (c.wa 1 (s + (4 / w + 1 : ℕ))) y.mask,
   .copy (c.wa 2 (s + (4 / w + 1 : ℕ))) y.h, .copy (c.wa 3 (s + (4 / w + 1 : ℕ))) y.vl1,
   .copy (c.wa ((4 % w : ℕ) : ℤ) (s + (4 / w + 1 : ℕ) + (4 / w : ℕ))) y.g]
  run t := writeAll (finalWrites c w s (list1 (y.vl0.value t) (y.l0.value t) (y.ql.value t))
    (list2 (y.vl0.value t) (y.mask.value t) (y.h.value t) (y.vl1.value t) (y.g.value t))) t
  needs v := v = y.vl0 ∨ v = y.vl1 ∨ v = y.l0 ∨ v = y.ql ∨ v = y.mask ∨ v = y.h ∨ v = y.g
  pre _ := True

theorem finalWrites_grid {w : ℕ} (hw : 4 ≤ w) (c : Cols) (row : ℤ) (l1 l2 : List F) (h1 : l1.length = 5) (h2 : l2.length = 6) :
    GridWrites c row w (4 / w + 1 + (5 / w + 1))
      (fun r j => if r < 4 / w + 1 then l1.getD (r * w + j) 0 else l2.getD ((r - (4 / w + 1)) * w + j) 0)
      (finalWrites c w row l1 l2) := by
  intro y hy
  have hw0 : 0 < w := by omega
  simp only [finalWrites, rowWrites, List.mem_append, List.mem_map, List.mem_range, h1, h2] at hy
  rcases hy with ⟨i, hi, rfl⟩ | ⟨i, hi, rfl⟩
  · have := Nat.div_le_div_right (c := w) (show i ≤ 4 by omega)
    have z0 := Nat.zero_le (i / w)
    have z1 := Nat.zero_le (4 / w)
    have z2 := Nat.zero_le (5 / w)
    refine ⟨i / w, by omega, i % w, Nat.mod_lt _ hw0, ?_⟩
    simp only []
    rw [if_pos (by omega), Nat.mul_comm, Nat.div_add_mod]
  · have := Nat.div_le_div_right (c := w) (show i ≤ 5 by omega)
    have z0 := Nat.zero_le (i / w)
    have z1 := Nat.zero_le (4 / w)
    have z2 := Nat.zero_le (5 / w)
    refine ⟨4 / w + 1 + i / w, by omega, i % w, Nat.mod_lt _ hw0, ?_⟩
    simp only []
    rw [if_neg (by omega), Nat.add_sub_cancel_left, Nat.mul_comm, Nat.div_add_mod]
    congr 1
    push_cast; ring

theorem final_cells {w : ℕ} (hw : 4 ≤ w) (c : Cols) (hc : c.OK w) (row : ℤ) (l1 l2 : List F) (h1 : l1.length = 5)
    (h2 : l2.length = 6) (t : Table F) :
    (∀ i < 5, writeAll (finalWrites c w row l1 l2) t .witness (c.w ((i % w : ℕ) : ℤ)) (row + ((i / w : ℕ) : ℤ)) = l1.getD i 0) ∧
    (∀ i < 6, writeAll (finalWrites c w row l1 l2) t .witness (c.w ((i % w : ℕ) : ℤ)) (row + (4 / w + 1 : ℕ) + ((i / w : ℕ) : ℤ)) =
      l2.getD i 0) := by
  have G := finalWrites_grid hw c row l1 l2 h1 h2
  have hw0 : 0 < w := by omega
  constructor
  · intro i hi
    have hd := Nat.div_le_div_right (c := w) (show i ≤ 4 by omega)
    have e : i / w * w + i % w = i := by rw [Nat.mul_comm]; exact Nat.div_add_mod i w
    have := G.read (r := i / w) (j := i % w) hc t (Nat.mod_lt _ hw0) (by
      simp only [if_pos (show i / w < 4 / w + 1 by omega), e, finalWrites, rowWrites, List.mem_append, List.mem_map, List.mem_range, h1]
      exact Or.inl ⟨i, hi, rfl⟩)
    simp only [if_pos (show i / w < 4 / w + 1 by omega), e] at this
    exact this
  · intro i hi
    have hd := Nat.div_le_div_right (c := w) (show i ≤ 5 by omega)
    have z0 := Nat.zero_le (i / w)
    have z1 := Nat.zero_le (4 / w)
    have z2 := Nat.zero_le (5 / w)
    have e : i / w * w + i % w = i := by rw [Nat.mul_comm]; exact Nat.div_add_mod i w
    have er : row + ((4 / w + 1 : ℕ) : ℤ) + ((i / w : ℕ) : ℤ) = row + ((4 / w + 1 + i / w : ℕ) : ℤ) := by push_cast; ring
    have := G.read (r := 4 / w + 1 + i / w) (j := i % w) hc t (Nat.mod_lt _ hw0) (by
      simp only [if_neg (show ¬ (4 / w + 1 + i / w < 4 / w + 1) by omega), Nat.add_sub_cancel_left, e, finalWrites, rowWrites,
        List.mem_append, List.mem_map, List.mem_range, h2, ← er]
      exact Or.inr ⟨i, hi, rfl⟩)
    simp only [if_neg (show ¬ (4 / w + 1 + i / w < 4 / w + 1) by omega), Nat.add_sub_cancel_left, e, ← er] at this
    exact this

theorem finalBlock_good (c : Cols) {w : ℕ} (hw : 4 ≤ w) (hc : c.OK w) (y : FIn) (s : ℤ) :
    (finalBlock c w y s : Block F).Good c := by
  have hF : ∀ t : Table F, Frame c s (4 / w + 1 + (5 / w + 1)) t ((finalBlock c w y s).run t) :=
    fun t => ((finalWrites_grid hw c s _ _ rfl rfl).own hc).frame t
  have a : ∀ i < 4, i % w = i ∧ i / w = 0 := fun i hi => ⟨Nat.mod_eq_of_lt (by omega), Nat.div_eq_of_lt (by omega)⟩
  -- the obligations as equations between cells
  have iff : ∀ t : Table F, Sat t (finalBlock c w y s : Block F).ops ↔ ∃ A B : ℕ → F,
      (∀ i < 5, A i = t .witness (c.w ((i % w : ℕ) : ℤ)) (s + ((i / w : ℕ) : ℤ))) ∧
      (∀ i < 6, B i = t .witness (c.w ((i % w : ℕ) : ℤ)) (s + (4 / w + 1 : ℕ) + ((i / w : ℕ) : ℤ))) ∧
      (A 2 = (1 - A 0) * A 1 ∧ A 4 = A 3 * (A 0 * A 0 - A 0) ∧ B 5 = B 1 * (B 3 * B 2 - B 0 * B 4)) ∧
      A 0 = y.vl0.value t ∧ A 1 = y.l0.value t ∧ A 3 = y.ql.value t ∧ B 0 = y.vl0.value t ∧ B 1 = y.mask.value t ∧
      B 2 = y.h.value t ∧ B 3 = y.vl1.value t ∧ B 4 = y.g.value t := by
    intro t
    have c1 : ∀ (i : ℕ) (j : ℤ) (r : ℤ), i < 4 → j = i → t .witness (c.w j) r = t .witness (c.w ((i % w : ℕ) : ℤ)) (r + ((i / w : ℕ) : ℤ)) := by
      rintro i j r hi rfl
      rw [(a i hi).1, (a i hi).2]; simp
    simp only [finalBlock, sat_cons, sat_nil, and_true, holds_gate, holds_copy, Cols.value_wa, List.mem_singleton, forall_eq, gate1, gate2,
      List.mem_cons, List.not_mem_nil, or_false, forall_eq_or_imp, Expr.eval_sub, Expr.eval_mul, Expr.eval_const, cell_eval,
      c1 0 0 _ (by omega) rfl, c1 1 1 _ (by omega) rfl, c1 2 2 _ (by omega) rfl, c1 3 3 _ (by omega) rfl, sub_eq_zero]
    constructor
    · rintro ⟨⟨h1, h2⟩, h3, h4, h5, h6, h7, h8, h9, h10, h11⟩
      exact ⟨fun i => t .witness (c.w ((i % w : ℕ) : ℤ)) (s + ((i / w : ℕ) : ℤ)),
        fun i => t .witness (c.w ((i % w : ℕ) : ℤ)) (s + (4 / w + 1 : ℕ) + ((i / w : ℕ) : ℤ)), fun _ _ => rfl, fun _ _ => rfl,
        ⟨h1, h2, h3⟩, h4, h5, h6, h7, h8, h9, h10, h11⟩
    · rintro ⟨A, B, hA, hB, h⟩
      rw [hA 0 (by omega), hA 1 (by omega), hA 2 (by omega), hA 3 (by omega), hA 4 (by omega), hB 0 (by omega), hB 1 (by omega),
        hB 2 (by omega), hB 3 (by omega), hB 4 (by omega), hB 5 (by omega)] at h
      obtain ⟨⟨h1, h2, h3⟩, h4, h5, h6, h7, h8, h9, h10, h11⟩ := h
      exact ⟨⟨h1, h2⟩, h3, h4, h5, h6, h7, h8, h9, h10, h11⟩
  constructor
  · exact hF
  · intro t _ h
    have hin : ∀ v, (finalBlock c w y s : Block F).needs v → v.value ((finalBlock c w y s).run t) = v.value t :=
      fun v hv => (hF t).outside (h v hv)
    obtain ⟨h1, h2⟩ := final_cells hw c hc s (list1 (y.vl0.value t) (y.l0.value t) (y.ql.value t))
      (list2 (y.vl0.value t) (y.mask.value t) (y.h.value t) (y.vl1.value t) (y.g.value t)) rfl rfl t
    refine (iff _).2 ⟨fun i => (list1 (y.vl0.value t) (y.l0.value t) (y.ql.value t)).getD i 0,
      fun i => (list2 (y.vl0.value t) (y.mask.value t) (y.h.value t) (y.vl1.value t) (y.g.value t)).getD i 0,
      fun i hi => (h1 i hi).symm, fun i hi => (h2 i hi).symm, ⟨rfl, rfl, rfl⟩, ?_⟩
    rw [hin y.vl0 (by simp [finalBlock]), hin y.vl1 (by simp [finalBlock]), hin y.l0 (by simp [finalBlock]),
      hin y.ql (by simp [finalBlock]), hin y.mask (by simp [finalBlock]), hin y.h (by simp [finalBlock]),
      hin y.g (by simp [finalBlock])]
    exact ⟨rfl, rfl, rfl, rfl, rfl, rfl, rfl, rfl⟩
  · intro t t' ha h
    obtain ⟨A, B, hA, hB, hg, hv⟩ := (iff t).1 h
    have hin := ha.input
    have own : ∀ i r, s ≤ r → r < s + ((4 / w + 1 + (5 / w + 1) : ℕ) : ℤ) → t' .witness i r = t .witness i r := ha.own
    refine (iff t').2 ⟨A, B, fun i hi => ?_, fun i hi => ?_, hg, ?_⟩
    · have := Nat.div_le_div_right (c := w) (show i ≤ 4 by omega)
      have z0 := Nat.zero_le (i / w)
      have z1 := Nat.zero_le (4 / w)
      have z2 := Nat.zero_le (5 / w)
      rw [own _ _ (by omega) (by omega)]; exact hA i hi
    · have := Nat.div_le_div_right (c := w) (show i ≤ 5 by omega)
      have z0 := Nat.zero_le (i / w)
      have z1 := Nat.zero_le (4 / w)
      have z2 := Nat.zero_le (5 / w)
      rw [own _ _ (by omega) (by omega)]; exact hB i hi
    · rw [hin y.vl0 (by simp [finalBlock]), hin y.vl1 (by simp [finalBlock]), hin y.l0 (by simp [finalBlock]),
        hin y.ql (by simp [finalBlock]), hin y.mask (by simp [finalBlock]), hin y.h (by simp [finalBlock]),
        hin y.g (by simp [finalBlock])]
      exact hv
  · intro _ _ _ _ h; exact h

/-! ### The sequence of calls -/

def optBlocks (c : Cols) (w : ℕ) (p : Par) (x : In) (srow : ℤ) (o : ℕ) : List (Block F) :=
  [gcBlock c w (p.cols (p.tab o)) (valIn c p x srow o) (rv1 w p srow o), mulBlock c (mulIn c w p srow o) (rv2 w p srow o),
   gcBlock c w (p.cols (p.tab o)) (valIn' c p x srow o) (rv3 w p srow o), mulBlock c (mulIn' c w p srow o) (rv4 w p srow o)]

def inpBlocks (c : Cols) (w : ℕ) (p : Par) (x : In) (srow : ℤ) (k : ℕ) : List (Block F) :=
  [gcBlock c w (p.isz k) (inpIn p x k) (srow + rowI w p k)]

def tailBlocks (c : Cols) (w : ℕ) (p : Par) (x : In) (srow : ℤ) : List (Block F) :=
  [f1Block c w p.k (hIn p x) (srow + rowH w p), f1Block c w p.nI (g1In c w p x srow) (srow + rowG1 w p),
   f1Block c w p.nV (g2In c w p x srow) (srow + rowG2 w p),
   mulF3Block c w (p.k - 1) (gMulIn c w p srow) (f3In p x) (srow + rowM w p),
   mulBlock c (f3MulIn c w p x srow) (srow + rowM2 w p)]

/-- All calls but the last rows. -/
def calls (c : Cols) (w : ℕ) (p : Par) (x : In) (srow : ℤ) : List (Block F) :=
  [maskBlock c x srow] ++ ((List.range p.nV).flatMap (optBlocks c w p x srow) ++
    ((List.range p.nI).flatMap (inpBlocks c w p x srow) ++ tailBlocks c w p x srow))

/-- What the last rows read. -/
def finIn (c : Cols) (w : ℕ) (p : Par) (x : In) (srow : ℤ) : FIn where
  vl0 := x.vl 0
  vl1 := x.vl 1
  l0 := x.l0
  ql := x.qlast 0
  mask := c.wa 2 srow
  h := F1Loop.result c w p.k (srow + rowH w p)
  g := Multiplication.result c (srow + rowM w p)

def allBlocks (c : Cols) (w : ℕ) (p : Par) (x : In) (srow : ℤ) : List (Block F) :=
  calls c w p x srow ++ [finalBlock c w (finIn c w p x srow) (srow + rowEnd w p)]

/-- All inputs are outside the component's rows. -/
structure In.Outside (x : In) (w : ℕ) (p : Par) (srow : ℤ) : Prop where
  theta : x.theta.Outside srow (rows w p)
  beta : x.beta.Outside srow (rows w p)
  gamma : x.gamma.Outside srow (rows w p)
  l0 : x.l0.Outside srow (rows w p)
  alphas : ∀ i < p.total - 1, (x.alphas i).Outside srow (rows w p)
  sel : ∀ i < 2, (x.vl i).Outside srow (rows w p) ∧ (x.qlast i).Outside srow (rows w p) ∧ (x.qblind i).Outside srow (rows w p)
  gsel : ∀ g < p.nG, (x.gsel g).Outside srow (rows w p)
  gtid : ∀ k < ∑ g ∈ Finset.range p.nG, p.csz g, (x.gtid k).Outside srow (rows w p)
  ginp : ∀ k < ∑ l ∈ Finset.range (∑ g ∈ Finset.range p.nG, p.csz g), p.isz l, (x.ginp k).Outside srow (rows w p)
  tsel : ∀ i < p.nT, (x.tsel i).Outside srow (rows w p) ∧ (x.tsel' i).Outside srow (rows w p)
  topt : ∀ k < ∑ i ∈ Finset.range p.nT, p.opts i * p.cols i,
    (x.topt k).Outside srow (rows w p) ∧ (x.topt' k).Outside srow (rows w p)
  sorted : ∀ i < p.nS, (x.sorted i).Outside srow (rows w p)

theorem pos_mono (p : Par) {a b : ℕ} (h : a ≤ b) : p.pos a ≤ p.pos b := by
  induction h with
  | refl => exact le_rfl
  | step _ ih => exact ih.trans (Nat.le_add_right _ _)

theorem start_mono (p : Par) {a b : ℕ} (h : a ≤ b) : p.start a ≤ p.start b := by
  induction h with
  | refl => exact le_rfl
  | step _ ih => exact ih.trans (Nat.le_add_right _ _)

theorem rowV_mono (w : ℕ) (p : Par) {a b : ℕ} (h : a ≤ b) : rowV w p a ≤ rowV w p b := by
  induction h with
  | refl => exact le_rfl
  | step _ ih => exact ih.trans (Nat.le_add_right _ _)

theorem rowI_mono (w : ℕ) (p : Par) {a b : ℕ} (h : a ≤ b) : rowI w p a ≤ rowI w p b := by
  induction h with
  | refl => exact le_rfl
  | step _ ih => exact ih.trans (Nat.le_add_right _ _)

theorem pos_total (p : Par) (hp : p.OK) : p.pos p.nV = ∑ i ∈ Finset.range p.nT, p.opts i * p.cols i := by
  have h0 : 0 < p.nT := by
    by_contra h
    have := hp.val_pos
    rw [show p.nT = 0 by omega] at this; simp at this
  obtain ⟨n, hn⟩ : ∃ n, p.nT = n + 1 := ⟨p.nT - 1, by omega⟩
  have := pos_eq p n (p.opts n) (by omega) le_rfl
  rw [nV_eq, hn, Finset.sum_range_succ, Finset.sum_range_succ, this]

/-- The first columns of an option are inputs. -/
theorem pos_lt (p : Par) (hp : p.OK) (o i : ℕ) (ho : o < p.nV) (hi : i < p.cols (p.tab o)) :
    p.pos o + i < ∑ i ∈ Finset.range p.nT, p.opts i * p.cols i := by
  rw [← pos_total p hp]
  have := pos_mono p (show o + 1 ≤ p.nV from ho)
  rw [Par.pos] at this; omega

theorem start_lt (p : Par) (k i : ℕ) (hk : k < p.nI) (hi : i < p.isz k) :
    p.start k + i < ∑ l ∈ Finset.range (∑ g ∈ Finset.range p.nG, p.csz g), p.isz l := by
  rw [← nI_eq, ← start_eq]
  have := start_mono p (show k + 1 ≤ p.nI from hk)
  rw [Par.start] at this; omega

theorem gc_rows_pos {w d : ℕ} (hw : 4 ≤ w) (hd : 0 < d) : 1 ≤ GateComponent.rows w d := by
  have := (GateComponent.rows0_last (show 3 ≤ w by omega) hd).2.1
  unfold GateComponent.rows0 at this
  unfold GateComponent.rows
  omega

/-- Where `f1_loop` puts its result. -/
theorem f1_result_row {w m : ℕ} (hw : 4 ≤ w) (hm : 0 < m) (c : Cols) (s : ℤ) :
    (F1Loop.result c w m s).rotation < s + F1Loop.rows w m := by
  have h1 := (F1Loop.rows0_last hw hm).2.1
  have h2 := F1Loop.rows0_le hw hm
  unfold F1Loop.result
  split_ifs <;> simp only [Cols.wa] <;> omega

theorem opt_rows (c : Cols) (w : ℕ) (p : Par) (x : In) (srow : ℤ) (o : ℕ) :
    totalRows (optBlocks (F := F) c w p x srow o) = optRows w p o := by
  simp [totalRows, optBlocks, gcBlock, mulBlock, optRows]; ring

theorem inp_rows (c : Cols) (w : ℕ) (p : Par) (x : In) (srow : ℤ) (k : ℕ) :
    totalRows (inpBlocks (F := F) c w p x srow k) = GateComponent.rows w (p.isz k) := by
  simp [totalRows, inpBlocks, gcBlock]

theorem placed_all {c : Cols} {w : ℕ} {p : Par} {x : In} {srow : ℤ} (hw : 4 ≤ w) (hp : p.OK) (hx : x.Outside w p srow) :
    Placed (srow + rows w p) srow (allBlocks (F := F) c w p x srow) ∧
      totalRows (allBlocks (F := F) c w p x srow) = rows w p ∧ totalRows (calls (F := F) c w p x srow) = rowEnd w p := by
  have out : ∀ (v : Var) (s : ℤ), v.Outside srow (rows w p) → srow ≤ s →
      v.type = .witness → v.rotation < s ∨ srow + rows w p ≤ v.rotation := by
    intro v s h hs hv
    rcases h hv with h | h <;> [left; right] <;> omega
  have nVp : 0 < p.nV := by rw [nV_eq]; exact hp.val_pos
  have nIp : 0 < p.nI := by rw [nI_eq]; exact hp.inp_pos
  have kp : 0 < p.k := by rw [k_eq hp, ← m_eq, Par.m]; omega
  have V2 := rowV_mono w p (Nat.zero_le p.nV)
  have V0 : rowV w p 0 = 2 := rfl
  have I0 : rowI w p 0 = rowV w p p.nV := rfl
  have I2 := rowI_mono w p (Nat.zero_le p.nI)
  have hns : p.nS = 3 * p.k - 1 := by rw [k_eq hp]; exact hp.sorted
  -- options
  have PO := placed_range (F := F) (e := srow + rows w p) (s := srow + 2) (g := optBlocks c w p x srow)
    (f := fun o => rowV w p o - 2) (n := p.nV) rfl
    (fun o _ => by have := rowV_mono w p (Nat.zero_le o); rw [opt_rows, rowV]; omega)
    (fun o ho => by
      have hV := rowV_mono w p (Nat.zero_le o)
      have ht : p.tab o < p.nT := turns_lt _ _ _ (by rw [← nV_eq]; exact ho)
      have hd := hp.cols_pos _ ht
      have hr := gc_rows_pos hw hd
      have hs : srow + 2 + ((rowV w p o - 2 : ℕ) : ℤ) = rv1 w p srow o := by
        rw [rv1]; push_cast [Nat.cast_sub (show 2 ≤ rowV w p o by omega)]; ring
      have b1 : srow + 2 ≤ rv1 w p srow o := by rw [← hs]; omega
      have b2 : rv1 w p srow o + GateComponent.rows w (p.cols (p.tab o)) = rv2 w p srow o := rfl
      have b3 : rv2 w p srow o + 1 = rv3 w p srow o := rfl
      have b4 : rv3 w p srow o + GateComponent.rows w (p.cols (p.tab o)) = rv4 w p srow o := rfl
      rw [hs]
      refine ⟨rfl, ?_, ?_, ?_, ?_, ?_, ?_, ?_, trivial⟩
      · rintro v (rfl | rfl | ⟨i, hi, rfl⟩)
        · exact out _ _ hx.theta (by omega)
        · exact out _ _ (hx.tsel _ ht).1 (by omega)
        · simp only [valIn]
          split_ifs with h
          · intro hh; simp [tid] at hh
          · exact out _ _ (hx.topt _ (pos_lt p hp o (i - 1) ho (by omega))).1 (by omega)
      · rfl
      · rintro v (rfl | rfl)
        · intro _; left; simp only [mulIn, GateComponent.result, Cols.wa, gcBlock]; omega
        · intro _; left; simp only [mulIn, maskVar, Cols.wa, gcBlock]; push_cast; omega
      · simp only [gcBlock, mulBlock]; rw [b2]; exact b3.symm
      · have e : rv1 w p srow o + ((gcBlock c w (p.cols (p.tab o)) (valIn c p x srow o) (rv1 w p srow o) : Block F).rows : ℤ) +
            ((mulBlock c (mulIn c w p srow o) (rv2 w p srow o) : Block F).rows : ℤ) = rv3 w p srow o := by
          simp only [gcBlock, mulBlock]; rw [b2]; exact b3
        rw [e]
        rintro v (rfl | rfl | ⟨i, hi, rfl⟩)
        · exact out _ _ hx.theta (by omega)
        · exact out _ _ (hx.tsel _ ht).2 (by omega)
        · simp only [valIn']
          split_ifs with h
          · intro hh; simp [tid] at hh
          · exact out _ _ (hx.topt _ (pos_lt p hp o (i - 1) ho (by omega))).2 (by omega)
      · simp only [gcBlock, mulBlock]; rw [b2, Nat.cast_one, b3]; exact b4.symm
      · have e : rv1 w p srow o + ((gcBlock c w (p.cols (p.tab o)) (valIn c p x srow o) (rv1 w p srow o) : Block F).rows : ℤ) +
            ((mulBlock c (mulIn c w p srow o) (rv2 w p srow o) : Block F).rows : ℤ) +
            ((gcBlock c w (p.cols (p.tab o)) (valIn' c p x srow o) (rv3 w p srow o) : Block F).rows : ℤ) = rv4 w p srow o := by
          simp only [gcBlock, mulBlock]; rw [b2, Nat.cast_one, b3]; exact b4
        rw [e]
        rintro v (rfl | rfl)
        · intro _; left; simp only [mulIn', GateComponent.result, Cols.wa, gcBlock]; omega
        · intro _; left; simp only [mulIn', maskVar, Cols.wa, gcBlock]; push_cast; omega)
  -- lookup constraints
  have PI := placed_range (F := F) (e := srow + rows w p) (s := srow + rowV w p p.nV) (g := inpBlocks c w p x srow)
    (f := fun k => rowI w p k - rowV w p p.nV) (n := p.nI) (by simp [I0])
    (fun k _ => by have := rowI_mono w p (Nat.zero_le k); rw [inp_rows, rowI]; omega)
    (fun k hk => by
      have hV := rowI_mono w p (Nat.zero_le k)
      have ht : p.gid k < p.nG := turns_lt _ _ _ (by rw [← nI_eq]; exact hk)
      have hs : srow + (rowV w p p.nV : ℤ) + ((rowI w p k - rowV w p p.nV : ℕ) : ℤ) = srow + rowI w p k := by
        push_cast [Nat.cast_sub (show rowV w p p.nV ≤ rowI w p k by omega)]; ring
      rw [hs]
      refine ⟨rfl, ?_, trivial⟩
      rintro v (rfl | rfl | ⟨i, hi, rfl⟩)
      · exact out _ _ hx.theta (by omega)
      · exact out _ _ (hx.gsel _ ht) (by omega)
      · simp only [inpIn]
        split_ifs with h
        · exact out _ _ (hx.gtid _ (by rw [← nI_eq]; exact hk)) (by omega)
        · exact out _ _ (hx.ginp _ (start_lt p k (i - 1) hk (by omega))) (by omega))
  have g1 : rowG1 w p = rowH w p + F1Loop.rows w p.k := rfl
  have g2 : rowG2 w p = rowG1 w p + F1Loop.rows w p.nI := rfl
  have g3 : rowM w p = rowG2 w p + F1Loop.rows w p.nV := rfl
  have g4 : rowF3 w p = rowM w p + 1 := rfl
  have g5 : rowM2 w p = rowF3 w p + F3Loop.rows w (p.k - 1) := rfl
  have g6 : rowEnd w p = rowM2 w p + 1 := rfl
  have g0 : rowH w p = rowI w p p.nI := rfl
  -- the loops and the last rows
  have PT : Placed (srow + rows w p) (srow + rowH w p)
      (tailBlocks (F := F) c w p x srow ++ [finalBlock c w (finIn c w p x srow) (srow + rowEnd w p)]) := by
    have val_row : ∀ o < p.nV, (values c w p srow o).rotation < srow + rowV w p p.nV ∧
        (values' c w p srow o).rotation < srow + rowV w p p.nV := by
      intro o ho
      have := rowV_mono w p (show o + 1 ≤ p.nV from ho)
      rw [rowV, optRows] at this
      simp only [values, values', Multiplication.result, Cols.wa, rv4, rv3, rv2, rv1]
      constructor <;> omega
    have inp_row : ∀ k < p.nI, (inputs c w p srow k).rotation < srow + rowI w p p.nI := by
      intro k hk
      have := rowI_mono w p (show k + 1 ≤ p.nI from hk)
      rw [rowI] at this
      simp only [inputs, GateComponent.result, Cols.wa]
      omega
    have hres := f1_result_row hw kp c (srow + rowH w p)
    have g1res := f1_result_row hw nIp c (srow + rowG1 w p)
    have g2res := f1_result_row hw nVp c (srow + rowG2 w p)
    simp only [tailBlocks, List.cons_append, List.nil_append, Placed, f1Block, mulF3Block, mulBlock, finalBlock]
    refine ⟨trivial, ?_, by push_cast [g1]; ring, ?_, by push_cast [g1, g2]; ring, ?_, by push_cast [g1, g2, g3]; ring, ?_,
      by push_cast [g1, g2, g3, g4, g5]; ring, ?_, by push_cast [g1, g2, g3, g4, g5, g6]; ring, ?_, trivial⟩
    · rintro v (rfl | rfl | ⟨i, hi, rfl | rfl⟩)
      · exact out _ _ hx.beta (by omega)
      · exact out _ _ hx.gamma (by omega)
      · exact out _ _ (hx.sorted _ (by omega)) (by omega)
      · exact out _ _ (hx.sorted _ (by omega)) (by omega)
    · rintro v (rfl | rfl | ⟨i, hi, rfl | rfl⟩)
      · exact out _ _ hx.beta (by omega)
      · exact out _ _ hx.gamma (by omega)
      · intro _; left; have := inp_row i hi; simp only [g1In]; omega
      · intro _; left; have := inp_row i hi; simp only [g1In]; omega
    · rintro v (rfl | rfl | ⟨i, hi, rfl | rfl⟩)
      · exact out _ _ hx.beta (by omega)
      · exact out _ _ hx.gamma (by omega)
      · intro _; left; have := val_row i hi; simp only [g2In]; omega
      · intro _; left; have := val_row i hi; simp only [g2In]; omega
    · rintro v (rfl | rfl | ⟨i, hi, rfl | rfl | rfl⟩)
      · intro _; left; simp only [gMulIn]; omega
      · intro _; left; simp only [gMulIn]; omega
      · exact out _ _ (hx.alphas _ (by rw [← k_eq hp]; exact hi)) (by omega)
      · exact out _ _ (hx.sorted _ (by omega)) (by omega)
      · exact out _ _ (hx.sorted _ (by omega)) (by omega)
    · rintro v (rfl | rfl)
      · intro _; left
        simp only [f3MulIn, F3Loop.result, Cols.wa]; push_cast; omega
      · exact out _ _ hx.l0 (by omega)
    · rintro v (rfl | rfl | rfl | rfl | rfl | rfl | rfl)
      · exact out _ _ (hx.sel 0 (by omega)).1 (by omega)
      · exact out _ _ (hx.sel 1 (by omega)).1 (by omega)
      · exact out _ _ hx.l0 (by omega)
      · exact out _ _ (hx.sel 0 (by omega)).2.1 (by omega)
      · intro _; left; simp only [finIn, Cols.wa]; omega
      · intro _; left; simp only [finIn]; omega
      · intro _; left; simp only [finIn, Multiplication.result, Cols.wa]; omega
  have TT : totalRows (tailBlocks (F := F) c w p x srow) = rowEnd w p - rowH w p := by
    simp only [tailBlocks, totalRows, List.map_cons, List.map_nil, List.sum_cons, List.sum_nil, f1Block, mulF3Block, mulBlock]
    omega
  have TM : totalRows [(maskBlock c x srow : Block F)] = 2 := rfl
  have TC : totalRows (calls (F := F) c w p x srow) = rowEnd w p := by
    simp only [calls, totalRows_append, PO.2, PI.2, TT, TM]; omega
  have TF : totalRows [(finalBlock c w (finIn c w p x srow) (srow + rowEnd w p) : Block F)] = 4 / w + 1 + (5 / w + 1) := rfl
  refine ⟨?_, ?_, TC⟩
  · simp only [allBlocks, calls, List.append_assoc, placed_append, TM, PO.2, PI.2]
    refine ⟨⟨rfl, ?_, trivial⟩, PO.1, ?_, ?_⟩
    · rintro v ⟨i, hi, rfl | rfl⟩
      · exact out _ _ (hx.sel i hi).2.1 (by omega)
      · exact out _ _ (hx.sel i hi).2.2 (by omega)
    · have e : srow + ((2 : ℕ) : ℤ) + ((rowV w p p.nV - 2 : ℕ) : ℤ) = srow + rowV w p p.nV := by
        push_cast [Nat.cast_sub (show 2 ≤ rowV w p p.nV by omega)]; ring
      rw [e]; exact PI.1
    · have e : srow + ((2 : ℕ) : ℤ) + ((rowV w p p.nV - 2 : ℕ) : ℤ) + ((rowI w p p.nI - rowV w p p.nV : ℕ) : ℤ) = srow + rowH w p := by
        push_cast [Nat.cast_sub (show 2 ≤ rowV w p p.nV by omega), Nat.cast_sub (show rowV w p p.nV ≤ rowI w p p.nI by omega), g0]; ring
      rw [e]
      exact placed_append.1 PT
  · rw [allBlocks, totalRows_append, TC, TF, rows_eq hp]; ring

theorem blocks_good {c : Cols} {w : ℕ} {p : Par} {x : In} {srow : ℤ} (hw : 4 ≤ w) (hp : p.OK) (hc : c.OK w) (t : Table F)
    (hz : t .witness (c.w ((w : ℤ) - 1)) (srow + rowM w p) = 0) :
    ∀ b ∈ allBlocks (F := F) c w p x srow, b.Good c ∧ b.pre t := by
  have kp : 0 < p.k ∧ 0 < p.k - 1 := by
    have := hp.val_pos
    have := hp.inp_pos
    rw [k_eq hp, Par.total]; omega
  have nVp : 0 < p.nV := by rw [nV_eq]; exact hp.val_pos
  have nIp : 0 < p.nI := by rw [nI_eq]; exact hp.inp_pos
  intro b hb
  simp only [allBlocks, calls, tailBlocks, List.mem_append, List.mem_cons, List.not_mem_nil, or_false, List.mem_flatMap,
    List.mem_range, optBlocks, inpBlocks] at hb
  rcases hb with (rfl | ⟨o, ho, rfl | rfl | rfl | rfl⟩ | ⟨k, hk, rfl⟩ | rfl | rfl | rfl | rfl | rfl) | rfl
  · exact ⟨maskBlock_good c hw hc _ _, trivial⟩
  · exact ⟨gcBlock_good c (by omega) (hp.cols_pos _ (turns_lt _ _ _ (by rw [← nV_eq]; exact ho))) hc _ _, trivial⟩
  · exact ⟨mulBlock_good c (by omega) hc _ _, trivial⟩
  · exact ⟨gcBlock_good c (by omega) (hp.cols_pos _ (turns_lt _ _ _ (by rw [← nV_eq]; exact ho))) hc _ _, trivial⟩
  · exact ⟨mulBlock_good c (by omega) hc _ _, trivial⟩
  · exact ⟨gcBlock_good c (by omega) (hp.isz_pos _ (by rw [← nI_eq]; exact hk)) hc _ _, trivial⟩
  · exact ⟨f1Block_good c hw kp.1 hc _ _, trivial⟩
  · exact ⟨f1Block_good c hw nIp hc _ _, trivial⟩
  · exact ⟨f1Block_good c hw nVp hc _ _, trivial⟩
  · exact ⟨mulF3Block_good c hw kp.2 hc _ _ _, hz⟩
  · exact ⟨mulBlock_good c (by omega) hc _ _, trivial⟩
  · exact ⟨finalBlock_good c hw hc _ _, trivial⟩

theorem runAll_range (n : ℕ) (g : ℕ → List (Block F)) (t : Table F) :
    runAll ((List.range n).flatMap g) t = (List.range n).foldl (fun t i => runAll (g i) t) t := by
  induction n with
  | zero => rfl
  | succ n ih => rw [List.range_succ, List.flatMap_append, runAll_append, ih, List.foldl_append]; simp

/-- The calls run as blocks. -/
theorem calls_run (c : Cols) (w : ℕ) (p : Par) (x : In) (srow : ℤ) (t : Table F) :
    callsRun c w p x srow (maskRun c x srow t) = runAll (calls c w p x srow) t := by
  have e : rowF3 w p = rowM w p + 1 := rfl
  rw [calls, runAll_append, runAll_append, runAll_append, runAll_range, runAll_range]
  simp only [callsRun, tailBlocks, runAll, List.foldl_cons, List.foldl_nil, maskBlock, f1Block, mulF3Block, mulBlock, optBlocks,
    inpBlocks, gcBlock, e]
  push_cast
  rw [add_assoc srow]
  rfl

/-- The obligations of the blocks and the constants are all obligations. -/
theorem parts_of_blocks {c : Cols} {w : ℕ} {p : Par} {x : In} {srow : ℤ} (hw : 4 ≤ w) (hp : p.OK) {t : Table F}
    (hk : ∀ i < p.nT, t .constant (c.k 0) (srow + (i : ℤ)) = 1 + (i : F))
    (h : Sat t ((allBlocks (F := F) c w p x srow).flatMap Block.ops)) : Parts c w p x srow t := by
  simp only [allBlocks, calls, tailBlocks, List.flatMap_append, List.flatMap_cons, List.flatMap_nil, List.append_nil, sat_append,
    List.flatMap_assoc, sat_flatMap_range, optBlocks, inpBlocks] at h
  obtain ⟨⟨h1, h2, h3, h4, h5, h6, h78, h9⟩, h10⟩ := h
  obtain ⟨h7, h8⟩ := (sat_append _ _).1 h78
  have e : srow + (rowF3 w p : ℤ) = srow + rowM w p + 1 := by rw [rowF3]; push_cast; ring
  simp only [maskBlock, sat_cons] at h1
  simp only [finalBlock, finIn, sat_cons] at h10
  obtain ⟨f1, f2, f3⟩ := h10
  refine ⟨hk, fun o ho => ?_, h3, h4, h5, h6, h7, by rw [e]; exact h8, h9, ?_, ?_⟩
  · have := h2 o ho
    simp only [optOps, sat_append]
    exact ⟨⟨⟨this.1, this.2.1⟩, this.2.2.1⟩, this.2.2.2⟩
  · simp only [sat_cons]
    exact ⟨h1.1, f1, f2, sat_nil.2 trivial⟩
  · simp only [copies, sat_cons, gVar_eq hp, hVar_eq hw hp, rowLast_eq hp]
    exact ⟨h1.2.1, h1.2.2.1, h1.2.2.2.1, h1.2.2.2.2.1, f3⟩

/-- What the calls put into the cells the last rows are compared with. -/
theorem calls_facts {c : Cols} {w : ℕ} {p : Par} {x : In} {srow : ℤ} {t : Table F}
    (h : Sat t ((calls (F := F) c w p x srow).flatMap Block.ops)) :
    (c.wa 2 srow).value t = maskVal x t 0 ∧ (Multiplication.result c (srow + rowM w p)).value t =
      (F1Loop.result c w p.nI (srow + rowG1 w p)).value t * (F1Loop.result c w p.nV (srow + rowG2 w p)).value t := by
  simp only [calls, tailBlocks, List.flatMap_append, List.flatMap_cons, List.flatMap_nil, List.append_nil, sat_append,
    List.flatMap_assoc, sat_flatMap_range, optBlocks, inpBlocks] at h
  obtain ⟨h1, -, -, -, -, -, h78, -⟩ := h
  obtain ⟨h7, h8⟩ := (sat_append _ _).1 h78
  refine ⟨?_, multiplication_sound _ _ _ _ h7⟩
  simp only [maskBlock, sat_cons, holds_gate, holds_copy, Cols.value_wa, List.mem_cons, List.not_mem_nil, or_false,
    forall_eq_or_imp, forall_eq, mask_iff] at h1
  obtain ⟨⟨q1, -⟩, q2, -, q3, -⟩ := h1
  rw [Cols.value_wa, q1, q2, q3]; rfl

/-- **C64** (completeness, every width from four up). With the constants written by circuit generation in place, and the
last cell of the row of the multiplication for `g` still zero, the assigned table satisfies the circuit; only the
component's rows change. -/
theorem verifier_complete {c : Cols} {w : ℕ} {p : Par} {x : In} {srow : ℤ} (hw : 4 ≤ w) (hp : p.OK) (hc : c.OK w)
    (hx : x.Outside w p srow) (t : Table F) (hk : ∀ i < p.nT, t .constant (c.k 0) (srow + (i : ℤ)) = 1 + (i : F))
    (hz : t .witness (c.w ((w : ℤ) - 1)) (srow + rowM w p) = 0) :
    Sat (assign c w p x srow t) (circuit c w p x srow) ∧ Frame c srow (rows w p) t (assign c w p x srow t) := by
  obtain ⟨P, T, TC⟩ := placed_all (F := F) (c := c) hw hp hx
  have bg := blocks_good (x := x) hw hp hc t hz
  have key := seq_complete (fun b hb => (bg b hb).1) (laid_of_placed P (by rw [T])) t (fun b hb => (bg b hb).2)
  have hle : rowEnd w p ≤ rows w p := by rw [rows_eq hp, Nat.add_assoc]; exact Nat.le_add_right _ _
  -- the table before the last rows
  have key1 := seq_complete (c := c) (bs := calls c w p x srow) (s := srow) (fun b hb => (bg b (List.mem_append_left _ hb)).1)
    (laid_of_placed (placed_append.1 P).1 (by rw [TC]; omega)) t (fun b hb => (bg b (List.mem_append_left _ hb)).2)
  obtain ⟨c1, c2⟩ := key1
  rw [TC] at c2
  have F1 : Frame c srow (rows w p) t (runAll (calls c w p x srow) t) := c2.mono le_rfl (by omega)
  have e : assign c w p x srow t = runAll (allBlocks c w p x srow) t := by
    obtain ⟨q1, q2⟩ := calls_facts c1
    have v : ∀ v : Var, v.Outside srow (rows w p) → v.value (runAll (calls c w p x srow) t) = v.value t := fun v hv => F1.outside hv
    rw [allBlocks, runAll_append]
    simp only [assign, calls_run]
    generalize runAll (calls c w p x srow) t = T1 at *
    simp only [runAll, List.foldl_cons, List.foldl_nil, finalBlock, finIn, finalWrites]
    rw [q1, q2, v _ (hx.sel 0 (by omega)).1, v _ (hx.sel 1 (by omega)).1, v _ hx.l0, v _ (hx.sel 0 (by omega)).2.1]
    have e2 : maskVal x T1 0 = maskVal x t 0 := by
      rw [maskVal, maskVal, v _ (hx.sel 0 (by omega)).2.1, v _ (hx.sel 0 (by omega)).2.2]
    rw [e2]
  rw [e]
  rw [T] at key
  refine ⟨(parts_iff c w p x srow _).2 (parts_of_blocks hw hp (fun i hi => ?_) key.1), key.2⟩
  rw [key.2.const]; exact hk i hi

/-! ### Widths 8, 12, ... -/

/-- The multiplication and `f3_loop` run by a prover who then writes `v` into the cell of the sum. -/
def cheatBlock (c : Cols) (w : ℕ) (y : In2) (z : F3Loop.In) (s : ℤ) (v : F) : Block F :=
  { mulF3Block c w 2 y z s with run := fun t => ((mulF3Block c w 2 y z s : Block F).run t).set .witness (c.w 7) (s + 1) v }

open F3Loop in
theorem cheat_sat {c : Cols} {w : ℕ} (hw : 8 ≤ w) (h4 : w % 4 = 0) (hc : c.OK w) (z : F3Loop.In) (s : ℤ) (v : F) (t : Table F)
    (hz : ∀ i < 2, (z.a i).Outside s 1 ∧ (z.s i).Outside s 1 ∧ (z.t i).Outside s 1) (h : Sat t (F3Loop.circuit c w 2 z s)) :
    Sat (t.set .witness (c.w 7) s v) (F3Loop.circuit c w 2 z s) := by
  have hw0 : 0 < w := by omega
  have hR : F3Loop.rows w 2 = 1 := by
    unfold F3Loop.rows
    rw [Nat.div_eq_iff (by omega)]; omega
  have g0 : ((gates c w : List (Expr F)).getD 0 (.const 0)) = first c := by
    unfold gates; split_ifs; rfl
  have tc : ∀ p < 8, p ≠ 7 → tcell c 0 w s (t.set .witness (c.w 7) s v) p = tcell c 0 w s t p := by
    intro p hp h7
    rw [tcell, tcell, Nat.mod_eq_of_lt (by omega), Nat.div_eq_of_lt (by omega)]
    apply Table.set_ne
    rintro ⟨-, h, -⟩
    have := (hc.inj (i := ((p : ℕ) : ℤ) + ((0 : ℕ) : ℤ)) (j := 7) ⟨by omega, by omega⟩ ⟨by omega, by omega⟩).1 h
    omega
  have prev : (t.set .witness (c.w 7) s v) .witness (c.w ((w : ℤ) - 1)) (s - 1) = t .witness (c.w ((w : ℤ) - 1)) (s - 1) := by
    apply Table.set_ne
    rintro ⟨-, -, h⟩; omega
  unfold F3Loop.circuit at h ⊢
  rw [sat_append, F3Loop.copies_iff (by omega) (by omega)] at h ⊢
  obtain ⟨h1, h2⟩ := h
  constructor
  · intro o ho
    have ho' := h1 o ho
    simp only [List.mem_map, Prod.exists] at ho
    obtain ⟨k, r, hk, rfl⟩ := ho
    simp only [holds_gate, List.mem_singleton, forall_eq] at ho' ⊢
    rcases (mem_enabled (by omega) (by omega) k r).1 hk with ⟨rfl, rfl⟩ | ⟨j, hj, hp, hj3, -, rfl⟩
    · rw [g0, first_iff (w := w) (by omega)] at ho' ⊢
      rw [tc 3 (by omega) (by omega), tc 2 (by omega) (by omega), tc 1 (by omega) (by omega), tc 0 (by omega) (by omega)]
      exact ho'
    · have hr : r = 0 := by
        by_contra hr
        have := Nat.mul_le_mul_right w (show 1 ≤ r by omega)
        omega
      subst hr
      rw [gates_bad hw h4 c j hj (by omega), col3_first (w := w) (by omega)] at ho' ⊢
      rw [tc 3 (by omega) (by omega), tc 2 (by omega) (by omega), tc 1 (by omega) (by omega), tc 0 (by omega) (by omega), prev]
      exact ho'
  · intro i hi
    obtain ⟨o1, o2, o3⟩ := hz i hi
    rw [tc _ (by omega) (by omega), tc _ (by omega) (by omega), tc _ (by omega) (by omega),
      o1.value_set (by omega), o2.value_set (by omega), o3.value_set (by omega)]
    exact h2 i hi

theorem cheatBlock_good {c : Cols} {w : ℕ} (hw : 8 ≤ w) (h4 : w % 4 = 0) (hc : c.OK w) (y : In2) (z : F3Loop.In) (s : ℤ) (v : F) :
    (cheatBlock c w y z s v).Good c := by
  have hR : F3Loop.rows w 2 = 1 := by
    unfold F3Loop.rows
    rw [Nat.div_eq_iff (by omega)]; omega
  have g := mulF3Block_good (F := F) c (show 4 ≤ w by omega) (show 0 < 2 by omega) hc y z s
  constructor
  · intro t
    exact (g.frame t).setOK hc (by omega) (by simp only [mulF3Block, hR]; push_cast; omega) _ _
  · intro t hp h
    have hs := g.sat t hp h
    have out : ∀ u, (cheatBlock c w y z s v).needs u → u.Outside s 2 := by
      intro u hu
      have := h u hu
      simpa only [cheatBlock, mulF3Block, hR] using this
    simp only [cheatBlock]
    simp only [mulF3Block] at hs ⊢
    rw [sat_append] at hs ⊢
    constructor
    · refine (mulBlock_good (F := F) c (show 3 ≤ w by omega) hc y s).stable _ _ ⟨?_, ?_, ?_⟩ hs.1
      · intro ty i r hty; exact Table.set_ne _ _ fun hh => hty hh.1
      · intro i r h1 h2
        simp only [mulBlock] at h1 h2
        exact Table.set_ne _ _ fun hh => by have := hh.2.2; push_cast at h2; omega
      · rintro u hu
        refine ((out u ?_).value_set (r := s + 1) (by omega) _ _ _)
        rcases hu with h | h
        · exact Or.inl h
        · exact Or.inr (Or.inl h)
    · refine cheat_sat hw h4 hc z (s + 1) v _ (fun i hi => ?_) hs.2
      have o : ∀ u, (u = z.a i ∨ u = z.s i ∨ u = z.t i) → u.Outside (s + 1) 1 := fun u hu =>
        (out u (Or.inr (Or.inr ⟨i, hi, hu⟩))).mono (by omega) (by push_cast; omega)
      exact ⟨o _ (Or.inl rfl), o _ (Or.inr (Or.inl rfl)), o _ (Or.inr (Or.inr rfl))⟩
  · intro t t' h; exact g.stable t t' ⟨h.1, h.2, h.3⟩
  · intro t t' h; exact g.pre_stable t t' h

/-- **C64** (negated for widths 8, 12, ...). With three table options and lookup constraints in all, whatever the inputs are,
the prover can put any value into the fourth term: it is accepted as `v L0` for every `v`. -/
theorem verifier_unsound {c : Cols} {w : ℕ} {p : Par} {x : In} {srow : ℤ} (hw : 8 ≤ w) (h4 : w % 4 = 0) (hp : p.OK)
    (h3 : p.total = 3) (hc : c.OK w) (hx : x.Outside w p srow) (t : Table F)
    (hk : ∀ i < p.nT, t .constant (c.k 0) (srow + (i : ℤ)) = 1 + (i : F))
    (hz : t .witness (c.w ((w : ℤ) - 1)) (srow + rowM w p) = 0) (v : F) :
    ∃ t', Sat t' (circuit c w p x srow) ∧ Frame c srow (rows w p) t t' ∧
      (result c w p srow 3).value t' = v * x.l0.value t := by
  obtain ⟨P, T, TC⟩ := placed_all (F := F) (c := c) (show 4 ≤ w by omega) hp hx
  have bg := blocks_good (x := x) (show 4 ≤ w by omega) hp hc t hz
  have hk1 : p.k - 1 = 2 := by rw [k_eq hp, h3]
  have hR : F3Loop.rows w 2 = 1 := by
    unfold F3Loop.rows
    rw [Nat.div_eq_iff (by omega)]; omega
  -- the sequence with the one call replaced
  obtain ⟨A, hA⟩ : ∃ A : List (Block F), allBlocks c w p x srow = A ++ mulF3Block c w (p.k - 1) (gMulIn c w p srow) (f3In p x) (srow + rowM w p) ::
      [mulBlock c (f3MulIn c w p x srow) (srow + rowM2 w p), finalBlock c w (finIn c w p x srow) (srow + rowEnd w p)] := by
    refine ⟨[maskBlock c x srow] ++ ((List.range p.nV).flatMap (optBlocks c w p x srow) ++
      ((List.range p.nI).flatMap (inpBlocks c w p x srow) ++ [f1Block c w p.k (hIn p x) (srow + rowH w p),
      f1Block c w p.nI (g1In c w p x srow) (srow + rowG1 w p), f1Block c w p.nV (g2In c w p x srow) (srow + rowG2 w p)])), ?_⟩
    simp [allBlocks, calls, tailBlocks]
  rw [hk1] at hA
  have gm := mulBlock_good (F := F) c (show 3 ≤ w by omega) hc (f3MulIn c w p x srow) (srow + rowM2 w p)
  have gf := finalBlock_good (F := F) c (show 4 ≤ w by omega) hc (finIn c w p x srow) (srow + rowEnd w p)
  have gc := cheatBlock_good hw h4 hc (gMulIn c w p srow) (f3In p x) (srow + rowM w p) v
  let B : List (Block F) := [mulBlock c (f3MulIn c w p x srow) (srow + rowM2 w p), finalBlock c w (finIn c w p x srow) (srow + rowEnd w p)]
  let bs := A ++ cheatBlock c w (gMulIn c w p srow) (f3In p x) (srow + rowM w p) v :: B
  have hP : Placed (srow + rows w p) srow bs := by
    rw [hA, placed_append] at P
    exact placed_append.2 P
  have hT : totalRows bs = rows w p := by rw [← T, hA]; simp [bs, B, totalRows, cheatBlock]
  have hops : bs.flatMap Block.ops = (allBlocks c w p x srow).flatMap Block.ops := by rw [hA]; simp [bs, B, cheatBlock]
  have hg : ∀ b ∈ bs, b.Good c ∧ b.pre t := by
    intro b hb
    rcases List.mem_append.1 hb with hb | hb
    · exact bg b (by rw [hA]; exact List.mem_append_left _ hb)
    · rcases List.mem_cons.1 hb with rfl | hb
      · exact ⟨gc, hz⟩
      · exact bg b (by rw [hA]; exact List.mem_append_right _ (List.mem_cons_of_mem _ hb))
  have key := seq_complete (fun b hb => (hg b hb).1) (laid_of_placed hP (by rw [hT])) t (fun b hb => (hg b hb).2)
  rw [hT, hops] at key
  have hS := parts_of_blocks (show 4 ≤ w by omega) hp (fun i hi => by rw [key.2.const]; exact hk i hi) key.1
  refine ⟨runAll bs t, (parts_iff c w p x srow _).2 hS, key.2, ?_⟩
  have e : result c w p srow 3 = Multiplication.result c (srow + rowM2 w p) := by
    simp only [result, Multiplication.result, OfNat.ofNat_ne_zero, OfNat.ofNat_ne_one, Nat.reduceEqDiff, if_false]
    congr 1
    rw [rows_eq hp, rowEnd]; push_cast; ring
  rw [e, multiplication_sound _ _ _ _ hS.fm]
  simp only [f3MulIn]
  rw [key.2.outside hx.l0]
  congr 1
  -- the cell of the sum
  have hcol : F3Loop.result c w (p.k - 1) (srow + rowF3 w p) = c.wa 7 (srow + rowM w p + 1) := by
    have hl : F3Loop.lastCol w 2 = 8 := by
      unfold F3Loop.lastCol
      rcases Nat.lt_or_ge 8 w with h | h
      · rw [Nat.mod_eq_of_lt (by omega), if_neg (by omega)]
      · obtain rfl : w = 8 := by omega
        rfl
    rw [hk1, F3Loop.result, hl, hR, rowF3]
    push_cast
    congr 1; ring
  rw [hcol, Cols.value_wa]
  have r1 : rowM2 w p = rowM w p + 2 := by rw [rowM2, rowF3, hk1, hR]
  have r2 : rowEnd w p = rowM w p + 3 := by rw [rowEnd, r1]
  have fm := gm.frame
  have ff := gf.frame
  have run : runAll bs t = (finalBlock c w (finIn c w p x srow) (srow + rowEnd w p) : Block F).run
      ((mulBlock c (f3MulIn c w p x srow) (srow + rowM2 w p) : Block F).run
        ((cheatBlock c w (gMulIn c w p srow) (f3In p x) (srow + rowM w p) v).run (runAll A t))) := by
    simp only [bs, runAll_append, B]
    rfl
  rw [run, (ff _).row (by left; simp only [finalBlock, r2]; push_cast; omega), (fm _).row (by left; simp only [mulBlock, r1]; push_cast; omega)]
  simp only [cheatBlock]
  exact Table.set_same _ _ _ _ _

/-! ### Constants -/

/-- Circuit generation writes the table numbers. -/
theorem consts_written (c : Cols) (w : ℕ) (p : Par) (x : In) (srow : ℤ) (t : Table F) :
    ∀ i < p.nT, writeConsts (circuit c w p x srow) t .constant (c.k 0) (srow + (i : ℤ)) = 1 + (i : F) := by
  have hgc : ∀ d y s, ∀ o ∈ (GateComponent.circuit c w d y s : List (Op F)), ∀ col row v, o ≠ .constant col row v := by
    intro d y s o ho col row v
    unfold GateComponent.circuit GateComponent.copies at ho
    simp only [List.mem_append, List.mem_map, List.mem_cons, List.not_mem_nil, or_false] at ho
    rcases ho with ⟨_, _, rfl⟩ | ⟨_, _, rfl⟩ | h | ⟨_, _, rfl⟩ | rfl | rfl <;> try simp
    split_ifs at h
    · simp at h
    · rw [List.mem_singleton.1 h]; simp
  have hmul : ∀ y s, ∀ o ∈ (Multiplication.circuit c y s : List (Op F)), ∀ col row v, o ≠ .constant col row v := by
    intro y s o ho col row v
    unfold Multiplication.circuit at ho
    simp only [List.mem_cons, List.mem_append] at ho
    rcases ho with rfl | h | h
    · simp
    · split_ifs at h
      · rw [List.mem_singleton.1 h]; simp
      · simp at h
    · split_ifs at h
      · rw [List.mem_singleton.1 h]; simp
      · simp at h
  have hf1 : ∀ m y s, ∀ o ∈ (F1Loop.circuit c w m y s : List (Op F)), ∀ col row v, o ≠ .constant col row v := by
    intro m y s o ho col row v
    simp only [F1Loop.circuit, F1Loop.copies, List.mem_append, List.mem_map, List.mem_flatMap, List.mem_cons] at ho
    rcases ho with ⟨_, _, rfl⟩ | ⟨_, _, rfl | ⟨_, _, h⟩⟩
    · simp
    · simp
    · split_ifs at h <;> simp at h <;> (try subst h) <;> simp
  have hf3 : ∀ m y s, ∀ o ∈ (F3Loop.circuit c w m y s : List (Op F)), ∀ col row v, o ≠ .constant col row v := by
    intro m y s o ho col row v
    simp only [F3Loop.circuit, F3Loop.copies, List.mem_append, List.mem_map, List.mem_flatMap, List.mem_cons] at ho
    rcases ho with ⟨_, _, rfl⟩ | ⟨_, _, ⟨_, _, h⟩⟩
    · simp
    · split_ifs at h <;> simp at h <;> (try subst h) <;> simp
  intro i hi
  unfold circuit
  rw [List.append_assoc, List.append_assoc, List.append_assoc, List.append_assoc, List.append_assoc, List.append_assoc,
    List.append_assoc, List.append_assoc, List.append_assoc, writeConsts_append, writeConsts_noConst _ _ ?_]
  · have : ∀ n, i < n → writeConsts ((List.range n).map fun (i : ℕ) => (.constant (c.k 0) (srow + (i : ℤ)) (1 + (i : F)) : Op F)) t
        .constant (c.k 0) (srow + (i : ℤ)) = 1 + (i : F) := by
      intro n
      induction n with
      | zero => intro h; omega
      | succ n ih =>
        intro h
        rw [List.range_succ, List.map_append, writeConsts_append]
        simp only [List.map_cons, List.map_nil, writeConsts_constant, writeConsts_nil]
        rcases Nat.lt_succ_iff_lt_or_eq.1 h with h | rfl
        · rw [Table.set_ne _ _ (by rintro ⟨-, -, h'⟩; omega)]; exact ih h
        · rw [Table.set_same]
    exact this _ hi
  · intro o ho col row v
    simp only [List.mem_append, List.mem_flatMap, optOps] at ho
    rcases ho with ⟨_, _, ((h | h) | h) | h⟩ | ⟨_, _, h⟩ | h | h | h | h | h | h | h | h
    · exact hgc _ _ _ o h col row v
    · exact hmul _ _ o h col row v
    · exact hgc _ _ _ o h col row v
    · exact hmul _ _ o h col row v
    · exact hgc _ _ _ o h col row v
    · exact hf1 _ _ _ o h col row v
    · exact hf1 _ _ _ o h col row v
    · exact hf1 _ _ _ o h col row v
    · exact hmul _ _ o h col row v
    · exact hf3 _ _ _ o h col row v
    · exact hmul _ _ o h col row v
    · simp only [List.mem_cons, List.not_mem_nil, or_false] at h
      rcases h with rfl | rfl | rfl <;> simp
    · simp only [copies, List.mem_cons, List.not_mem_nil, or_false] at h
      rcases h with rfl | rfl | rfl | rfl | rfl | rfl | rfl | rfl | rfl | rfl | rfl | rfl <;> simp

/-! ### Instances -/

/-- Two tables, the first with two options of two columns, the second with one option of three columns; two gates with
one and two lookup constraints. -/
def par : Par where
  nT := 2
  opts i := [2, 1].getD i 0
  cols i := [2, 3].getD i 0
  nG := 2
  csz i := [1, 2].getD i 0
  isz i := [2, 3, 1].getD i 0
  nS := 17

theorem par_ok : par.OK := ⟨by decide, by decide, by decide, by decide, by decide⟩

/-- Inputs from public input columns, one column each; `L0` is the only one in column 0. -/
def pubIn : In where
  theta := ⟨1, 0, false, .publicInput⟩
  beta := ⟨1, 1, false, .publicInput⟩
  gamma := ⟨1, 2, false, .publicInput⟩
  alphas i := ⟨2, i, false, .publicInput⟩
  vl i := ⟨3, i, false, .publicInput⟩
  qlast i := ⟨4, i, false, .publicInput⟩
  qblind i := ⟨5, i, false, .publicInput⟩
  l0 := ⟨0, 0, false, .publicInput⟩
  gsel i := ⟨6, i, false, .publicInput⟩
  gtid i := ⟨7, i, false, .publicInput⟩
  ginp i := ⟨8, i, false, .publicInput⟩
  tsel i := ⟨9, i, false, .publicInput⟩
  topt i := ⟨10, i, false, .publicInput⟩
  tsel' i := ⟨11, i, false, .publicInput⟩
  topt' i := ⟨12, i, false, .publicInput⟩
  sorted i := ⟨13, i, false, .publicInput⟩

theorem pubIn_outside (w : ℕ) (p : Par) (srow : ℤ) : pubIn.Outside w p srow := by
  constructor <;> simp [pubIn, Var.Outside]

/-- Table numbers in the constant column from row 5 on, zero witnesses, assorted public inputs. -/
def tbl : Table (ZMod 101) := fun ty i r =>
  if ty = .constant then ((r - 4 : ℤ) : ZMod 101) else if ty = .witness then 0 else if i = 0 then 1 else ((7 * r + 3 * i + 2 : ℤ) : ZMod 101)

/-- Columns 0, ..., `w - 1`. -/
def cols (w : ℕ) : Cols := ⟨List.range w, [0], List.range 14⟩

theorem cols_ok (w : ℕ) : (cols w).OK w := ⟨by simpa [cols] using List.nodup_range, by simp [cols]⟩

theorem tbl_const : ∀ i < par.nT, tbl .constant ((cols 15).k 0) (5 + (i : ℤ)) = 1 + (i : ZMod 101) := by
  intro i _
  simp [tbl]; ring

/-- Fifteen columns, from row 5. -/
example : Sat (assign (cols 15) 15 par pubIn 5 tbl) (circuit (cols 15) 15 par pubIn 5) :=
  (verifier_complete (by omega) par_ok (cols_ok 15) (pubIn_outside _ _ _) tbl tbl_const (by simp [tbl])).1

/-- The terms of the argument are then in the result cells. -/
example : (result (cols 15) 15 par 5 3).value (assign (cols 15) 15 par pubIn 5 tbl) =
    (pubIn.vals (assign (cols 15) 15 par pubIn 5 tbl)).F3 par :=
  (verifier_sound_partial (by omega) (by omega) par_ok
    (verifier_complete (by omega) par_ok (cols_ok 15) (pubIn_outside _ _ _) tbl tbl_const (by simp [tbl])).1).2.2.2

/-- One table with one option, two lookup constraints. -/
def par3 : Par where
  nT := 1
  opts i := 1
  cols i := 1
  nG := 1
  csz i := 2
  isz i := 1
  nS := 8

theorem par3_ok : par3.OK := ⟨by decide, by decide, by decide, by decide, by decide⟩

/-- Zero everywhere but for `L0` and the number of the table. -/
def tbl0 : Table (ZMod 101) := fun ty i _ => if ty = .constant then 1 else if ty = .publicInput ∧ i = 0 then 1 else 0

/-- Eight columns, all inputs but `L0` zero: the fourth term is 0, 57 is accepted. -/
example : ∃ t : Table (ZMod 101), Sat t (circuit (cols 8) 8 par3 pubIn 5) ∧ (result (cols 8) 8 par3 5 3).value t = 57 ∧
    (pubIn.vals t).F3 par3 = 0 := by
  obtain ⟨t, h1, h2, h3⟩ := verifier_unsound (w := 8) (by omega) (by omega) par3_ok (by decide) (cols_ok 8) (pubIn_outside _ _ 5) tbl0
    (fun i hi => by
      have : i = 0 := by simp only [par3] at hi; omega
      subst this; simp [tbl0]) (by simp [tbl0]) 57
  refine ⟨t, h1, ?_, ?_⟩
  · rw [h3]; simp [pubIn, Var.value, tbl0]
  · have : ∀ i, (pubIn.sorted i).value t = 0 := by
      intro i
      rw [h2.outside (by simp [pubIn, Var.Outside])]; simp [pubIn, Var.value, tbl0]
    simp [Vals.F3, In.vals, this]

end LookupVerifier
end Verif
