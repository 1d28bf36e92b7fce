import Verif.Core.Seq
import Verif.Props.Arith
import Verif.Props.GateComponent
import Verif.Props.F1Loop
import Verif.Props.F3Loop

/-!
# Sub-components as blocks

Multiplication, `gate_component`, `f1_loop` and `f3_loop` can be placed in a sequence of components.
-/

set_option linter.unusedSimpArgs false
set_option linter.unusedSectionVars false

namespace Verif
variable {F : Type*} [Field F]

/-- A multiplication on row `s`. -/
def mulBlock (c : Cols) (x : In2) (s : ℤ) : Block F where
  start := s
  rows := 1
  ops := Multiplication.circuit c x s
  run := Multiplication.assign c x s
  needs v := v = x.x ∨ v = x.y
  pre _ := True

theorem mulBlock_good (c : Cols) {w : ℕ} (hw : 3 ≤ w) (hc : c.OK w) (x : In2) (s : ℤ) : (mulBlock c x s : Block F).Good c := by
  have hr := row1 s
  constructor
  · intro t
    exact (((Frame.refl c s 1 t).setOK hc (by omega) hr _ _).setOK hc (by omega) hr _ _).setOK hc (by omega) hr _ _
  · intro t _ h
    have hx := h x.x (Or.inl rfl)
    have hy := h x.y (Or.inr rfl)
    simp only [mulBlock] at hx hy ⊢
    have e01 : c.w 0 ≠ c.w 1 := by rw [Ne, hc.inj (by omega) (by omega)]; omega
    have e02 : c.w 0 ≠ c.w 2 := by rw [Ne, hc.inj (by omega) (by omega)]; omega
    have e12 : c.w 1 ≠ c.w 2 := by rw [Ne, hc.inj (by omega) (by omega)]; omega
    unfold Multiplication.circuit
    split <;> split <;> simp [Multiplication.assign, hx.value_set hr, hy.value_set hr,
      Table.set_apply, e01, e02, e12]
  · intro t t' ha h
    have hx := ha.input x.x (Or.inl rfl)
    have hy := ha.input x.y (Or.inr rfl)
    have ho : ∀ i, t' .witness i s = t .witness i s := fun i => ha.own i s (by simp [mulBlock]) (by simp [mulBlock])
    simp only [mulBlock] at h ⊢
    unfold Multiplication.circuit at h ⊢
    simp only [sat_cons, sat_append, holds_gate, List.mem_singleton, forall_eq, Expr.eval_sub, Expr.eval_mul, Cols.eval_wv, add_zero] at h ⊢
    refine ⟨by rw [ho, ho, ho]; exact h.1, ?_, ?_⟩
    · have := h.2.1
      split_ifs at this ⊢
      · simpa [hx, ho] using this
      · simp
    · have := h.2.2
      split_ifs at this ⊢
      · simpa [hy, ho] using this
      · simp
  · intro _ _ _ _ h; exact h

/-- A `gate_component` of degree `d` from row `s`. -/
def gcBlock (c : Cols) (w d : ℕ) (x : GateComponent.In) (s : ℤ) : Block F where
  start := s
  rows := GateComponent.rows w d
  ops := GateComponent.circuit c w d x s
  run := GateComponent.assign c w d x s
  needs v := v = x.theta ∨ v = x.sel ∨ ∃ i ≤ d, v = x.cs i
  pre _ := True

open GateComponent in
theorem gcBlock_good (c : Cols) {w d : ℕ} (hw : 3 ≤ w) (hd : 0 < d) (hc : c.OK w) (x : GateComponent.In) (s : ℤ) :
    (gcBlock c w d x s : Block F).Good c := by
  constructor
  · intro t
    exact ((writes_grid hw hd c x s t).own hc).frame t
  · intro t _ h
    exact (gate_complete hw hd c hc x s t ⟨h _ (Or.inl rfl), h _ (Or.inr (Or.inl rfl)),
      fun i hi => h _ (Or.inr (Or.inr ⟨i, hi, rfl⟩))⟩).1
  · intro t t' ha h
    have hth := ha.input x.theta (Or.inl rfl)
    have hq := ha.input x.sel (Or.inr (Or.inl rfl))
    have hcs : ∀ i ≤ d, (x.cs i).value t' = (x.cs i).value t := fun i hi => ha.input _ (Or.inr (Or.inr ⟨i, hi, rfl⟩))
    have own : ∀ i r, s ≤ r → r < s + rows w d → t' .witness i r = t .witness i r := ha.own
    have hr0 : rows0 w d ≤ rows w d := by unfold rows rows0; omega
    have hr1 : 1 ≤ rows0 w d := (rows0_last hw hd).2.1
    have T : ∀ p < 2 * d, tcell c 1 (w - 1) s t' p = tcell c 1 (w - 1) s t p := by
      intro p hp
      have hlt := Nat.mod_lt p (show 0 < w - 1 by omega)
      have e := Nat.div_add_mod p (w - 1)
      rw [Nat.mul_comm] at e
      have P := (pos_iff hw hd (p / (w - 1)) (p % (w - 1) + 1)).2 ⟨by omega, by omega, by omega⟩
      have P1 := P.1
      clear P e
      rw [tcell, tcell]
      generalize p / (w - 1) = q at *
      exact own _ _ (by omega) (by omega)
    simp only [gcBlock] at h ⊢
    rw [sat_iff hw hd] at h ⊢
    obtain ⟨⟨h1, h2, h3⟩, h4, h5, h6, h7⟩ := h
    refine ⟨⟨?_, ?_, ?_⟩, ?_, ?_, ?_, ?_⟩
    · rw [T 1 (by omega), T 0 (by omega), hth]; exact h1
    · intro i hi
      rw [T _ (by omega), T _ (by omega), T _ (by omega), hth]; exact h2 i hi
    · rw [T _ (by omega), hq, hcs 0 (by omega), ← h3]
      exact own _ _ (by change s ≤ s + (rows w d : ℤ) - 1; omega) (by change s + (rows w d : ℤ) - 1 < _; omega)
    · intro r hr
      rw [own _ _ (by omega) (by omega), hth]; exact h4 r hr
    · intro i hi
      rw [T _ (by omega), hcs _ (by omega)]; exact h5 i hi
    · rw [own _ _ (by omega) (by omega), hcs 0 (by omega)]; exact h6
    · rw [own _ _ (by omega) (by omega), hq]; exact h7
  · intro _ _ _ _ h; exact h

/-- An `f1_loop` from row `s`. -/
def f1Block (c : Cols) (w m : ℕ) (x : F1Loop.In) (s : ℤ) : Block F where
  start := s
  rows := F1Loop.rows w m
  ops := F1Loop.circuit c w m x s
  run := F1Loop.assign c w m x s
  needs v := v = x.beta ∨ v = x.gamma ∨ ∃ i < m, v = x.s i ∨ v = x.t i
  pre _ := True

open F1Loop in
theorem f1Block_good (c : Cols) {w m : ℕ} (hw : 4 ≤ w) (hm : 0 < m) (hc : c.OK w) (x : F1Loop.In) (s : ℤ) :
    (f1Block c w m x s : Block F).Good c := by
  constructor
  · intro t
    exact ((writes_grid hw hm c x s t).own hc).frame t
  · intro t _ h
    exact (f1_complete hw hm c hc x s t ⟨h _ (Or.inl rfl), h _ (Or.inr (Or.inl rfl)),
      fun i hi => ⟨h _ (Or.inr (Or.inr ⟨i, hi, Or.inl rfl⟩)), h _ (Or.inr (Or.inr ⟨i, hi, Or.inr rfl⟩))⟩⟩).1
  · intro t t' ha h
    have hb := ha.input x.beta (Or.inl rfl)
    have hg := ha.input x.gamma (Or.inr (Or.inl rfl))
    have hs : ∀ i < m, (x.s i).value t' = (x.s i).value t := fun i hi => ha.input _ (Or.inr (Or.inr ⟨i, hi, Or.inl rfl⟩))
    have ht : ∀ i < m, (x.t i).value t' = (x.t i).value t := fun i hi => ha.input _ (Or.inr (Or.inr ⟨i, hi, Or.inr rfl⟩))
    have own : ∀ i r, s ≤ r → r < s + rows w m → t' .witness i r = t .witness i r := ha.own
    have hr0 : rows0 w m ≤ rows w m := rows0_le hw hm
    have T : ∀ p < 3 * m, tcell c 1 (w - 1) s t' p = tcell c 1 (w - 1) s t p := by
      intro p hp
      have hlt := Nat.mod_lt p (show 0 < w - 1 by omega)
      have e := Nat.div_add_mod p (w - 1)
      rw [Nat.mul_comm] at e
      have P := (pos_iff hw hm (p / (w - 1)) (p % (w - 1) + 1)).2 ⟨by omega, by omega, by omega⟩
      have P1 := P.1
      clear P e
      rw [tcell, tcell]
      generalize p / (w - 1) = q at *
      exact own _ _ (by omega) (by omega)
    simp only [f1Block] at h ⊢
    rw [sat_iff hw hm] at h ⊢
    obtain ⟨⟨h1, h2⟩, h3, h4⟩ := h
    refine ⟨⟨?_, ?_⟩, ?_, ?_⟩
    · rw [T 2 (by omega), T 1 (by omega), T 0 (by omega), hb, hg]; exact h1
    · intro i hi h0
      have := h2 i hi h0
      unfold Step at this ⊢
      rw [hb, hg, T _ (by omega), T _ (by omega), T _ (by omega), T _ (by omega)]; exact this
    · intro r hr
      rw [own _ _ (by omega) (by omega), hb, hg]; exact h3 r hr
    · intro i hi
      rw [T _ (by omega), T _ (by omega), hs i hi, ht i hi]; exact h4 i hi
  · intro _ _ _ _ h; exact h

/-- A multiplication on row `s` and an `f3_loop` right after it; the last column is zero on the row of the multiplication
(`f3_loop` reads it when its selectors for column 3 are enabled on its first row). -/
def mulF3Block (c : Cols) (w m : ℕ) (y : In2) (x : F3Loop.In) (s : ℤ) : Block F where
  start := s
  rows := 1 + F3Loop.rows w m
  ops := Multiplication.circuit c y s ++ F3Loop.circuit c w m x (s + 1)
  run t := F3Loop.assign c w m x (s + 1) (Multiplication.assign c y s t)
  needs v := v = y.x ∨ v = y.y ∨ ∃ i < m, v = x.a i ∨ v = x.s i ∨ v = x.t i
  pre t := t .witness (c.w ((w : ℤ) - 1)) s = 0

open F3Loop in
/-- The obligations of `f3_loop` read its rows, the row before, and its inputs. -/
theorem f3_stable (c : Cols) {w m : ℕ} (hw : 4 ≤ w) (hm : 0 < m) (x : F3Loop.In) (s : ℤ) (t t' : Table F)
    (own : ∀ i r, s - 1 ≤ r → r < s + rows w m → t' .witness i r = t .witness i r)
    (inp : ∀ i < m, (x.a i).value t' = (x.a i).value t ∧ (x.s i).value t' = (x.s i).value t ∧ (x.t i).value t' = (x.t i).value t)
    (h : Sat t (circuit c w m x s)) : Sat t' (circuit c w m x s) := by
  have hw0 : 0 < w := by omega
  have hrow : ∀ r j : ℕ, j < w → r * w + j < 4 * m → r < rows w m := fun r j hj hp =>
    ((grid_pos (rows_last hw0 hm) (rows_pos hw0 hm) (lastCol_pos hw0).2 r j).2 ⟨hj, hp⟩).1
  unfold circuit at h ⊢
  rw [sat_append, copies_iff hw hm] at h ⊢
  constructor
  · intro o ho
    have := h.1 o ho
    simp only [List.mem_map, Prod.exists] at ho
    obtain ⟨k, r, hk, rfl⟩ := ho
    simp only [holds_gate, List.mem_singleton, forall_eq] at this ⊢
    have hr : r < rows w m := by
      rcases (mem_enabled hw hm k r).1 hk with ⟨rfl, rfl⟩ | ⟨j, hj, hp, -⟩
      · exact rows_pos hw0 hm
      · exact hrow r j hj hp
    rw [gates_local c w k t t' _ (fun i => own _ _ (by omega) (by omega)) (fun i => own _ _ (by omega) (by omega))]
    exact this
  · intro i hi
    have T : ∀ p < 4 * m, tcell c 0 w s t' p = tcell c 0 w s t p := by
      intro p hp
      have := hrow (p / w) (p % w) (Nat.mod_lt _ hw0) (by rw [Nat.mul_comm, Nat.div_add_mod]; exact hp)
      rw [tcell, tcell]
      generalize p / w = q at *
      exact own _ _ (by omega) (by omega)
    obtain ⟨e1, e2, e3⟩ := inp i hi
    rw [T _ (by omega), T _ (by omega), T _ (by omega), e1, e2, e3]
    exact h.2 i hi

open F3Loop in
theorem mulF3Block_good (c : Cols) {w m : ℕ} (hw : 4 ≤ w) (hm : 0 < m) (hc : c.OK w) (y : In2) (x : F3Loop.In) (s : ℤ) :
    (mulF3Block c w m y x s : Block F).Good c := by
  have gm := mulBlock_good (F := F) c (show 3 ≤ w by omega) hc y s
  have hfm : ∀ t : Table F, Frame c s 1 t (Multiplication.assign c y s t) := gm.frame
  have hf3 : ∀ t : Table F, Frame c (s + 1) (rows w m) t (assign c w m x (s + 1) t) :=
    fun t => ((writes_grid hw hm c x (s + 1) t).own hc).frame t
  constructor
  · intro t
    exact ((hfm t).mono (by simp [mulF3Block]) (by simp [mulF3Block])).trans
      ((hf3 _).mono (by simp [mulF3Block]) (by simp only [mulF3Block]; push_cast; omega))
  · intro t hp h
    have hp : t .witness (c.w ((w : ℤ) - 1)) s = 0 := hp
    have out : ∀ v, (v = y.x ∨ v = y.y ∨ ∃ i < m, v = x.a i ∨ v = x.s i ∨ v = x.t i) → v.Outside s (1 + rows w m) := h
    simp only [mulF3Block]
    rw [sat_append]
    constructor
    · refine gm.stable (Multiplication.assign c y s t) _ ⟨(hf3 _).sameConst, fun i r h1 h2 => ?_, fun v hv => ?_⟩ ?_
      · simp only [mulBlock] at h1 h2
        exact (hf3 _).row (by push_cast at h2; omega) _ _
      · refine (hf3 _).outside ((out v ?_).mono (by omega) (by push_cast; omega))
        rcases hv with h | h
        · exact Or.inl h
        · exact Or.inr (Or.inl h)
      · refine gm.sat t trivial fun v hv => (out v ?_).mono (by simp [mulBlock]) (by simp [mulBlock])
        rcases hv with h | h
        · exact Or.inl h
        · exact Or.inr (Or.inl h)
    · have o3 : ∀ i < m, ∀ v, (v = x.a i ∨ v = x.s i ∨ v = x.t i) → v.Outside (s + 1) (rows w m) := fun i hi v hv =>
        (out v (Or.inr (Or.inr ⟨i, hi, hv⟩))).mono (by omega) (by push_cast; omega)
      refine f3_complete_zero hw hm c hc x (s + 1) _ (fun i hi => ⟨o3 i hi _ (Or.inl rfl), o3 i hi _ (Or.inr (Or.inl rfl)),
        o3 i hi _ (Or.inr (Or.inr rfl))⟩) ?_
      have e0 : c.w ((w : ℤ) - 1) ≠ c.w 0 := by rw [Ne, hc.inj (by omega) (by omega)]; omega
      have e1 : c.w ((w : ℤ) - 1) ≠ c.w 1 := by rw [Ne, hc.inj (by omega) (by omega)]; omega
      have e2 : c.w ((w : ℤ) - 1) ≠ c.w 2 := by rw [Ne, hc.inj (by omega) (by omega)]; omega
      simp [Multiplication.assign, Table.set_apply, e0, e1, e2, hp]
  · intro t t' ha h
    have own : ∀ i r, s ≤ r → r < s + (1 + rows w m : ℕ) → t' .witness i r = t .witness i r := ha.own
    have inp : ∀ v, (v = y.x ∨ v = y.y ∨ ∃ i < m, v = x.a i ∨ v = x.s i ∨ v = x.t i) → v.value t' = v.value t := ha.input
    simp only [mulF3Block] at h ⊢
    rw [sat_append] at h ⊢
    constructor
    · refine gm.stable t t' ⟨ha.const, fun i r h1 h2 => ?_, fun v hv => inp v ?_⟩ h.1
      · simp only [mulBlock] at h1 h2
        exact own i r h1 (by push_cast at h2 ⊢; omega)
      · rcases hv with h | h
        · exact Or.inl h
        · exact Or.inr (Or.inl h)
    · refine f3_stable c hw hm x (s + 1) t t' (fun i r h1 h2 => own i r (by omega) (by push_cast; omega)) (fun i hi => ?_) h.2
      exact ⟨inp _ (Or.inr (Or.inr ⟨i, hi, Or.inl rfl⟩)), inp _ (Or.inr (Or.inr ⟨i, hi, Or.inr (Or.inl rfl)⟩)),
        inp _ (Or.inr (Or.inr ⟨i, hi, Or.inr (Or.inr rfl)⟩))⟩
  · intro t t' _ own h
    simp only [mulF3Block] at own h ⊢
    rw [own _ _ le_rfl (by push_cast; omega)]; exact h

end Verif
