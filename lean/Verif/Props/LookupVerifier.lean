import Verif.Model.LookupVerifier
import Verif.Props.Blocks

/-!
# C64: the lookup argument
-/

set_option linter.unusedSimpArgs false
set_option linter.unusedSectionVars false
set_option linter.unusedVariables false

namespace Verif
namespace LookupVerifier
variable {F : Type*} [Field F]

/-! ### Specification -/

/-- A selected tuple compressed with powers of theta, `q (id + Σ_{k<n} θ^(k+1) v_k)`. -/
def entry (th q id : F) (n : ℕ) (v : ℕ → F) : F := q * (id + ∑ k ∈ Finset.range n, th ^ (k + 1) * v k)

/-- Values of the inputs. -/
structure Vals (F : Type*) where
  th : F
  be : F
  ga : F
  al : ℕ → F
  vl : ℕ → F
  ql : ℕ → F
  qb : ℕ → F
  l0 : F
  gsel : ℕ → F
  gtid : ℕ → F
  ginp : ℕ → F
  tsel : ℕ → F
  topt : ℕ → F
  tsel' : ℕ → F
  topt' : ℕ → F
  so : ℕ → F

/-- `1 - (q_last + q_blind)`. -/
def Vals.mask (v : Vals F) (i : ℕ) : F := 1 - (v.ql i + v.qb i)

/-- Option `j` of table `i`; the options of earlier tables come first. -/
def Vals.value (v : Vals F) (p : Par) (i j : ℕ) : F :=
  v.mask 0 * entry v.th (v.tsel i) (1 + i) (p.cols i) fun k => v.topt ((∑ l ∈ Finset.range i, p.opts l * p.cols l) + j * p.cols i + k)

/-- The same one row further. -/
def Vals.value' (v : Vals F) (p : Par) (i j : ℕ) : F :=
  v.mask 1 * entry v.th (v.tsel' i) (1 + i) (p.cols i) fun k => v.topt' ((∑ l ∈ Finset.range i, p.opts l * p.cols l) + j * p.cols i + k)

/-- Lookup constraint `j` of gate `g`; the constraints are numbered through. -/
def Vals.input (v : Vals F) (p : Par) (g j : ℕ) : F :=
  let n := (∑ l ∈ Finset.range g, p.csz l) + j
  entry v.th (v.gsel g) (v.gtid n) (p.isz n) fun k => v.ginp ((∑ l ∈ Finset.range n, p.isz l) + k)

/-- Number of table options and lookup constraints. -/
def Par.total (p : Par) : ℕ := (∑ i ∈ Finset.range p.nT, p.opts i) + ∑ g ∈ Finset.range p.nG, p.csz g

def Vals.h (v : Vals F) (p : Par) : F :=
  ∏ i ∈ Finset.range p.total, ((1 + v.be) * v.ga + v.so i + v.be * v.so (p.total + i))

def Vals.g (v : Vals F) (p : Par) : F :=
  (∏ g ∈ Finset.range p.nG, ∏ j ∈ Finset.range (p.csz g), (1 + v.be) * (v.ga + v.input p g j)) *
  ∏ i ∈ Finset.range p.nT, ∏ j ∈ Finset.range (p.opts i), ((1 + v.be) * v.ga + v.value p i j + v.be * v.value' p i j)

/-- The four terms of the argument. -/
def Vals.F0 (v : Vals F) : F := v.l0 * (1 - v.vl 0)
def Vals.F1 (v : Vals F) : F := v.ql 0 * (v.vl 0 ^ 2 - v.vl 0)
def Vals.F2 (v : Vals F) (p : Par) : F := v.mask 0 * (v.vl 1 * v.h p - v.vl 0 * v.g p)
def Vals.F3 (v : Vals F) (p : Par) : F :=
  v.l0 * ∑ i ∈ Finset.range (p.total - 1), v.al i * (v.so (i + 1) - v.so (2 * p.total + i))

/-- The values in a table. -/
def In.vals (x : In) (t : Table F) : Vals F where
  th := x.theta.value t
  be := x.beta.value t
  ga := x.gamma.value t
  al i := (x.alphas i).value t
  vl i := (x.vl i).value t
  ql i := (x.qlast i).value t
  qb i := (x.qblind i).value t
  l0 := x.l0.value t
  gsel i := (x.gsel i).value t
  gtid i := (x.gtid i).value t
  ginp i := (x.ginp i).value t
  tsel i := (x.tsel i).value t
  topt i := (x.topt i).value t
  tsel' i := (x.tsel' i).value t
  topt' i := (x.topt' i).value t
  so i := (x.sorted i).value t

/-- What the component expects of its sizes: no empty tuples, at least one table option and one lookup constraint, and
`3 m - 1` sorted values. -/
structure Par.OK (p : Par) : Prop where
  cols_pos : ∀ i < p.nT, 0 < p.cols i
  isz_pos : ∀ k < ∑ g ∈ Finset.range p.nG, p.csz g, 0 < p.isz k
  val_pos : 0 < ∑ i ∈ Finset.range p.nT, p.opts i
  inp_pos : 0 < ∑ g ∈ Finset.range p.nG, p.csz g
  sorted : p.nS = 3 * p.total - 1

/-! ### Loops over pairs -/

theorem turns_succ (n : ℕ) (sz : ℕ → ℕ) : turns (n + 1) sz = turns n sz ++ List.replicate (sz n) n := by
  simp [turns, List.range_succ]

theorem turns_length (n : ℕ) (sz : ℕ → ℕ) : (turns n sz).length = ∑ i ∈ Finset.range n, sz i := by
  induction n with
  | zero => rfl
  | succ n ih => rw [turns_succ, List.length_append, ih, List.length_replicate, Finset.sum_range_succ]

theorem turns_get (n : ℕ) (sz : ℕ → ℕ) (i j : ℕ) (hi : i < n) (hj : j < sz i) :
    (turns n sz).getD ((∑ l ∈ Finset.range i, sz l) + j) 0 = i := by
  induction n with
  | zero => omega
  | succ n ih =>
    rw [turns_succ]
    rcases Nat.lt_succ_iff_lt_or_eq.1 hi with h | rfl
    · have h1 : (∑ l ∈ Finset.range i, sz l) + j < ∑ l ∈ Finset.range n, sz l := by
        have h2 : ∑ l ∈ Finset.range (i + 1), sz l ≤ ∑ l ∈ Finset.range n, sz l :=
          Finset.sum_le_sum_of_subset (by intro a; simp only [Finset.mem_range]; omega)
        rw [Finset.sum_range_succ] at h2; omega
      rw [List.getD_append _ _ _ _ (by rw [turns_length]; exact h1)]
      exact ih h
    · rw [List.getD_append_right _ _ _ _ (by rw [turns_length]; omega), turns_length, Nat.add_sub_cancel_left]
      rw [List.getD_eq_getElem _ _ (by simpa using hj)]
      simp

theorem turns_lt (n : ℕ) (sz : ℕ → ℕ) (o : ℕ) (h : o < ∑ i ∈ Finset.range n, sz i) : (turns n sz).getD o 0 < n := by
  rw [List.getD_eq_getElem _ _ (by rw [turns_length]; exact h)]
  have := List.getElem_mem (l := turns n sz) (n := o) (by rw [turns_length]; exact h)
  unfold turns at this
  obtain ⟨i, hi, hm⟩ := List.mem_flatMap.1 this
  have e := List.eq_of_mem_replicate hm
  have := List.mem_range.1 hi
  unfold turns; omega

theorem prod_turns (n : ℕ) (sz : ℕ → ℕ) (f : ℕ → F) : ∏ o ∈ Finset.range (∑ i ∈ Finset.range n, sz i), f o =
    ∏ i ∈ Finset.range n, ∏ j ∈ Finset.range (sz i), f ((∑ l ∈ Finset.range i, sz l) + j) := by
  induction n with
  | zero => rfl
  | succ n ih => rw [Finset.sum_range_succ, Finset.prod_range_add, ih, Finset.prod_range_succ]

theorem nV_eq (p : Par) : p.nV = ∑ i ∈ Finset.range p.nT, p.opts i := turns_length _ _
theorem nI_eq (p : Par) : p.nI = ∑ i ∈ Finset.range p.nG, p.csz i := turns_length _ _
theorem m_eq (p : Par) : p.m = p.total := by rw [Par.m, Par.total, nV_eq, nI_eq]

theorem k_eq {p : Par} (hp : p.OK) : p.k = p.total := by
  have := hp.val_pos
  have := hp.sorted
  unfold Par.k Par.total at *
  omega

theorem start_eq (p : Par) (k : ℕ) : p.start k = ∑ l ∈ Finset.range k, p.isz l := by
  induction k with
  | zero => rfl
  | succ k ih => rw [Par.start, ih, Finset.sum_range_succ]

theorem tab_eq (p : Par) (i j : ℕ) (hi : i < p.nT) (hj : j < p.opts i) : p.tab ((∑ l ∈ Finset.range i, p.opts l) + j) = i :=
  turns_get _ _ i j hi hj

theorem gid_eq (p : Par) (i j : ℕ) (hi : i < p.nG) (hj : j < p.csz i) : p.gid ((∑ l ∈ Finset.range i, p.csz l) + j) = i :=
  turns_get _ _ i j hi hj

theorem pos_eq (p : Par) (i j : ℕ) (hi : i < p.nT) (hj : j ≤ p.opts i) :
    p.pos ((∑ l ∈ Finset.range i, p.opts l) + j) = (∑ l ∈ Finset.range i, p.opts l * p.cols l) + j * p.cols i := by
  induction i generalizing j with
  | zero =>
    induction j with
    | zero => simp [Par.pos]
    | succ j ih =>
      rw [← Nat.add_assoc, Par.pos, ih (by omega), tab_eq p 0 j hi (by omega)]; ring
  | succ i ih =>
    induction j with
    | zero =>
      have := ih (p.opts i) (by omega) le_rfl
      rw [Finset.sum_range_succ, Finset.sum_range_succ]
      simpa using this
    | succ j ih2 =>
      rw [← Nat.add_assoc, Par.pos, ih2 (by omega), tab_eq p (i + 1) j hi (by omega)]; ring

/-! ### Rows -/

theorem rowV_eq (w : ℕ) (p : Par) (o : ℕ) : rowV w p o = 2 + ((List.range o).map (optRows w p)).sum := by
  induction o with
  | zero => rfl
  | succ o ih => rw [rowV, ih, List.range_succ]; simp; ring

theorem rowI_eq (w : ℕ) (p : Par) (k : ℕ) :
    rowI w p k = rowV w p p.nV + ((List.range k).map fun k => GateComponent.rows w (p.isz k)).sum := by
  induction k with
  | zero => rfl
  | succ k ih => rw [rowI, ih, List.range_succ]; simp; ring

theorem rows_eq {w : ℕ} {p : Par} (hp : p.OK) : rows w p = rowEnd w p + (4 / w + 1) + (5 / w + 1) := by
  rw [rowEnd, rowM2, rowF3, rowM, rowG2, rowG1, rowH, rowI_eq, rowV_eq, k_eq hp, ← m_eq, rows, Nat.add_comm p.nI p.nV, ← Par.m]
  ring

theorem rowLast_eq {w : ℕ} {p : Par} (hp : p.OK) (srow : ℤ) : rowLast w p srow = srow + rowEnd w p := by
  rw [rowEnd, rowM2, rowF3, rowM, rowG2, rowG1, rowH, k_eq hp, rowLast, rowG, m_eq]
  push_cast; ring

theorem gVar_eq {w : ℕ} {p : Par} (hp : p.OK) (c : Cols) (srow : ℤ) :
    gVar c w p srow = Multiplication.result c (srow + rowM w p) := by
  rw [gVar, rowG, Multiplication.result, rowM, rowG2, rowG1, rowH, k_eq hp, m_eq]
  push_cast
  congr 1; ring

theorem hVar_eq {w : ℕ} (hw : 4 ≤ w) {p : Par} (hp : p.OK) (c : Cols) (srow : ℤ) :
    hVar c w p srow = F1Loop.result c w p.k (srow + rowH w p) := by
  have hm : 0 < p.m := by have := hp.val_pos; rw [m_eq]; unfold Par.total; omega
  rw [hVar, F1Loop.result, k_eq hp, ← m_eq, F1Loop.lastJ, rowH]
  split_ifs with h1 h2 h2
  · rw [(F1Loop.rows_one hw hm (by omega)).1]; push_cast; congr 1; ring
  · push_cast; congr 1
  · rw [(F1Loop.rows_one hw hm (by omega)).1]; push_cast; congr 1; ring
  · push_cast; congr 1

/-! ### Soundness -/

/-- The pieces of the circuit. -/
structure Parts (c : Cols) (w : ℕ) (p : Par) (x : In) (srow : ℤ) (t : Table F) : Prop where
  const : ∀ i < p.nT, t .constant (c.k 0) (srow + (i : ℤ)) = 1 + (i : F)
  opt : ∀ o < p.nV, Sat t (optOps c w p x srow o)
  inp : ∀ k < p.nI, Sat t (GateComponent.circuit c w (p.isz k) (inpIn p x k) (srow + rowI w p k))
  h : Sat t (F1Loop.circuit c w p.k (hIn p x) (srow + rowH w p))
  g1 : Sat t (F1Loop.circuit c w p.nI (g1In c w p x srow) (srow + rowG1 w p))
  g2 : Sat t (F1Loop.circuit c w p.nV (g2In c w p x srow) (srow + rowG2 w p))
  gm : Sat t (Multiplication.circuit c (gMulIn c w p srow) (srow + rowM w p))
  f3 : Sat t (F3Loop.circuit c w (p.k - 1) (f3In p x) (srow + rowF3 w p))
  fm : Sat t (Multiplication.circuit c (f3MulIn c w p x srow) (srow + rowM2 w p))
  own : Sat t ([.gate (maskGate c) [srow, srow + 1], .gate (gate1 c w) [srow + rowEnd w p],
    .gate (gate2 c w) [srow + rowEnd w p + (4 / w + 1 : ℕ)]] : List (Op F))
  cp : Sat t (copies c w p x srow : List (Op F))

theorem sat_flatMap_range (t : Table F) (n : ℕ) (f : ℕ → List (Op F)) :
    Sat t ((List.range n).flatMap f) ↔ ∀ i < n, Sat t (f i) := by
  simp only [Sat, List.mem_flatMap, List.mem_range]
  constructor
  · intro h i hi o ho; exact h o ⟨i, hi, ho⟩
  · rintro h o ⟨i, hi, ho⟩; exact h i hi o ho

theorem parts_iff (c : Cols) (w : ℕ) (p : Par) (x : In) (srow : ℤ) (t : Table F) :
    Sat t (circuit c w p x srow) ↔ Parts c w p x srow t := by
  have hk : Sat t ((List.range p.nT).map fun (i : ℕ) => (.constant (c.k 0) (srow + (i : ℤ)) (1 + (i : F)) : Op F)) ↔
      ∀ i < p.nT, t .constant (c.k 0) (srow + (i : ℤ)) = 1 + (i : F) := by
    simp [Sat]
  unfold circuit
  simp only [sat_append, sat_flatMap_range, hk]
  constructor
  · rintro ⟨⟨⟨⟨⟨⟨⟨⟨⟨⟨a1, a2⟩, a3⟩, a4⟩, a5⟩, a6⟩, a7⟩, a8⟩, a9⟩, a10⟩, a11⟩
    exact ⟨a1, a2, a3, a4, a5, a6, a7, a8, a9, a10, a11⟩
  · rintro ⟨a1, a2, a3, a4, a5, a6, a7, a8, a9, a10, a11⟩
    exact ⟨⟨⟨⟨⟨⟨⟨⟨⟨⟨a1, a2⟩, a3⟩, a4⟩, a5⟩, a6⟩, a7⟩, a8⟩, a9⟩, a10⟩, a11⟩

/-- A `gate_component` on a tuple. -/
theorem spec_entry (n : ℕ) (th q : F) (C : ℕ → F) :
    GateComponent.spec n th q C = entry th q (C 0) n fun k => C (k + 1) := by
  rw [GateComponent.spec, entry, Finset.sum_range_succ']
  simp [add_comm]

/-- The mask gate. -/
theorem mask_iff (c : Cols) (t : Table F) (r : ℤ) :
    (∀ e ∈ maskGate c, Expr.eval t r e = 0) ↔
      t .witness (c.w 2) r = 1 - (t .witness (c.w 0) r + t .witness (c.w 1) r) := by
  simp only [maskGate, List.mem_singleton, forall_eq, Expr.eval_sub, Expr.eval_add, Expr.eval_const, Cols.eval_wv, add_zero,
    sub_eq_zero]
  rw [add_comm (t .witness (c.w 1) r)]

variable {c : Cols} {w : ℕ} {p : Par} {x : In} {srow : ℤ} {t : Table F}

theorem mask_value (hP : Parts c w p x srow t) (i : ℕ) (hi : i < 2) :
    (maskVar c srow i).value t = (x.vals t).mask i := by
  have g := hP.own
  have d := hP.cp
  simp only [copies, sat_cons, holds_copy, Cols.value_wa] at d
  simp only [sat_cons, holds_gate, List.mem_cons, List.not_mem_nil, or_false, forall_eq_or_imp, forall_eq] at g
  obtain ⟨d1, d2, d3, d4, -⟩ := d
  have m0 := (mask_iff c t srow).1 g.1.1
  have m1 := (mask_iff c t (srow + 1)).1 g.1.2
  interval_cases i
  · simp only [maskVar, Cols.value_wa, Vals.mask, In.vals, Nat.cast_zero, add_zero]
    rw [m0, d1, d3]
  · simp only [maskVar, Cols.value_wa, Vals.mask, In.vals, Nat.cast_one]
    rw [m1, d2, d4]

theorem values_value (hw : 4 ≤ w) (hp : p.OK) (hP : Parts c w p x srow t) (i j : ℕ) (hi : i < p.nT) (hj : j < p.opts i) :
    (values c w p srow ((∑ l ∈ Finset.range i, p.opts l) + j)).value t = (x.vals t).value p i j ∧
    (values' c w p srow ((∑ l ∈ Finset.range i, p.opts l) + j)).value t = (x.vals t).value' p i j := by
  have ho : (∑ l ∈ Finset.range i, p.opts l) + j < p.nV := by
    rw [nV_eq]
    have h2 : ∑ l ∈ Finset.range (i + 1), p.opts l ≤ ∑ l ∈ Finset.range p.nT, p.opts l :=
      Finset.sum_le_sum_of_subset (by intro a; simp only [Finset.mem_range]; omega)
    rw [Finset.sum_range_succ] at h2; omega
  have hs := hP.opt _ ho
  simp only [optOps, sat_append] at hs
  obtain ⟨⟨⟨h1, h2⟩, h3⟩, h4⟩ := hs
  have e2 := multiplication_sound _ _ _ _ h2
  have e4 := multiplication_sound _ _ _ _ h4
  have ht := tab_eq p i j hi hj
  have hq := pos_eq p i j hi hj.le
  have hc : 0 < p.cols (p.tab ((∑ l ∈ Finset.range i, p.opts l) + j)) := by rw [ht]; exact hp.cols_pos i hi
  have e1 := GateComponent.gate_sound (by omega) hc _ _ _ _ h1
  have e3 := GateComponent.gate_sound (by omega) hc _ _ _ _ h3
  have k := hP.const i hi
  constructor
  · rw [values, e2]
    simp only [mulIn]
    rw [e1, mask_value hP 0 (by omega), GateComponent.In.spec, spec_entry]
    simp only [valIn, ht, hq, if_true, Nat.add_sub_cancel, Nat.succ_ne_zero, if_false, tid, Var.value, k, Vals.value]
    rw [mul_comm]; rfl
  · rw [values', e4]
    simp only [mulIn']
    rw [e3, mask_value hP 1 (by omega), GateComponent.In.spec, spec_entry]
    simp only [valIn', ht, hq, if_true, Nat.add_sub_cancel, Nat.succ_ne_zero, if_false, tid, Var.value, k, Vals.value']
    rw [mul_comm]; rfl

theorem inputs_value (hw : 4 ≤ w) (hp : p.OK) (hP : Parts c w p x srow t) (i j : ℕ) (hi : i < p.nG) (hj : j < p.csz i) :
    (inputs c w p srow ((∑ l ∈ Finset.range i, p.csz l) + j)).value t = (x.vals t).input p i j := by
  have ho : (∑ l ∈ Finset.range i, p.csz l) + j < ∑ l ∈ Finset.range p.nG, p.csz l := by
    have h2 : ∑ l ∈ Finset.range (i + 1), p.csz l ≤ ∑ l ∈ Finset.range p.nG, p.csz l :=
      Finset.sum_le_sum_of_subset (by intro a; simp only [Finset.mem_range]; omega)
    rw [Finset.sum_range_succ] at h2; omega
  have hs := hP.inp _ (by rw [nI_eq]; exact ho)
  have e := GateComponent.gate_sound (by omega) (hp.isz_pos _ ho) _ _ _ _ hs
  rw [inputs, e, GateComponent.In.spec, spec_entry]
  simp only [inpIn, gid_eq p i j hi hj, start_eq, if_true, Nat.add_sub_cancel, Nat.succ_ne_zero, if_false, Vals.input]
  rfl

theorem h_value (hw : 4 ≤ w) (hp : p.OK) (hP : Parts c w p x srow t) :
    (F1Loop.result c w p.k (srow + rowH w p)).value t = (x.vals t).h p := by
  have hk : 0 < p.k := by rw [k_eq hp, Par.total]; have := hp.val_pos; omega
  rw [F1Loop.f1_sound hw hk c (hIn p x) (srow + rowH w p) t hP.h, k_eq hp]
  simp only [F1Loop.In.spec, F1Loop.spec, hIn, s0, s1, Vals.h, k_eq hp]
  rfl

theorem g_value (hw : 4 ≤ w) (hp : p.OK) (hP : Parts c w p x srow t) :
    (Multiplication.result c (srow + rowM w p)).value t = (x.vals t).g p := by
  rw [multiplication_sound _ _ _ _ hP.gm]
  simp only [gMulIn]
  rw [F1Loop.f1_sound hw (by rw [nI_eq]; exact hp.inp_pos) _ _ _ _ hP.g1,
    F1Loop.f1_sound hw (by rw [nV_eq]; exact hp.val_pos) _ _ _ _ hP.g2]
  simp only [F1Loop.In.spec, F1Loop.spec, g1In, g2In, Vals.g]
  rw [nI_eq, nV_eq, prod_turns, prod_turns]
  congr 1
  · refine Finset.prod_congr rfl fun i hi => Finset.prod_congr rfl fun j hj => ?_
    rw [inputs_value hw hp hP i j (Finset.mem_range.1 hi) (Finset.mem_range.1 hj)]
    change (1 + x.beta.value t) * x.gamma.value t + _ + x.beta.value t * _ = (1 + x.beta.value t) * (x.gamma.value t + _)
    ring
  · refine Finset.prod_congr rfl fun i hi => Finset.prod_congr rfl fun j hj => ?_
    obtain ⟨e1, e2⟩ := values_value hw hp hP i j (Finset.mem_range.1 hi) (Finset.mem_range.1 hj)
    rw [e1, e2]; rfl

theorem cell_eval (c : Cols) (w i : ℕ) (t : Table F) (r : ℤ) :
    (cell c w i : Expr F).eval t r = t .witness (c.w ((i % w : ℕ) : ℤ)) (r + ((i / w : ℕ) : ℤ)) := by simp [cell]

/-- **C64** (soundness of the first three terms, every width from four up). -/
theorem verifier_sound_F012 (hw : 4 ≤ w) (hp : p.OK) (h : Sat t (circuit c w p x srow)) :
    (result c w p srow 0).value t = (x.vals t).F0 ∧ (result c w p srow 1).value t = (x.vals t).F1 ∧
    (result c w p srow 2).value t = (x.vals t).F2 p := by
  have hP := (parts_iff c w p x srow t).1 h
  have g := hP.own
  have d := hP.cp
  simp only [copies, sat_cons, holds_copy, Cols.value_wa, gVar_eq hp, hVar_eq hw hp, rowLast_eq hp, h_value hw hp hP,
    g_value hw hp hP] at d
  simp only [sat_cons, holds_gate, List.mem_singleton, forall_eq, gate1, gate2, List.mem_cons, List.not_mem_nil, or_false,
    forall_eq_or_imp, Expr.eval_sub, Expr.eval_mul, Expr.eval_const, cell_eval] at g
  obtain ⟨-, -, -, -, d5, d6, d7, d8, d9, d10, d11, d12, -⟩ := d
  obtain ⟨-, ⟨g1, g2⟩, g3, -⟩ := g
  have m0 : t .witness (c.w 2) srow = (x.vals t).mask 0 := by
    have := mask_value hP 0 (by omega)
    simpa [maskVar] using this
  have a : ∀ i < 4, i % w = i ∧ i / w = 0 := fun i hi => ⟨Nat.mod_eq_of_lt (by omega), Nat.div_eq_of_lt (by omega)⟩
  rw [(a 0 (by omega)).1, (a 1 (by omega)).1, (a 2 (by omega)).1, (a 0 (by omega)).2, (a 1 (by omega)).2,
    (a 2 (by omega)).2] at g1
  rw [(a 0 (by omega)).1, (a 3 (by omega)).1, (a 0 (by omega)).2, (a 3 (by omega)).2] at g2
  rw [(a 0 (by omega)).1, (a 1 (by omega)).1, (a 2 (by omega)).1, (a 3 (by omega)).1, (a 0 (by omega)).2, (a 1 (by omega)).2,
    (a 2 (by omega)).2, (a 3 (by omega)).2] at g3
  simp only [Nat.cast_zero, Nat.cast_one, Nat.cast_ofNat, add_zero] at g1 g2 g3
  rw [d5, d6] at g1
  rw [d5, d7] at g2
  rw [d8, d9, d10, d11, d12, m0] at g3
  have hr := rows_eq (w := w) hp
  refine ⟨?_, ?_, ?_⟩
  · simp only [result, if_true, Cols.value_wa]
    rw [(a 2 (by omega)).1, (a 2 (by omega)).2, show srow + (rows w p : ℤ) - ((4 / w + 5 / w + 2 : ℕ) : ℤ) + ((0 : ℕ) : ℤ) = srow + rowEnd w p by
      rw [hr]; push_cast; ring, Nat.cast_ofNat]
    simp only [Vals.F0, In.vals]
    linear_combination g1
  · simp only [result, one_ne_zero, if_true, if_false, Cols.value_wa]
    rw [show srow + (rows w p : ℤ) - ((4 / w + 5 / w + 2 : ℕ) : ℤ) + ((4 / w : ℕ) : ℤ) = srow + rowEnd w p + ((4 / w : ℕ) : ℤ) by
      rw [hr]; push_cast; ring]
    simp only [Vals.F1, In.vals]
    linear_combination g2
  · simp only [result, OfNat.ofNat_ne_zero, OfNat.ofNat_ne_one, if_true, if_false, Cols.value_wa]
    rw [show srow + (rows w p : ℤ) - 1 = srow + rowEnd w p + ((4 / w + 1 : ℕ) : ℤ) + ((5 / w : ℕ) : ℤ) by
      rw [hr]; push_cast; ring]
    simp only [Vals.F2]
    simp only [In.vals] at g3 ⊢
    linear_combination g3

/-- **C64** (soundness of the fourth term). For widths 8, 12, ... it is not determined, see `verifier_unsound`. -/
theorem verifier_sound_partial (hw : 4 ≤ w) (hg : w % 4 ≠ 0 ∨ w = 4) (hp : p.OK) (h : Sat t (circuit c w p x srow)) :
    (result c w p srow 0).value t = (x.vals t).F0 ∧ (result c w p srow 1).value t = (x.vals t).F1 ∧
    (result c w p srow 2).value t = (x.vals t).F2 p ∧ (result c w p srow 3).value t = (x.vals t).F3 p := by
  obtain ⟨a0, a1, a2⟩ := verifier_sound_F012 hw hp h
  refine ⟨a0, a1, a2, ?_⟩
  have hP := (parts_iff c w p x srow t).1 h
  have e : result c w p srow 3 = Multiplication.result c (srow + rowM2 w p) := by
    simp only [result, Multiplication.result, OfNat.ofNat_ne_zero, OfNat.ofNat_ne_one, Nat.reduceEqDiff, if_false]
    congr 1
    rw [rows_eq hp, rowEnd]; push_cast; ring
  have hk : 0 < p.k - 1 := by
    have := hp.val_pos
    have := hp.inp_pos
    rw [k_eq hp, Par.total]; omega
  rw [e, multiplication_sound _ _ _ _ hP.fm]
  simp only [f3MulIn]
  rw [F3Loop.f3_sound_partial hw hg hk _ _ _ _ hP.f3]
  simp only [F3Loop.In.spec, F3Loop.spec, f3In, s0, s2, Vals.F3, k_eq hp, In.vals]
  rw [mul_comm]
  rfl

end LookupVerifier
end Verif
