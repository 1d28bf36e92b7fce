import Verif.Model.ExprEval
import Verif.Props.Batch
import Verif.Props.ConstBatch
import Mathlib.Algebra.BigOperators.Group.List.Basic
import Mathlib.Data.List.GetD
import Mathlib.Data.ZMod.Basic
import Mathlib.Algebra.Field.ZMod
import Mathlib.Tactic.Ring
import Mathlib.Tactic.LinearCombination

/-!
# C65: expression evaluation
-/

set_option linter.unusedSimpArgs false
set_option linter.unusedVariables false
set_option linter.unusedSectionVars false

namespace Verif
namespace ExprEval

open GateMover Batch ConstBatch

variable {F : Type*}

/-! ### Specification -/

/-- The value of an expression when variable `u` has the value `V u`. -/
def value [Field F] (V : Var → F) : GExpr F → F
  | .term vs k => k * (vs.map V).prod
  | .pow b n => value V b ^ n
  | .bin .add l r => value V l + value V r
  | .bin .sub l r => value V l - value V r
  | .bin .mult l r => value V l * value V r

/-- All exponents are positive (`BOOST_ASSERT`, 101). -/
def Pos : GExpr F → Prop
  | .term _ _ => True
  | .pow b n => 0 < n ∧ Pos b
  | .bin _ l r => Pos l ∧ Pos r

/-- The field operation of an operator. -/
def opF [Field F] : BinOp → F → F → F
  | .add, x, y => x + y
  | .sub, x, y => x - y
  | .mult, x, y => x * y

/-- The three batched components. -/
def comps [Field F] : ℕ → Comp F := fun b => if b = 0 then mulComp else if b = 1 then addComp else subComp

/-! ### An induction principle for the walk -/

section
variable [Field F] [DecidableEq F]

/-- An invariant of the storages and a relation between variables and values which the requests respect hold after the walk,
for the value of the expression. -/
theorem visit_ind (n : Env F) (P : ExprEval.St F → Prop) (Q : ExprEval.St F → Var → F → Prop) (V : Var → F)
    (hcon : ∀ s x, P s → P (con x s).1 ∧ Q (con x s).1 (con x s).2 x ∧ ∀ v d, Q s v d → Q (con x s).1 v d)
    (hreq : ∀ s op a b x y, P s → Q s a x → Q s b y → P (req n (batchOf op) a b s).1 ∧
      Q (req n (batchOf op) a b s).1 (req n (batchOf op) a b s).2 (opF op x y) ∧
      ∀ v d, Q s v d → Q (req n (batchOf op) a b s).1 v d)
    (e : GExpr F) (hpos : Pos e) (s : ExprEval.St F) (hP : P s) (hm : ∀ u ∈ e.vars, Q s (n.map u) (V u)) :
    P (visit n e s).1 ∧ Q (visit n e s).1 (visit n e s).2 (value V e) ∧ ∀ v d, Q s v d → Q (visit n e s).1 v d := by
  have hmul : ∀ (vs : List Var) (r : Var) (x : F) (s : ExprEval.St F), P s → Q s r x → (∀ u ∈ vs, Q s (n.map u) (V u)) →
      P (mulVars n vs r s).1 ∧ Q (mulVars n vs r s).1 (mulVars n vs r s).2 (x * (vs.map V).prod) ∧
        ∀ v d, Q s v d → Q (mulVars n vs r s).1 v d := by
    intro vs
    induction vs with
    | nil =>
      intro r x s hP hr _
      simp only [mulVars, List.map_nil, List.prod_nil, mul_one]
      exact ⟨hP, hr, fun v d h => h⟩
    | cons u vs ih =>
      intro r x s hP hr hu
      obtain ⟨p1, q1, m1⟩ := hreq s .mult r (n.map u) x (V u) hP hr (hu u List.mem_cons_self)
      obtain ⟨p2, q2, m2⟩ := ih _ _ _ p1 q1 fun u' hu' => m1 _ _ (hu u' (List.mem_cons_of_mem _ hu'))
      refine ⟨p2, ?_, fun v d h => m2 _ _ (m1 _ _ h)⟩
      have : x * ((u :: vs).map V).prod = opF .mult x (V u) * (vs.map V).prod := by
        rw [List.map_cons, List.prod_cons]; simp only [opF]; ring
      rw [this]
      exact q2
  have hpow : ∀ (k : ℕ) (r e : Var) (x y : F) (s : ExprEval.St F), 0 < k → P s → Q s r x → Q s e y →
      P (powLoop n k r e s).1 ∧ Q (powLoop n k r e s).1 (powLoop n k r e s).2 (x * y ^ k) ∧
        ∀ v d, Q s v d → Q (powLoop n k r e s).1 v d := by
    intro k
    induction k using Nat.strong_induction_on with
    | _ k ih =>
      intro r e x y s hk hP hr he
      rw [powLoop]
      split_ifs with h1 h2
      · obtain ⟨p1, q1, m1⟩ := hreq s .mult e e y y hP he he
        obtain ⟨p2, q2, m2⟩ := ih (k / 2) (by omega) r _ x _ _ (by omega) p1 (m1 _ _ hr) q1
        refine ⟨p2, ?_, fun v d h => m2 _ _ (m1 _ _ h)⟩
        have : x * y ^ k = x * (opF .mult y y) ^ (k / 2) := by
          have e2 : k = 2 * (k / 2) := by omega
          conv_lhs => rw [e2, pow_mul]
          simp only [opF]; ring
        rw [this]; exact q2
      · obtain ⟨p1, q1, m1⟩ := hreq s .mult r e x y hP hr he
        obtain ⟨p2, q2, m2⟩ := ih (k - 1) (by omega) _ e _ y _ (by omega) p1 q1 (m1 _ _ he)
        refine ⟨p2, ?_, fun v d h => m2 _ _ (m1 _ _ h)⟩
        have : x * y ^ k = opF .mult x y * y ^ (k - 1) := by
          have e2 : k = (k - 1) + 1 := by omega
          conv_lhs => rw [e2, pow_succ]
          simp only [opF]; ring
        rw [this]; exact q2
      · obtain ⟨p1, q1, m1⟩ := hreq s .mult r e x y hP hr he
        refine ⟨p1, ?_, m1⟩
        obtain rfl : k = 1 := by omega
        rw [pow_one]; exact q1
  induction e generalizing s with
  | term vs k =>
    cases vs with
    | nil =>
      obtain ⟨p1, q1, m1⟩ := hcon s k hP
      simp only [visit, value, List.map_nil, List.prod_nil, mul_one]
      exact ⟨p1, q1, m1⟩
    | cons u vs =>
      have hu : ∀ w ∈ u :: vs, Q s (n.map w) (V w) := hm
      rw [visit]
      split_ifs with hk
      · obtain ⟨p1, q1, m1⟩ := hcon s k hP
        obtain ⟨p2, q2, m2⟩ := hreq _ .mult _ (n.map u) _ (V u) p1 q1 (m1 _ _ (hu u List.mem_cons_self))
        obtain ⟨p3, q3, m3⟩ := hmul vs _ _ _ p2 q2 fun w hw => m2 _ _ (m1 _ _ (hu w (List.mem_cons_of_mem _ hw)))
        refine ⟨p3, ?_, fun v d h => m3 _ _ (m2 _ _ (m1 _ _ h))⟩
        have : value V (.term (u :: vs) k) = opF .mult k (V u) * (vs.map V).prod := by
          simp only [value, List.map_cons, List.prod_cons, opF]; ring
        rw [this]; exact q3
      · obtain ⟨p3, q3, m3⟩ := hmul vs _ _ _ hP (hu u List.mem_cons_self) fun w hw => hu w (List.mem_cons_of_mem _ hw)
        refine ⟨p3, ?_, m3⟩
        rw [not_not] at hk
        have : value V (.term (u :: vs) k) = V u * (vs.map V).prod := by
          simp only [value, List.map_cons, List.prod_cons, hk]; ring
        rw [this]; exact q3
  | pow b k ih =>
    obtain ⟨p1, q1, m1⟩ := ih hpos.2 s hP hm
    rw [visit]
    simp only []
    split_ifs with hk
    · subst hk
      refine ⟨p1, ?_, m1⟩
      rw [value, pow_one]; exact q1
    · obtain ⟨p2, q2, m2⟩ := hcon _ 1 p1
      obtain ⟨p3, q3, m3⟩ := hpow k _ _ _ _ _ hpos.1 p2 q2 (m2 _ _ q1)
      refine ⟨p3, ?_, fun v d h => m3 _ _ (m2 _ _ (m1 _ _ h))⟩
      rw [value, ← one_mul (_ ^ k)]; exact q3
  | bin op l r ihl ihr =>
    obtain ⟨p1, q1, m1⟩ := ihl hpos.1 s hP fun u hu => hm u (List.mem_append_left _ hu)
    obtain ⟨p2, q2, m2⟩ := ihr hpos.2 _ p1 fun u hu => m1 _ _ (hm u (List.mem_append_right _ hu))
    obtain ⟨p3, q3, m3⟩ := hreq _ op _ _ _ _ p2 (m2 _ _ q1) q2
    refine ⟨p3, ?_, fun v d h => m3 _ _ (m2 _ _ (m1 _ _ h))⟩
    have : value V (.bin op l r) = opF op (value V l) (value V r) := by cases op <;> rfl
    rw [this]; exact q3

/-! ### Requests -/

theorem con_spec (x : F) (s : ExprEval.St F) :
    (con x s).1.batch = s.batch ∧ s.consts <+: (con x s).1.consts ∧
      ∃ m < (con x s).1.consts.length, (con x s).2 = constVar m ∧ (con x s).1.consts[m]? = some x := by
  unfold con ConstBatch.add
  split_ifs with h
  · exact ⟨rfl, List.prefix_refl _, _, List.idxOf_lt_length_of_mem h, rfl, by
      rw [List.getElem?_eq_getElem (List.idxOf_lt_length_of_mem h)]; simp⟩
  · exact ⟨rfl, List.prefix_append _ _, s.consts.length, by simp, rfl, by simp⟩

theorem outs_len (op : BinOp) : ((comps (F := F) (batchOf op)).outs) = [2] := by
  cases op <;> rfl

theorem batchOf_inj {op op' : BinOp} (h : batchOf op = batchOf op') : op = op' := by
  cases op <;> cases op' <;> simp [batchOf] at h <;> rfl

theorem batchOf_surj {b : ℕ} (h : b < 3) : ∃ op, b = batchOf op := by
  rcases (by omega : b = 0 ∨ b = 1 ∨ b = 2) with rfl | rfl | rfl
  · exact ⟨.mult, rfl⟩
  · exact ⟨.add, rfl⟩
  · exact ⟨.sub, rfl⟩

/-- The entry a request leaves, and the entries kept. -/
theorem req_spec (n : Env F) (hc : n.c = comps) (op : BinOp) (a b : Var) (s : ExprEval.St F) (h : Inv comps s.batch) :
    (req n (batchOf op) a b s).1.consts = s.consts ∧ Inv comps (req n (batchOf op) a b s).1.batch ∧
      (∃ m, (req n (batchOf op) a b s).2 = batchVar m) ∧
      (∃ e ∈ (req n (batchOf op) a b s).1.batch.ents (batchOf op), e.key = [a, b] ∧
        e.res = [(req n (batchOf op) a b s).2] ∧ (n.circ = false → e.done = true)) ∧
      (∀ b', ∀ e ∈ s.batch.ents b', ∃ e' ∈ (req n (batchOf op) a b s).1.batch.ents b', e'.key = e.key ∧ e'.res = e.res ∧
        (e.done = true → e'.done = true)) ∧
      (∀ b', ∀ e ∈ (req n (batchOf op) a b s).1.batch.ents b', (∃ e' ∈ s.batch.ents b', e'.key = e.key ∧ e'.res = e.res) ∨
        (b' = batchOf op ∧ e.key = [a, b])) ∧
      (∀ b', ∀ e ∈ (req n (batchOf op) a b s).1.batch.ents b', e.done = false → e ∈ s.batch.ents b' ∨ n.circ = true) := by
  unfold req
  rw [hc]
  simp only []
  generalize overlay n.t s.consts = t
  generalize n.le = le
  generalize n.circ = circ
  have hinv := addInput_inv comps le t s.batch (batchOf op) [a, b] circ h
  have hol : (comps (F := F) (batchOf op)).outs.length = 1 := by rw [outs_len]; rfl
  refine ⟨trivial, hinv, ?_⟩
  rcases addInput_cases comps le t s.batch (batchOf op) [a, b] circ with ⟨e, hl, hd, heq⟩ | ⟨e, hl, hd, hcf, heq⟩ | ⟨hl, vals, hv, _, heq⟩
  · obtain ⟨he, hk⟩ := lookup_some hl
    obtain ⟨m, _, hm⟩ := h.res _ _ he
    rw [hol] at hm
    have hm' : e.res = [batchVar m] := by rw [hm]; simp [slots]
    rw [heq]
    refine ⟨⟨m, by rw [hm']; rfl⟩, ⟨e, he, hk, by rw [hm']; rfl, fun hf => ?_⟩, fun b' x hx => ⟨x, hx, rfl, rfl, id⟩,
      fun b' x hx => Or.inl ⟨x, hx, rfl, rfl⟩, fun b' x hx _ => Or.inl hx⟩
    rcases hd with hd | hd
    · exact hd
    · rw [hf] at hd; cases hd
  · obtain ⟨he, hk⟩ := lookup_some hl
    obtain ⟨m, _, hm⟩ := h.res _ _ he
    rw [hol] at hm
    have hm' : e.res = [batchVar m] := by rw [hm]; simp [slots]
    rw [heq]
    refine ⟨⟨m, by rw [hm']; rfl⟩, ⟨⟨[a, b], e.res, true⟩, by simp [mem_insert], rfl, by simp [hm'], fun _ => rfl⟩, ?_, ?_, ?_⟩
    · intro b' x hx
      by_cases hb : b' = batchOf op
      · subst hb
        by_cases hxk : x.key = [a, b]
        · obtain rfl : x = e := h.eq_of_key hx he (hxk.trans hk.symm)
          exact ⟨⟨[a, b], x.res, true⟩, by simp [mem_insert], hk.symm, rfl, fun _ => rfl⟩
        · exact ⟨x, by simp [mem_insert, hx, hxk], rfl, rfl, id⟩
      · exact ⟨x, by simp [hb, hx], rfl, rfl, id⟩
    · intro b' x hx
      by_cases hb : b' = batchOf op
      · subst hb
        simp only [if_true, mem_insert, List.mem_filter] at hx
        rcases hx with rfl | ⟨hx, -⟩
        · exact Or.inr ⟨rfl, rfl⟩
        · exact Or.inl ⟨x, hx, rfl, rfl⟩
      · simp only [if_neg hb] at hx
        exact Or.inl ⟨x, hx, rfl, rfl⟩
    · intro b' x hx hxd
      by_cases hb : b' = batchOf op
      · subst hb
        simp only [if_true, mem_insert, List.mem_filter] at hx
        rcases hx with rfl | ⟨hx, -⟩
        · cases hxd
        · exact Or.inl hx
      · simp only [if_neg hb] at hx
        exact Or.inl hx
  · rw [heq, hol]
    have hs : slots s.batch.store.length 1 = [batchVar s.batch.store.length] := by simp [slots]
    rw [hs]
    refine ⟨⟨_, rfl⟩, ⟨⟨[a, b], [batchVar s.batch.store.length], !circ⟩, by simp [mem_insert], rfl, rfl, fun hf => by simp [hf]⟩, ?_, ?_, ?_⟩
    · intro b' x hx
      by_cases hb : b' = batchOf op
      · subst hb; exact ⟨x, by simp [mem_insert, hx], rfl, rfl, id⟩
      · exact ⟨x, by simp [hb, hx], rfl, rfl, id⟩
    · intro b' x hx
      by_cases hb : b' = batchOf op
      · subst hb
        simp only [if_true, mem_insert] at hx
        rcases hx with rfl | hx
        · exact Or.inr ⟨rfl, rfl⟩
        · exact Or.inl ⟨x, hx, rfl, rfl⟩
      · simp only [if_neg hb] at hx
        exact Or.inl ⟨x, hx, rfl, rfl⟩
    · intro b' x hx hxd
      by_cases hb : b' = batchOf op
      · subst hb
        simp only [if_true, mem_insert] at hx
        rcases hx with rfl | hx
        · right; simpa using hxd
        · exact Or.inl hx
      · simp only [if_neg hb] at hx
        exact Or.inl hx

/-! ### Soundness -/

/-- A reading of all variables under which every entry computes its operation and every constant has its value. -/
def Model (W : Var → F) (s : ExprEval.St F) : Prop :=
  (∀ op, ∀ e ∈ s.batch.ents (batchOf op), ∀ a b r, e.key = [a, b] → e.res = [r] → W r = opF op (W a) (W b)) ∧
    ∀ m x, s.consts[m]? = some x → W (constVar m) = x

theorem prefix_get {l l' : List F} (h : l <+: l') {m : ℕ} {x : F} (hm : l[m]? = some x) : l'[m]? = some x := by
  obtain ⟨r, rfl⟩ := h
  rw [List.getElem?_append_left, hm]
  by_contra hc
  rw [List.getElem?_eq_none (by omega)] at hm
  cases hm

theorem Model.con {W : Var → F} {x : F} {s : ExprEval.St F} (h : Model W (con x s).1) : Model W s := by
  obtain ⟨h1, h2, -⟩ := con_spec x s
  refine ⟨?_, fun m y hm => h.2 m y (prefix_get h2 hm)⟩
  rw [← h1]; exact h.1

theorem Model.req {W : Var → F} {n : Env F} (hc : n.c = comps) {op : BinOp} {a b : Var} {s : ExprEval.St F} (hi : Inv comps s.batch)
    (h : Model W (req n (batchOf op) a b s).1) : Model W s := by
  obtain ⟨h1, -, -, -, h5, -, -⟩ := req_spec n hc op a b s hi
  refine ⟨fun op' e he a' b' r hk hr => ?_, fun m y hm => h.2 m y (by rw [h1]; exact hm)⟩
  obtain ⟨e', he', hk', hr', -⟩ := h5 _ e he
  exact h.1 op' e' he' a' b' r (hk'.trans hk) (hr'.trans hr)

/-- The output of a walk has the value of the expression in every reading that respects the batches. -/
theorem visit_model (n : Env F) (hc : n.c = comps) (e : GExpr F) (hpos : Pos e) (s : ExprEval.St F) (hi : Inv comps s.batch) (W : Var → F) :
    Inv comps (visit n e s).1.batch ∧ (Model W (visit n e s).1 → W (visit n e s).2 = value (fun u => W (n.map u)) e ∧ Model W s) := by
  have := visit_ind n (fun s' => Inv comps s'.batch ∧ (Model W s' → Model W s)) (fun s' v d => Model W s' → W v = d) (fun u => W (n.map u))
    ?_ ?_ e hpos s ⟨hi, id⟩ (fun u _ h => rfl)
  · exact ⟨this.1.1, fun h => ⟨this.2.1 h, this.1.2 h⟩⟩
  · rintro s' x ⟨hi', hm⟩
    obtain ⟨h1, h2, m, h3, h4, h5⟩ := con_spec x s'
    refine ⟨⟨by rw [h1]; exact hi', fun h => hm h.con⟩, fun h => ?_, fun v d hq h => hq h.con⟩
    rw [h4]; exact h.2 _ _ h5
  · rintro s' op a b x y ⟨hi', hm⟩ ha hb
    obtain ⟨h1, h2, -, ⟨e, he, hk, hr, -⟩, -, -, -⟩ := req_spec n hc op a b s' hi'
    refine ⟨⟨h2, fun h => hm (h.req hc hi')⟩, fun h => ?_, fun v d hq h => hq (h.req hc hi')⟩
    rw [h.1 op e he a b _ hk hr, ha (h.req hc hi'), hb (h.req hc hi')]

theorem calls_model (le : List Var → List Var → Bool) (ks : List (Call F)) (hpos : ∀ k ∈ ks, Pos k.expr) (s : ExprEval.St F)
    (hi : Inv comps s.batch) (W : Var → F) :
    Inv comps (calls comps le s ks).1.batch ∧ (Model W (calls comps le s ks).1 → Model W s ∧
      ∀ (i : ℕ) k v, ks[i]? = some k → (calls comps le s ks).2[i]? = some v → W v = value (fun u => W (k.map u)) k.expr) := by
  induction ks generalizing s with
  | nil => exact ⟨hi, fun h => ⟨h, by simp⟩⟩
  | cons k l ih =>
    obtain ⟨i1, m1⟩ := visit_model ⟨comps, le, k.t, k.circ, k.map⟩ rfl k.expr (hpos k List.mem_cons_self) s hi W
    obtain ⟨i2, m2⟩ := ih (fun k hk => hpos k (List.mem_cons_of_mem _ hk)) _ i1
    refine ⟨i2, fun h => ?_⟩
    obtain ⟨h1, h2⟩ := m2 h
    obtain ⟨h3, h4⟩ := m1 h1
    refine ⟨h4, ?_⟩
    intro i k' v hk hv
    cases i with
    | zero =>
      simp only [List.getElem?_cons_zero, Option.some.injEq, calls] at hk hv
      subst hk hv
      exact h3
    | succ i =>
      simp only [List.getElem?_cons_succ, calls] at hk hv
      exact h2 i k' v hk hv

/-! ### What the entries look like -/

/-- A batch variable, a constant in the storage, or a variable with property `B`. -/
def VarOk (B : Var → Prop) (s : ExprEval.St F) (v : Var) : Prop :=
  (∃ m, v = batchVar m) ∨ (∃ m < s.consts.length, v = constVar m) ∨ B v

structure KeysOk (B : Var → Prop) (s : ExprEval.St F) : Prop where
  inv : Inv comps s.batch
  entry : ∀ b, ∀ e ∈ s.batch.ents b, b < 3 ∧ e.key.length = 2 ∧ ∀ v ∈ e.key, VarOk B s v

theorem VarOk.mono {B : Var → Prop} {s s' : ExprEval.St F} (h : s.consts.length ≤ s'.consts.length) {v : Var} (hv : VarOk B s v) :
    VarOk B s' v := by
  rcases hv with h1 | ⟨m, hm, h1⟩ | h1
  · exact Or.inl h1
  · exact Or.inr (Or.inl ⟨m, by omega, h1⟩)
  · exact Or.inr (Or.inr h1)

theorem visit_keys (n : Env F) (hc : n.c = comps) (e : GExpr F) (hpos : Pos e) (B : Var → Prop) (hB : ∀ u ∈ e.vars, B (n.map u))
    (s : ExprEval.St F) (hs : KeysOk B s) :
    KeysOk B (visit n e s).1 ∧ VarOk B (visit n e s).1 (visit n e s).2 ∧ s.consts <+: (visit n e s).1.consts := by
  have := visit_ind n (fun s' => KeysOk B s' ∧ s.consts <+: s'.consts) (fun s' v _ => VarOk B s' v) (fun _ => 0)
    ?_ ?_ e hpos s ⟨hs, List.prefix_refl _⟩ (fun u hu => Or.inr (Or.inr (hB u hu)))
  · exact ⟨this.1.1, this.2.1, this.1.2⟩
  · rintro s' x ⟨hi', hm⟩
    obtain ⟨h1, h2, m, h3, h4, h5⟩ := con_spec x s'
    refine ⟨⟨⟨by rw [h1]; exact hi'.inv, fun b e he => ?_⟩, hm.trans h2⟩, ?_, fun v d hq => hq.mono h2.length_le⟩
    · rw [h1] at he
      obtain ⟨a1, a2, a3⟩ := hi'.entry b e he
      exact ⟨a1, a2, fun v hv => (a3 v hv).mono h2.length_le⟩
    · exact Or.inr (Or.inl ⟨m, h3, h4⟩)
  · rintro s' op a b x y ⟨hi', hm⟩ ha hb
    obtain ⟨h1, h2, h3, -, -, h6, -⟩ := req_spec n hc op a b s' hi'.inv
    have hl : s'.consts.length ≤ (req n (batchOf op) a b s').1.consts.length := by rw [h1]
    refine ⟨⟨⟨h2, fun b' e he => ?_⟩, by rw [h1]; exact hm⟩, Or.inl h3, fun v d hq => hq.mono hl⟩
    rcases h6 b' e he with ⟨e', he', hk, -⟩ | ⟨rfl, hk⟩
    · obtain ⟨a1, a2, a3⟩ := hi'.entry b' e' he'
      exact ⟨a1, hk ▸ a2, fun v hv => (a3 v (hk ▸ hv)).mono hl⟩
    · refine ⟨by cases op <;> decide, by rw [hk]; rfl, fun v hv => ?_⟩
      rw [hk] at hv
      simp only [List.mem_cons, List.not_mem_nil, or_false] at hv
      rcases hv with rfl | rfl
      · exact ha.mono hl
      · exact hb.mono hl

theorem calls_keys (le : List Var → List Var → Bool) (ks : List (Call F)) (hpos : ∀ k ∈ ks, Pos k.expr) (B : Var → Prop)
    (hB : ∀ k ∈ ks, ∀ u ∈ k.expr.vars, B (k.map u)) (s : ExprEval.St F) (hs : KeysOk B s) :
    KeysOk B (calls comps le s ks).1 ∧ s.consts <+: (calls comps le s ks).1.consts ∧
      ∀ v ∈ (calls comps le s ks).2, VarOk B (calls comps le s ks).1 v := by
  induction ks generalizing s with
  | nil => exact ⟨hs, List.prefix_refl _, by simp [calls]⟩
  | cons k l ih =>
    obtain ⟨k1, v1, p1⟩ := visit_keys ⟨comps, le, k.t, k.circ, k.map⟩ rfl k.expr (hpos k List.mem_cons_self) B (hB k List.mem_cons_self) s hs
    obtain ⟨k2, p2, v2⟩ := ih (fun k hk => hpos k (List.mem_cons_of_mem _ hk)) (fun k hk => hB k (List.mem_cons_of_mem _ hk)) _ k1
    refine ⟨k2, p1.trans p2, fun v hv => ?_⟩
    simp only [calls, List.mem_cons] at hv
    rcases hv with rfl | hv
    · exact v1.mono p2.length_le
    · exact v2 v hv

theorem keysOk_empty (B : Var → Prop) : KeysOk B (St.empty : ExprEval.St F) :=
  ⟨inv_empty comps, fun b e he => by simp [St.empty] at he⟩

/-! ### The batched components -/

theorem comps_w (b : ℕ) : (comps (F := F) b).w = 3 := by
  unfold comps; split_ifs <;> rfl

theorem good {W : ℕ} (hW : 3 ≤ W) (hW' : W ≤ batchIndex) (ids : List ℕ) : Good (comps (F := F)) W ids := by
  refine ⟨fun b _ => by rw [comps_w]; omega, hW', fun b _ jc h => ?_, fun b _ o h => ?_⟩
  · rw [comps_w]
    unfold comps at h
    split_ifs at h <;> simp only [mulComp, addComp, subComp, List.mem_cons, List.not_mem_nil, or_false] at h <;>
      rcases h with rfl | rfl <;> decide
  · rw [comps_w]
    unfold comps at h
    split_ifs at h <;> simp only [mulComp, addComp, subComp, List.mem_cons, List.not_mem_nil, or_false] at h <;>
      subst h <;> decide

theorem comp_sound (op : BinOp) : CompSound (comps (F := F) (batchOf op)) fun xs ys => ys = [opF op (xs.getD 0 0) (xs.getD 1 0)] := by
  intro t r xs hg hi
  have h0 := hi (0, 0) (by cases op <;> simp [comps, batchOf, mulComp, addComp, subComp])
  have h1 := hi (1, 1) (by cases op <;> simp [comps, batchOf, mulComp, addComp, subComp])
  simp only [] at h0 h1
  cases op <;> simp only [comps, batchOf, mulComp, addComp, subComp, if_true, if_false, one_ne_zero, OfNat.ofNat_ne_zero,
    OfNat.ofNat_ne_one, List.mem_singleton, forall_eq, GExpr.eval, List.foldl_cons, List.foldl_nil, Var.evalAt, wv,
    add_zero, one_mul, List.map_cons, List.map_nil, opF, List.cons.injEq, and_true, ← h0, ← h1] at hg ⊢ <;>
    linear_combination -hg

theorem comp_complete (b : ℕ) : CompComplete (comps (F := F) b) fun _ => True := by
  intro xs _
  have hw : (comps (F := F) b).w = 3 := comps_w b
  refine ⟨fun jc h => ?_, fun t r ht g hg => ?_⟩
  · unfold comps at h ⊢
    split_ifs at h ⊢ <;> simp only [mulComp, addComp, subComp, List.mem_cons, List.not_mem_nil, or_false] at h ⊢ <;>
      rcases h with rfl | rfl <;> rfl
  · rw [hw] at ht
    have h0 := ht 0 (by omega)
    have h1 := ht 1 (by omega)
    have h2 := ht 2 (by omega)
    unfold comps at hg h0 h1 h2
    split_ifs at hg h0 h1 h2 <;>
      simp only [mulComp, addComp, subComp, List.mem_singleton, if_true, if_false, one_ne_zero, OfNat.ofNat_ne_zero,
        OfNat.ofNat_ne_one] at hg h0 h1 h2 <;>
      subst hg <;>
      simp only [GExpr.eval, List.foldl_cons, List.foldl_nil, Var.evalAt, wv, add_zero, if_true, h0, h1, h2] <;> ring

/-- The batch gates read witness columns only. -/
theorem gate_witness {W b : ℕ} {g : GExpr F} (hg : g ∈ batchGate (comps b).gate W 3) {v : Var} (hv : v ∈ g.vars) : v.type = .witness := by
  have base : ∀ g ∈ (comps (F := F) b).gate, ∀ v ∈ g.vars, v.type = .witness := by
    intro g hg v hv
    unfold comps at hg
    split_ifs at hg <;> simp only [mulComp, addComp, subComp, List.mem_singleton] at hg <;> subst hg <;>
      simp only [GExpr.vars, List.mem_append, List.mem_cons, List.not_mem_nil, or_false] at hv <;>
      rcases hv with (rfl | rfl) | rfl <;> rfl
  simp only [batchGate, List.mem_append, List.mem_flatMap, moveConstraints, List.mem_map] at hg
  rcases hg with hg | ⟨i, -, g', hg', rfl⟩
  · exact base g hg v hv
  · rw [(gateMover_vars _ id g').1, List.mem_map] at hv
    obtain ⟨u, hu, rfl⟩ := hv
    exact base g' hg' u hu

theorem gate_congr {W b : ℕ} {g : GExpr F} (hg : g ∈ batchGate (comps b).gate W 3) {t t' : Table F}
    (h : ∀ i r, t' .witness i r = t .witness i r) (r : ℤ) : g.eval t' r = g.eval t r := by
  have := gateMover_eval id t' t r r g fun v hv => by
    have hw := gate_witness hg hv
    simp only [id, Var.evalAt, hw]
    split_ifs <;> exact h _ _
  rwa [(gateMover_vars id id g).2.2] at this

/-! ### Finalisation -/

/-- No relative variable in the constant storage. -/
def Abs (v : Var) : Prop := v.index = constIndex → v.relative = false

/-- The table with the cells of the batched constants as a column. -/
def withConsts (col : ℕ) (rows : List ℕ) (t : Table F) : Table F := fun ty i r =>
  if ty = .constant ∧ i = constIndex ∧ 0 ≤ r then
    match rows[r.toNat]? with
    | some k => t .constant col k
    | none => t ty i r
  else t ty i r

theorem substConst_value {col : ℕ} {rows : List ℕ} {t : Table F} {v : Var} (hv : Abs v) :
    (substConst col rows v).value t = v.value (withConsts col rows t) := by
  unfold substConst withConsts Var.value
  by_cases h : v.index = constIndex ∧ v.type = .constant ∧ v.relative = false ∧ 0 ≤ v.rotation
  · rw [if_pos h]
    simp only []
    rw [if_pos ⟨h.2.1, h.1, h.2.2.2⟩]
    cases rows[v.rotation.toNat]? <;> rfl
  · rw [if_neg h]
    simp only []
    rw [if_neg]
    rintro ⟨h1, h2, h3⟩
    exact h ⟨h2, h1, hv h2, h3⟩

theorem abs_subst {s : ExprEval.St F} (hi : Inv comps s.batch) {W : ℕ} (hW : 3 ≤ W) (hW' : W < constIndex) {ids : List ℕ} {row : ℕ} {v : Var}
    (hv : Abs v) : Abs (subst (mapOf (comps (F := F)) (finalizeAll (comps (F := F)) W s.batch.ents ids row).1) v) := by
  have hg := good (F := F) hW (by unfold batchIndex constIndex at *; omega) ids
  by_cases hb : ∃ x, (v, x) ∈ mapOf (comps (F := F)) (finalizeAll (comps (F := F)) W s.batch.ents ids row).1
  · obtain ⟨x, hx⟩ := hb
    obtain ⟨p, hp, hf, i, o, h1, h2, h3⟩ := mem_mapOf.1 hx
    unfold subst
    cases hfd : (mapOf (comps (F := F)) (finalizeAll (comps (F := F)) W s.batch.ents ids row).1).reverse.find? (fun p => decide (p.1 = v)) with
    | none => exact hv
    | some q =>
      have hq := List.mem_reverse.1 (List.mem_of_find?_eq_some hfd)
      obtain ⟨p', hp', hf', i', o', h1', h2', h3'⟩ := mem_mapOf.1 (show (q.1, q.2) ∈ _ from hq)
      simp only [Option.map_some, Option.getD_some]
      intro _
      rw [h3']
  · rw [subst_of_not_mem fun x hx => hb ⟨x, hx⟩]; exact hv

/-- **C65**, soundness. Whatever expressions were evaluated, in whatever order and with whatever flags: in every table in
which the batch gates hold on the rows the finalisation enables them on, the rewritten copy constraints hold and the batched
constants are in their cells, the output of every evaluation has the value of its expression. -/
theorem eval_sound (le : List Var → List Var → Bool) (ks : List (Call F)) (hpos : ∀ k ∈ ks, Pos k.expr)
    (hmap : ∀ k ∈ ks, ∀ u ∈ k.expr.vars, Abs (k.map u)) {W : ℕ} (hW : 3 ≤ W) (hW' : W < constIndex) (ids : List ℕ) (hn : ids.Nodup)
    (hids : ∀ b, b ∈ ids ↔ b < 3) (row : ℕ) (before : List (Var × Var)) (hbef : ∀ p ∈ before, Abs p.1 ∧ Abs p.2) (col : ℕ)
    (rows : List ℕ) (t : Table F)
    (hrows : ∀ (m : ℕ) x, (calls comps le St.empty ks).1.consts[m]? = some x → ∃ r : ℕ, rows[m]? = some r ∧ t .constant col r = x)
    (hgate : ∀ b ∈ ids, ∀ r ∈ enabled (finalizeAll (comps (F := F)) W (calls comps le St.empty ks).1.batch.ents ids row).1 b,
      ∀ g ∈ batchGate (comps b).gate W 3, g.eval t (r : ℤ) = 0)
    (hcopy : ∀ p ∈ finalCopies (comps (F := F)) before (finalizeAll (comps (F := F)) W (calls comps le St.empty ks).1.batch.ents ids row).1,
      (substConst col rows p.1).value t = (substConst col rows p.2).value t)
    (i : ℕ) (k : Call F) (v : Var) (hk : ks[i]? = some k) (hv : (calls comps le St.empty ks).2[i]? = some v) :
    (final (comps (F := F)) (finalizeAll (comps (F := F)) W (calls comps le St.empty ks).1.batch.ents ids row).1 col rows v).value t =
      value (fun u => (final (comps (F := F)) (finalizeAll (comps (F := F)) W (calls comps le St.empty ks).1.batch.ents ids row).1 col rows (k.map u)).value t)
        k.expr := by
  obtain ⟨K, -, vk⟩ := calls_keys le ks hpos Abs hmap St.empty (keysOk_empty Abs)
  generalize hs : calls comps le St.empty ks = r at *
  obtain ⟨s, outs⟩ := r
  simp only [] at *
  have hg := good (F := F) hW (show W ≤ batchIndex by unfold batchIndex constIndex at *; omega) ids
  set ps := (finalizeAll (comps (F := F)) W s.batch.ents ids row).1 with hps
  have absOk : ∀ v, VarOk Abs s v → Abs v := by
    rintro v (⟨m, rfl⟩ | ⟨m, -, rfl⟩ | h)
    · intro _; rfl
    · intro _; rfl
    · exact h
  set t' := withConsts col rows t with ht'
  have hwit : ∀ i r, t' .witness i r = t .witness i r := fun i r => by simp [ht', withConsts]
  have hR := batch_sound comps W ids s.batch K.inv hg hn
    (fun b hb e he jc hjc => by
      rw [(K.entry b e he).2.1]
      unfold comps at hjc
      split_ifs at hjc <;> simp only [mulComp, addComp, subComp, List.mem_cons, List.not_mem_nil, or_false] at hjc <;>
        rcases hjc with rfl | rfl <;> decide)
    row before t' (fun b xs ys => ∀ op, b = batchOf op → ys = [opF op (xs.getD 0 0) (xs.getD 1 0)])
    (fun b hb => by
      obtain ⟨op, rfl⟩ := batchOf_surj ((hids b).1 hb)
      intro t r xs h1 h2 op' hop
      obtain rfl := batchOf_inj hop
      exact comp_sound op t r xs h1 h2)
    (fun b hb r hr g hgm => by
      rw [comps_w] at hgm
      rw [gate_congr hgm hwit]
      exact hgate b hb r hr g hgm)
    (fun p hp => by
      have hab : Abs p.1 ∧ Abs p.2 := by
        simp only [finalCopies, List.mem_map, List.mem_append] at hp
        obtain ⟨q, hq, rfl⟩ := hp
        have : Abs q.1 ∧ Abs q.2 := by
          rcases hq with hq | hq
          · exact hbef q hq
          · simp only [copiesOf, List.mem_flatMap, List.mem_filter, List.mem_map] at hq
            obtain ⟨pl, ⟨hpl, -⟩, jc, hjc, rfl⟩ := hq
            refine ⟨fun _ => rfl, ?_⟩
            obtain ⟨_, _, hall⟩ := finalizeAll_spec comps W s.batch.ents ids hg.fits row
            obtain ⟨_, hpe, _⟩ := hall pl hpl
            have hlen := (K.entry _ _ hpe).2.1
            have hlt : jc.1 < pl.entry.key.length := by
              rw [hlen]
              unfold comps at hjc
              split_ifs at hjc <;> simp only [mulComp, addComp, subComp, List.mem_cons, List.not_mem_nil, or_false] at hjc <;>
                rcases hjc with rfl | rfl <;> decide
            rw [List.getD_eq_getElem _ _ hlt]
            exact absOk _ ((K.entry _ _ hpe).2.2 _ (List.getElem_mem hlt))
        exact ⟨abs_subst K.inv hW hW' this.1, abs_subst K.inv hW hW' this.2⟩
      rw [← substConst_value hab.1, ← substConst_value hab.2]
      exact hcopy p hp)
  have hM : Model (fun v => (subst (mapOf (comps (F := F)) ps) v).value t') s := by
    constructor
    · intro op e he a b r hkey hres
      have := hR (batchOf op) ((hids _).2 (by cases op <;> decide)) e he op rfl
      rw [hkey, hres] at this
      simpa using this
    · intro m x hm
      obtain ⟨r, hr1, hr2⟩ := hrows m x hm
      show (subst (mapOf (comps (F := F)) ps) (constVar m)).value t' = x
      rw [subst_other K.inv hg (by simp [constVar, constIndex, batchIndex]), ht', ← substConst_value (fun _ => rfl)]
      simp only [substConst, constVar, if_true, true_and, Int.natCast_nonneg, and_self, Int.toNat_natCast, hr1, Var.value]
      exact hr2
  have hfin := calls_model le ks hpos St.empty (inv_empty comps) fun v => (subst (mapOf (comps (F := F)) ps) v).value t'
  rw [hs] at hfin
  have key := (hfin.2 hM).2 i k v hk hv
  have conv : ∀ v, Abs v → (final (comps (F := F)) ps col rows v).value t = (subst (mapOf (comps (F := F)) ps) v).value t' := fun v hv =>
    substConst_value (abs_subst K.inv hW hW' hv)
  rw [conv v (absOk v (vk v (List.mem_of_getElem? hv))), key]
  have hkm := List.mem_of_getElem? hk
  have vcongr : ∀ (e : GExpr F) (V V' : Var → F), (∀ u ∈ e.vars, V u = V' u) → value V e = value V' e := by
    intro e V V'
    induction e with
    | term vs k => intro h; simp only [value]; rw [List.map_congr_left (l := vs) h]
    | pow b n ih => intro h; simp only [value]; rw [ih h]
    | bin op l r ihl ihr =>
      intro h
      have h1 := ihl fun u hu => h u (List.mem_append_left _ hu)
      have h2 := ihr fun u hu => h u (List.mem_append_right _ hu)
      cases op <;> simp only [value, h1, h2]
  exact vcongr _ _ _ fun u hu => (conv _ (hmap k hkm u hu)).symm

/-! ### Completeness -/

/-- All results have values. -/
def AllDone (s : ExprEval.St F) : Prop := ∀ b, ∀ e ∈ s.batch.ents b, e.done = true

/-- An input of a computing call, made when the table was `t'`: a batch variable already has its value, a batched constant is
in the storage, any other variable has the value it has when finalisation starts (table `t`). -/
structure InOk (t t' : Table F) (s : ExprEval.St F) (v : Var) : Prop where
  batch : v.index = batchIndex → Ready s.batch v
  const : v.index = constIndex → ∃ m < s.consts.length, v = constVar m
  cell : v.index ≠ batchIndex → v.index ≠ constIndex → v.value t' = v.value t

/-- The computing calls have their inputs. -/
def Valid (le : List Var → List Var → Bool) (t : Table F) : ExprEval.St F → List (Call F) → Prop
  | _, [] => True
  | s, k :: l => (k.circ = false → ∀ u ∈ k.expr.vars, InOk t k.t s (k.map u)) ∧
    Valid le t (visit ⟨comps, le, k.t, k.circ, k.map⟩ k.expr s).1 l

/-- Stored results are those of the components, whatever constants will be added. -/
def Right (t : Table F) (s : ExprEval.St F) : Prop := ∀ cs, s.consts <+: cs → Cons comps (overlay t cs) s.batch

theorem overlay_const (t : Table F) (cs : List F) (m : ℕ) : (constVar m).value (overlay t cs) = cs.getD m 0 := by
  simp [overlay, constVar, Var.value]

theorem overlay_cell (t : Table F) (cs : List F) {v : Var} (h : v.index ≠ constIndex) : v.value (overlay t cs) = v.value t := by
  simp [overlay, Var.value, h]

theorem prefix_getD {l l' : List F} (h : l <+: l') {m : ℕ} (hm : m < l.length) : l'.getD m 0 = l.getD m 0 := by
  obtain ⟨r, rfl⟩ := h
  rw [List.getD_append _ _ _ _ hm]

theorem visit_right (le : List Var → List Var → Bool) (t : Table F) (k : Call F) (hpos : Pos k.expr) (s : ExprEval.St F)
    (hi : Inv comps s.batch) (hr : Right t s) (hin : k.circ = false → ∀ u ∈ k.expr.vars, InOk t k.t s (k.map u)) :
    Inv comps (visit ⟨comps, le, k.t, k.circ, k.map⟩ k.expr s).1.batch ∧ Right t (visit ⟨comps, le, k.t, k.circ, k.map⟩ k.expr s).1 ∧
      (k.circ = false → InOk t k.t (visit ⟨comps, le, k.t, k.circ, k.map⟩ k.expr s).1 (visit ⟨comps, le, k.t, k.circ, k.map⟩ k.expr s).2) := by
  have := visit_ind ⟨comps, le, k.t, k.circ, k.map⟩ (fun s' => Inv comps s'.batch ∧ Right t s')
    (fun s' v _ => k.circ = false → InOk t k.t s' v) (fun _ => 0) ?_ ?_ k.expr hpos s ⟨hi, hr⟩ (fun u hu h => hin h u hu)
  · exact ⟨this.1.1, this.1.2, this.2.1⟩
  · rintro s' x ⟨hi', hr'⟩
    obtain ⟨h1, h2, m, h3, h4, h5⟩ := con_spec x s'
    refine ⟨⟨by rw [h1]; exact hi', fun cs hcs => ?_⟩, fun _ => ?_, fun v d hq hc => ?_⟩
    · rw [h1]; exact hr' cs (h2.trans hcs)
    · rw [h4]
      exact ⟨fun h => by simp [constVar, constIndex, batchIndex] at h, fun _ => ⟨m, h3, rfl⟩, fun _ h => absurd rfl h⟩
    · have := hq hc
      refine ⟨fun h => by rw [h1]; exact this.batch h, fun h => ?_, this.cell⟩
      obtain ⟨m, hm, hv⟩ := this.const h
      exact ⟨m, lt_of_lt_of_le hm h2.length_le, hv⟩
  · rintro s' op a b x y ⟨hi', hr'⟩ ha hb
    obtain ⟨h1, h2, ⟨m, h3⟩, ⟨e, he, hk, hres, hdone⟩, h5, -, -⟩ := req_spec ⟨comps, le, k.t, k.circ, k.map⟩ rfl op a b s' hi'
    refine ⟨⟨h2, fun cs hcs => ?_⟩, fun hc => ?_, fun v d hq hc => ?_⟩
    · rw [h1] at hcs
      refine addInput_cons comps le (overlay t cs) s'.batch ⟨overlay k.t s'.consts, batchOf op, [a, b], k.circ⟩ hi' (hr' cs hcs) ?_
      intro hc v hv
      have hv' : InOk t k.t s' v := by
        simp only [List.mem_cons, List.not_mem_nil, or_false] at hv
        rcases hv with rfl | rfl
        · exact ha hc
        · exact hb hc
      refine ⟨hv'.batch, fun hb' => ?_⟩
      by_cases hci : v.index = constIndex
      · obtain ⟨m, hm, rfl⟩ := hv'.const hci
        rw [overlay_const, overlay_const, prefix_getD hcs hm]
      · rw [overlay_cell _ _ hci, overlay_cell _ _ hci, hv'.cell hb' hci]
    · refine ⟨fun _ => ⟨batchOf op, e, he, hdone hc, by rw [hres]; exact List.mem_singleton_self _⟩, fun h => ?_, fun h => ?_⟩
      · rw [h3] at h; simp [batchVar, constIndex, batchIndex] at h
      · rw [h3] at h; exact absurd rfl h
    · have := hq hc
      refine ⟨fun h => ?_, fun h => ?_, this.cell⟩
      · obtain ⟨b', e', he', hd', hv'⟩ := this.batch h
        obtain ⟨e'', he'', -, hr'', hd''⟩ := h5 b' e' he'
        exact ⟨b', e'', he'', hd'' hd', hr'' ▸ hv'⟩
      · obtain ⟨m, hm, hv⟩ := this.const h
        exact ⟨m, by rw [h1]; exact hm, hv⟩

theorem calls_right (le : List Var → List Var → Bool) (t : Table F) (ks : List (Call F)) (hpos : ∀ k ∈ ks, Pos k.expr)
    (s : ExprEval.St F) (hi : Inv comps s.batch) (hr : Right t s) (hv : Valid le t s ks) : Right t (calls comps le s ks).1 := by
  induction ks generalizing s with
  | nil => exact hr
  | cons k l ih =>
    obtain ⟨h1, h2, -⟩ := visit_right le t k (hpos k List.mem_cons_self) s hi hr hv.1
    exact ih (fun k hk => hpos k (List.mem_cons_of_mem _ hk)) _ h1 h2 hv.2

/-- The variables of inputs and copy constraints that are not batch variables: constants in the storage, or cells outside the
rows the batches are about to fill. -/
structure VarIn (W row last : ℕ) (s : ExprEval.St F) (v : Var) : Prop where
  const : v.index = constIndex → ∃ m < s.consts.length, v = constVar m
  cell : ¬ (v.type = .witness ∧ v.index < W ∧ (row : ℤ) ≤ v.rotation ∧ v.rotation < (last : ℤ))

/-- **C65**, completeness. If every result has been computed from the values the inputs have when finalisation starts, then
after both finalisations the batch gates and all copy constraints hold, and the outputs have the values of the expressions. -/
theorem eval_complete (le : List Var → List Var → Bool) (ks : List (Call F)) (hpos : ∀ k ∈ ks, Pos k.expr) (t : Table F)
    (hval : Valid le t St.empty ks) (hdone : AllDone (calls (comps (F := F)) le St.empty ks).1) {W : ℕ} (hW : 3 ≤ W) (hW' : W < constIndex)
    (ids : List ℕ) (hn : ids.Nodup) (hids : ∀ b, b ∈ ids ↔ b < 3) (row : ℕ)
    (hmap : ∀ k ∈ ks, ∀ u ∈ k.expr.vars, VarIn W row (finalizeAll (comps (F := F)) W (calls (comps (F := F)) le St.empty ks).1.batch.ents ids row).2
      (calls (comps (F := F)) le St.empty ks).1 (k.map u))
    (before : List (Var × Var))
    (hbef : ∀ p ∈ before, ∀ v, v = p.1 ∨ v = p.2 →
      VarIn W row (finalizeAll (comps (F := F)) W (calls (comps (F := F)) le St.empty ks).1.batch.ents ids row).2 (calls (comps (F := F)) le St.empty ks).1 v ∧
      (v.index = batchIndex → Ready (calls (comps (F := F)) le St.empty ks).1.batch v))
    (heq : ∀ p ∈ before, Batch.val (overlay t (calls (comps (F := F)) le St.empty ks).1.consts) (calls (comps (F := F)) le St.empty ks).1.batch.store p.1 =
      Batch.val (overlay t (calls (comps (F := F)) le St.empty ks).1.consts) (calls (comps (F := F)) le St.empty ks).1.batch.store p.2)
    (col srow size : ℕ) (hcol : col < constIndex) (selSize : ℕ → ℕ) (gates : List Gate) (t2 : Table F) (copies : List (Var × Var)) (last : ℕ)
    (hin : CopiesIn col size (finalCopies (comps (F := F)) before (finalizeAll (comps (F := F)) W (calls (comps (F := F)) le St.empty ks).1.batch.ents ids row).1))
    (hfin : finalize col srow size selSize (assignAll (comps (F := F)) (calls (comps (F := F)) le St.empty ks).1.batch.store
        (overlay t (calls (comps (F := F)) le St.empty ks).1.consts) (finalizeAll (comps (F := F)) W (calls (comps (F := F)) le St.empty ks).1.batch.ents ids row).1)
      (finalCopies (comps (F := F)) before (finalizeAll (comps (F := F)) W (calls (comps (F := F)) le St.empty ks).1.batch.ents ids row).1) gates
      (calls (comps (F := F)) le St.empty ks).1.consts = some (t2, copies, last)) :
    (∀ b ∈ ids, ∀ r ∈ enabled (finalizeAll (comps (F := F)) W (calls (comps (F := F)) le St.empty ks).1.batch.ents ids row).1 b,
      ∀ g ∈ batchGate (comps b).gate W 3, g.eval t2 (r : ℤ) = 0) ∧
    (∀ p ∈ copies, p.1.value t2 = p.2.value t2) ∧
    ∃ rows : List ℕ, ∀ (i : ℕ) k v, ks[i]? = some k → (calls (comps (F := F)) le St.empty ks).2[i]? = some v →
      (final (comps (F := F)) (finalizeAll (comps (F := F)) W (calls (comps (F := F)) le St.empty ks).1.batch.ents ids row).1 col rows v).value t2 =
        value (fun u => (final (comps (F := F)) (finalizeAll (comps (F := F)) W (calls (comps (F := F)) le St.empty ks).1.batch.ents ids row).1 col rows (k.map u)).value t2)
          k.expr := by
  have hes := eval_sound le ks hpos (fun k hk u hu h => by
    obtain ⟨m, -, hm⟩ := (hmap k hk u hu).const h
    rw [hm]; rfl) hW hW' ids hn hids row before (fun p hp => ⟨fun h => by
      obtain ⟨m, -, hm⟩ := (hbef p hp _ (Or.inl rfl)).1.const h
      rw [hm]; rfl, fun h => by
      obtain ⟨m, -, hm⟩ := (hbef p hp _ (Or.inr rfl)).1.const h
      rw [hm]; rfl⟩) col
  have K0 := calls_keys le ks hpos (VarIn W row (finalizeAll (comps (F := F)) W (calls (comps (F := F)) le St.empty ks).1.batch.ents ids row).2
      (calls (comps (F := F)) le St.empty ks).1) hmap St.empty (keysOk_empty _)
  have R0 := calls_right le t ks hpos St.empty (inv_empty comps) (fun cs _ b e he => by simp [St.empty] at he) hval
  generalize hs : calls (comps (F := F)) le St.empty ks = r at *
  obtain ⟨s, outs⟩ := r
  simp only [] at *
  obtain ⟨K, -, vk⟩ := K0
  have hcons := R0 s.consts (List.prefix_refl _)
  have hg := good (F := F) hW (show W ≤ batchIndex by unfold batchIndex constIndex at *; omega) ids
  generalize hlast : (finalizeAll (comps (F := F)) W s.batch.ents ids row).2 = lst at *
  set ps := (finalizeAll (comps (F := F)) W s.batch.ents ids row).1 with hps
  -- variables of the entries
  have varc : ∀ v, VarOk (VarIn W row lst s) s v → (v.index = constIndex → ∃ m < s.consts.length, v = constVar m) ∧
      ¬ (v.type = .witness ∧ v.index < W ∧ (row : ℤ) ≤ v.rotation ∧ v.rotation < (lst : ℤ)) := by
    rintro v (⟨m, rfl⟩ | ⟨m, hm, rfl⟩ | h)
    · refine ⟨fun h => by simp [batchVar, constIndex, batchIndex] at h, fun h => by simp [batchVar] at h⟩
    · exact ⟨fun _ => ⟨m, hm, rfl⟩, fun h => by simp [constVar] at h⟩
    · exact ⟨h.const, h.cell⟩
  obtain ⟨c1, c2, c3⟩ := batch_complete comps W ids s.batch K.inv hg hn
    (fun b hb e he jc hjc => by
      rw [(K.entry b e he).2.1]
      unfold comps at hjc
      split_ifs at hjc <;> simp only [mulComp, addComp, subComp, List.mem_cons, List.not_mem_nil, or_false] at hjc <;>
        rcases hjc with rfl | rfl <;> decide)
    row before (overlay t s.consts) (fun _ _ => True) (fun b _ => comp_complete b) hcons
    (fun b hb => by
      obtain ⟨e, he⟩ := List.exists_mem_of_ne_nil _ hb
      exact (hids b).2 (K.entry b e he).1)
    (fun _ _ _ => trivial)
    (fun b e he v hv => by
      rw [hlast]
      exact ⟨(hcons b e he (hdone b e he)).1 v hv, fun _ => (varc v ((K.entry b e he).2.2 v hv)).2⟩)
    (fun p hp => by
      rw [hlast]
      obtain ⟨v1, r1⟩ := hbef p hp _ (Or.inl rfl)
      obtain ⟨v2, r2⟩ := hbef p hp _ (Or.inr rfl)
      exact ⟨⟨r1, fun _ => v1.cell⟩, ⟨r2, fun _ => v2.cell⟩, heq p hp⟩)
  have hcv : ∀ p ∈ finalCopies (comps (F := F)) before ps, ∀ v, v = p.1 ∨ v = p.2 → v.index = constIndex → ∃ m < s.consts.length, v = constVar m := by
    -- a substituted variable in the constant storage was there before
    have sub : ∀ v, (v.index = constIndex → ∃ m < s.consts.length, v = constVar m) → (subst (mapOf (comps (F := F)) ps) v).index = constIndex →
        ∃ m < s.consts.length, subst (mapOf (comps (F := F)) ps) v = constVar m := by
      intro v hv hvi
      by_cases hb : v.index = batchIndex
      · exfalso
        unfold subst at hvi
        cases hfd : (mapOf (comps (F := F)) ps).reverse.find? (fun p => decide (p.1 = v)) with
        | none =>
          rw [hfd] at hvi
          simp only [Option.map_none, Option.getD_none] at hvi
          rw [hb] at hvi; simp [constIndex, batchIndex] at hvi
        | some q =>
          rw [hfd] at hvi
          have hq := List.mem_reverse.1 (List.mem_of_find?_eq_some hfd)
          obtain ⟨p', hp', hf', i', o', h1', h2', h3'⟩ := mem_mapOf.1 (show (q.1, q.2) ∈ _ from hq)
          simp only [Option.map_some, Option.getD_some, h3'] at hvi
          obtain ⟨_, _, hall⟩ := finalizeAll_spec comps W s.batch.ents ids hg.fits row
          have := hg.col_lt hp' (hg.outs _ (hall p' hp').1 _ (List.mem_of_getElem? h2'))
          omega
      · rw [subst_other K.inv hg hb] at hvi ⊢
        exact hv hvi
    intro p hp v hv hvi
    simp only [finalCopies, List.mem_map, List.mem_append] at hp
    obtain ⟨q, hq, rfl⟩ := hp
    have hqc : ∀ u, u = q.1 ∨ u = q.2 → u.index = constIndex → ∃ m < s.consts.length, u = constVar m := by
      rcases hq with hq | hq
      · exact fun u hu => (hbef q hq u hu).1.const
      · simp only [copiesOf, List.mem_flatMap, List.mem_filter, List.mem_map] at hq
        obtain ⟨pl, ⟨hpl, -⟩, jc, hjc, rfl⟩ := hq
        obtain ⟨_, _, hall⟩ := finalizeAll_spec comps W s.batch.ents ids hg.fits row
        obtain ⟨hpb, hpe, _⟩ := hall pl hpl
        rintro u (rfl | rfl) hu
        · have := hg.col_lt hpl (hg.ins _ hpb jc hjc)
          simp only [] at hu; omega
        · have hlen := (K.entry _ _ hpe).2.1
          have hlt : jc.1 < pl.entry.key.length := by
            rw [hlen]
            unfold comps at hjc
            split_ifs at hjc <;> simp only [mulComp, addComp, subComp, List.mem_cons, List.not_mem_nil, or_false] at hjc <;>
              rcases hjc with rfl | rfl <;> decide
          rw [List.getD_eq_getElem _ _ hlt] at hu ⊢
          exact (varc _ ((K.entry _ _ hpe).2.2 _ (List.getElem_mem hlt))).1 hu
    rcases hv with rfl | rfl
    · exact sub _ (hqc _ (Or.inl rfl)) hvi
    · exact sub _ (hqc _ (Or.inr rfl)) hvi
  obtain ⟨rows, f1, f2, f3, f4, f5, f6, f7, f8⟩ := finalize_copies_partial col srow size hcol selSize _ _ gates s.consts hin hcv t2 copies last hfin
  have hwit : ∀ i r, t2 .witness i r = assignAll (comps (F := F)) s.batch.store (overlay t s.consts) ps .witness i r := fun i r =>
    f5 _ _ _ fun h => by cases h
  -- the constant storage is not touched by the instances
  have hcst : ∀ m, (constVar m).value (assignAll (comps (F := F)) s.batch.store (overlay t s.consts) ps) = s.consts.getD m 0 := by
    intro m
    by_cases hm : m < s.consts.length
    · have := c2 (constVar m) ⟨fun h => by simp [constVar, constIndex, batchIndex] at h, fun _ h => by simp [constVar] at h⟩
      rw [subst_other K.inv hg (by simp [constVar, constIndex, batchIndex]), val_other _ _ (by simp [constVar, constIndex, batchIndex]),
        overlay_const] at this
      exact this
    · have hap := (finalizeAll_spec comps W s.batch.ents ids hg.fits row).1
      have hcells : ∀ (l : List Place) (t : Table F), (assignAll (comps (F := F)) s.batch.store t l) .constant constIndex (m : ℤ) = t .constant constIndex (m : ℤ) := by
        intro l
        induction l with
        | nil => intro t; rfl
        | cons q l ih =>
          intro t
          show assignAll (comps (F := F)) s.batch.store (assignPlace comps s.batch.store t q) l _ _ _ = _
          rw [ih, (assignPlace_apply comps s.batch.store t q _ _ _).2]
          rintro ⟨h, -⟩; cases h
      have := hcells ps (overlay t s.consts)
      simp only [Var.value, constVar]
      rw [this]
      simp [overlay]
  have g2 : ∀ b ∈ ids, ∀ r ∈ enabled ps b, ∀ g ∈ batchGate (comps (F := F) b).gate W 3, g.eval t2 (r : ℤ) = 0 := by
    intro b hb r hr g hgm
    rw [gate_congr hgm hwit]
    exact c1 b hb r hr g (by rw [comps_w]; exact hgm)
  have h2 : ∀ p ∈ finalCopies (comps (F := F)) before ps, (substConst col rows p.1).value t2 = (substConst col rows p.2).value t2 := by
    intro p hp
    refine f8 p hp ?_
    have conv : ∀ v, v = p.1 ∨ v = p.2 → ConstBatch.val (assignAll (comps (F := F)) s.batch.store (overlay t s.consts) ps) s.consts v =
        v.value (assignAll (comps (F := F)) s.batch.store (overlay t s.consts) ps) := by
      intro v hv
      unfold ConstBatch.val
      split_ifs with hvi
      · obtain ⟨m, hm, rfl⟩ := hcv p hp v hv hvi
        rw [hcst m]; simp [constVar]
      · rfl
    rw [conv _ (Or.inl rfl), conv _ (Or.inr rfl)]
    exact c3 p hp
  refine ⟨g2, ?_, rows, ?_⟩
  · rw [f7]
    intro p hp
    obtain ⟨q, hq, rfl⟩ := List.mem_map.1 hp
    exact h2 q hq
  · refine hes rows t2 (fun m x hm => ?_) g2 h2
    have hlt : m < rows.length := by
      rw [f1]
      by_contra hc
      rw [List.getElem?_eq_none (by omega)] at hm
      cases hm
    refine ⟨rows[m], List.getElem?_eq_getElem hlt, ?_⟩
    have := f4 m rows[m] (List.getElem?_eq_getElem hlt)
    rw [hm] at this
    exact Option.some.inj this

/-! ### When all results have values -/

/-- A state that knows everything another one knows. -/
structure Ext (s s' : ExprEval.St F) : Prop where
  consts : s.consts <+: s'.consts
  ents : ∀ b key e, lookup (s.batch.ents b) key = some e → ∃ e', lookup (s'.batch.ents b) key = some e' ∧ e'.res = e.res

theorem Ext.refl (s : ExprEval.St F) : Ext s s := ⟨List.prefix_refl _, fun _ _ e h => ⟨e, h, rfl⟩⟩

theorem Ext.trans {a b c : ExprEval.St F} (h : Ext a b) (h' : Ext b c) : Ext a c :=
  ⟨h.consts.trans h'.consts, fun i key e he => by
    obtain ⟨e1, h1, r1⟩ := h.ents i key e he
    obtain ⟨e2, h2, r2⟩ := h'.ents i key e1 h1
    exact ⟨e2, h2, r2.trans r1⟩⟩

theorem lookup_insert (le : List Var → List Var → Bool) (x : Entry) (l : List Entry) (key : List Var) (hx : x.key ≠ key) :
    lookup (insert le x l) key = lookup l key := by
  induction l with
  | nil => simp [Batch.insert, lookup, hx]
  | cons y l ih =>
    unfold Batch.insert
    split_ifs
    · simp [lookup, hx]
    · unfold lookup at ih ⊢
      rw [List.find?_cons, List.find?_cons, ih]

theorem lookup_insert_same (le : List Var → List Var → Bool) (x : Entry) (l : List Entry) (hl : ∀ e ∈ l, e.key ≠ x.key) :
    lookup (insert le x l) x.key = some x := by
  induction l with
  | nil => simp [Batch.insert, lookup]
  | cons y l ih =>
    unfold Batch.insert
    split_ifs
    · simp [lookup]
    · have := ih fun e he => hl e (List.mem_cons_of_mem _ he)
      unfold lookup at this ⊢
      rw [List.find?_cons, this]
      simp [hl y List.mem_cons_self]

theorem lookup_filter (l : List Entry) (key key' : List Var) (h : key' ≠ key) :
    lookup (l.filter fun x => x.key ≠ key) key' = lookup l key' := by
  unfold lookup
  rw [List.find?_filter]
  induction l with
  | nil => rfl
  | cons y l ih =>
    rw [List.find?_cons, List.find?_cons, ih]
    by_cases hy : y.key = key'
    · simp [hy, h]
    · simp [hy]

/-- A request is found again, and nothing is forgotten. -/
theorem req_ext (n : Env F) (hc : n.c = comps) (op : BinOp) (a b : Var) (s : ExprEval.St F) :
    Ext s (req n (batchOf op) a b s).1 ∧
      ∃ e, lookup ((req n (batchOf op) a b s).1.batch.ents (batchOf op)) [a, b] = some e ∧
        e.res.headD ⟨0, 0, false, .witness⟩ = (req n (batchOf op) a b s).2 := by
  unfold req
  rw [hc]
  simp only []
  generalize overlay n.t s.consts = t
  generalize n.le = le
  generalize n.circ = circ
  rcases addInput_cases comps le t s.batch (batchOf op) [a, b] circ with ⟨e, hl, hd, heq⟩ | ⟨e, hl, hd, hcf, heq⟩ | ⟨hl, vals, hv, _, heq⟩
  · rw [heq]
    exact ⟨Ext.refl s, e, hl, rfl⟩
  · rw [heq]
    have hnk : ∀ x ∈ (s.batch.ents (batchOf op)).filter fun x => x.key ≠ [a, b], x.key ≠ [a, b] := by
      intro x hx; simpa using (List.mem_filter.1 hx).2
    refine ⟨⟨List.prefix_refl _, fun b' key x hx => ?_⟩, ⟨[a, b], e.res, true⟩, ?_, rfl⟩
    · by_cases hb : b' = batchOf op
      · subst hb
        simp only [if_true]
        by_cases hk : key = [a, b]
        · subst hk
          rw [hl] at hx
          refine ⟨⟨[a, b], e.res, true⟩, lookup_insert_same le ⟨[a, b], e.res, true⟩ _ hnk, ?_⟩
          rw [Option.some.inj hx]
        · refine ⟨x, ?_, rfl⟩
          rw [lookup_insert _ _ _ _ (Ne.symm hk), lookup_filter _ _ _ hk, hx]
      · exact ⟨x, by simp only [if_neg hb]; exact hx, rfl⟩
    · simp only [if_true]
      exact lookup_insert_same le ⟨[a, b], e.res, true⟩ _ hnk
  · rw [heq]
    have hnk := lookup_none hl
    refine ⟨⟨List.prefix_refl _, fun b' key x hx => ?_⟩, ⟨[a, b], slots s.batch.store.length (comps (F := F) (batchOf op)).outs.length, !circ⟩, ?_, rfl⟩
    rotate_left
    · simp only [if_true]
      exact lookup_insert_same le ⟨[a, b], _, !circ⟩ _ hnk
    · by_cases hb : b' = batchOf op
      · subst hb
        simp only [if_true]
        by_cases hk : key = [a, b]
        · subst hk; rw [hl] at hx; cases hx
        · exact ⟨x, by rw [lookup_insert _ _ _ _ (Ne.symm hk), hx], rfl⟩
      · exact ⟨x, by simp only [if_neg hb]; exact hx, rfl⟩

theorem req_again (n' : Env F) (hc' : n'.circ = true) (op : BinOp) (a b v : Var) (s s' : ExprEval.St F) (h : Ext s s')
    (he : ∃ e, lookup (s.batch.ents (batchOf op)) [a, b] = some e ∧ e.res.headD ⟨0, 0, false, .witness⟩ = v) :
    req n' (batchOf op) a b s' = (s', v) := by
  obtain ⟨e, hl, hv⟩ := he
  obtain ⟨e', hl', hr⟩ := h.ents _ _ _ hl
  unfold req
  rcases addInput_cases n'.c n'.le (overlay n'.t s'.consts) s'.batch (batchOf op) [a, b] n'.circ with
    ⟨e1, h1, -, heq⟩ | ⟨e1, -, -, h1, -⟩ | ⟨h1, -⟩
  · rw [heq]
    obtain rfl : e1 = e' := by rw [hl'] at h1; exact (Option.some.inj h1).symm
    simp only [hr, hv]
  · rw [hc'] at h1; cases h1
  · rw [hl'] at h1; cases h1

theorem con_again (x : F) (s s' : ExprEval.St F) (h : Ext (con x s).1 s') : con x s' = (s', (con x s).2) := by
  have hx : x ∈ (con x s).1.consts ∧ (con x s).2 = constVar ((con x s).1.consts.idxOf x) := by
    unfold con ConstBatch.add
    split_ifs with hm
    · exact ⟨hm, rfl⟩
    · simp [List.idxOf_append, hm]
  obtain ⟨r, hr⟩ := h.consts
  have hm : x ∈ s'.consts := by rw [← hr]; exact List.mem_append_left _ hx.1
  have hid : s'.consts.idxOf x = (con x s).1.consts.idxOf x := by
    rw [← hr, List.idxOf_append, if_pos hx.1]
  rw [hx.2, ← hid]
  unfold con ConstBatch.add
  rw [if_pos hm]

theorem con_ext (x : F) (s : ExprEval.St F) : Ext s (con x s).1 := by
  obtain ⟨h1, h2, -⟩ := con_spec x s
  exact ⟨h2, fun b key e he => ⟨e, by rw [h1]; exact he, rfl⟩⟩

/-- A later `generate_assignments` with the same expression and mapping finds all requests: it changes nothing and returns the
same variable. -/
theorem visit_again (n n' : Env F) (hc : n.c = comps) (hc' : n'.circ = true) (hm : n'.map = n.map) (e : GExpr F) (s : ExprEval.St F) :
    Ext s (visit n e s).1 ∧ ∀ s', Ext (visit n e s).1 s' → visit n' e s' = (s', (visit n e s).2) := by
  have hmul : ∀ (vs : List Var) (r : Var) (s : ExprEval.St F), Ext s (mulVars n vs r s).1 ∧
      ∀ s', Ext (mulVars n vs r s).1 s' → mulVars n' vs r s' = (s', (mulVars n vs r s).2) := by
    intro vs
    induction vs with
    | nil => intro r s; exact ⟨Ext.refl s, fun s' _ => rfl⟩
    | cons u vs ih =>
      intro r s
      obtain ⟨e1, l1⟩ := req_ext n hc .mult r (n.map u) s
      obtain ⟨e2, a2⟩ := ih (req n 0 r (n.map u) s).2 (req n 0 r (n.map u) s).1
      refine ⟨e1.trans e2, fun s' h => ?_⟩
      have := req_again n' hc' .mult r (n.map u) _ _ s' (e2.trans h) l1
      simp only [batchOf] at this
      simp only [mulVars, hm, this]
      exact a2 s' h
  have hpow : ∀ (k : ℕ) (r e : Var) (s : ExprEval.St F), Ext s (powLoop n k r e s).1 ∧
      ∀ s', Ext (powLoop n k r e s).1 s' → powLoop n' k r e s' = (s', (powLoop n k r e s).2) := by
    intro k
    induction k using Nat.strong_induction_on with
    | _ k ih =>
      intro r e s
      rw [powLoop]
      split_ifs with h1 h2
      · obtain ⟨e1, l1⟩ := req_ext n hc .mult e e s
        obtain ⟨e2, a2⟩ := ih (k / 2) (by omega) r (req n 0 e e s).2 (req n 0 e e s).1
        refine ⟨e1.trans e2, fun s' h => ?_⟩
        have := req_again n' hc' .mult e e _ _ s' (e2.trans h) l1
        simp only [batchOf] at this
        rw [powLoop, if_pos h1, if_pos h2, this]
        exact a2 s' h
      · obtain ⟨e1, l1⟩ := req_ext n hc .mult r e s
        obtain ⟨e2, a2⟩ := ih (k - 1) (by omega) (req n 0 r e s).2 e (req n 0 r e s).1
        refine ⟨e1.trans e2, fun s' h => ?_⟩
        have := req_again n' hc' .mult r e _ _ s' (e2.trans h) l1
        simp only [batchOf] at this
        rw [powLoop, if_pos h1, if_neg h2, this]
        exact a2 s' h
      · obtain ⟨e1, l1⟩ := req_ext n hc .mult r e s
        refine ⟨e1, fun s' h => ?_⟩
        rw [powLoop, if_neg h1]
        exact req_again n' hc' .mult r e _ _ s' h l1
  induction e generalizing s with
  | term vs k =>
    cases vs with
    | nil => exact ⟨con_ext k s, fun s' h => con_again k s s' h⟩
    | cons u vs =>
      rw [visit]
      split_ifs with hk
      · obtain ⟨e2, l2⟩ := req_ext n hc .mult (con k s).2 (n.map u) (con k s).1
        obtain ⟨e3, a3⟩ := hmul vs (req n 0 (con k s).2 (n.map u) (con k s).1).2 (req n 0 (con k s).2 (n.map u) (con k s).1).1
        refine ⟨((con_ext k s).trans e2).trans e3, fun s' h => ?_⟩
        have h1 := con_again k s s' ((e2.trans e3).trans h)
        have h2 := req_again n' hc' .mult (con k s).2 (n.map u) _ _ s' (e3.trans h) l2
        simp only [batchOf] at h2
        rw [visit, if_pos hk]
        simp only [h1, hm, h2]
        exact a3 s' h
      · obtain ⟨e3, a3⟩ := hmul vs (n.map u) s
        refine ⟨e3, fun s' h => ?_⟩
        rw [visit, if_neg hk, hm]
        exact a3 s' h
  | pow b k ih =>
    obtain ⟨e1, a1⟩ := ih s
    rw [visit]
    simp only []
    split_ifs with hk
    · refine ⟨e1, fun s' h => ?_⟩
      rw [visit]
      simp only [if_pos hk]
      exact a1 s' h
    · obtain ⟨e3, a3⟩ := hpow k (con 1 (visit n b s).1).2 (visit n b s).2 (con 1 (visit n b s).1).1
      have e2 := con_ext (1 : F) (visit n b s).1
      refine ⟨(e1.trans e2).trans e3, fun s' h => ?_⟩
      have h1 := a1 s' ((e2.trans e3).trans h)
      have h2 := con_again 1 (visit n b s).1 s' (e3.trans h)
      rw [visit]
      simp only [if_neg hk, h1, h2]
      exact a3 s' h
  | bin op l r ihl ihr =>
    obtain ⟨e1, a1⟩ := ihl s
    obtain ⟨e2, a2⟩ := ihr (visit n l s).1
    obtain ⟨e3, l3⟩ := req_ext n hc op (visit n l s).2 (visit n r (visit n l s).1).2 (visit n r (visit n l s).1).1
    refine ⟨(e1.trans e2).trans e3, fun s' h => ?_⟩
    have h1 := a1 s' ((e2.trans e3).trans h)
    have h2 := a2 s' (e3.trans h)
    simp only [visit] at h ⊢
    simp only [h1, h2]
    exact req_again n' hc' op _ _ _ _ s' h l3

/-- Walks called from `generate_circuit` compute every result they ask for. -/
theorem visit_done (n : Env F) (hc : n.c = comps) (hf : n.circ = false) (e : GExpr F) (hpos : Pos e) (s : ExprEval.St F)
    (hi : Inv comps s.batch) (hd : AllDone s) : Inv comps (visit n e s).1.batch ∧ AllDone (visit n e s).1 := by
  refine (visit_ind n (fun s => Inv comps s.batch ∧ AllDone s) (fun _ _ _ => True) (fun _ => 0) ?_ ?_ e hpos s ⟨hi, hd⟩
    (fun _ _ => trivial)).1
  · rintro s' x ⟨hi', hd'⟩
    have hb := (con_spec x s').1
    refine ⟨⟨by rw [hb]; exact hi', ?_⟩, trivial, fun _ _ _ => trivial⟩
    intro b e he
    rw [hb] at he
    exact hd' b e he
  · rintro s' op a b x y ⟨hi', hd'⟩ - -
    obtain ⟨-, h2, -, -, -, -, h7⟩ := req_spec n hc op a b s' hi'
    refine ⟨⟨h2, ?_⟩, trivial, fun _ _ _ => trivial⟩
    intro b' e he
    by_contra hne
    have hde : e.done = false := by simpa using hne
    rcases h7 b' e he hde with h | h
    · rw [hd' b' e h] at hde; cases hde
    · rw [hf] at h; cases h

theorem calls_done (le : List Var → List Var → Bool) (ks : List (Call F)) (hf : ∀ k ∈ ks, k.circ = false)
    (hpos : ∀ k ∈ ks, Pos k.expr) (s : ExprEval.St F) (hi : Inv comps s.batch) (hd : AllDone s) :
    AllDone (calls comps le s ks).1 := by
  induction ks generalizing s with
  | nil => exact hd
  | cons k l ih =>
    obtain ⟨h1, h2⟩ := visit_done ⟨comps, le, k.t, k.circ, k.map⟩ rfl (hf k List.mem_cons_self) k.expr (hpos k List.mem_cons_self) s hi hd
    exact ih (fun k hk => hf k (List.mem_cons_of_mem _ hk)) (fun k hk => hpos k (List.mem_cons_of_mem _ hk)) _ h1 h2

theorem calls_ext (le : List Var → List Var → Bool) (ks : List (Call F)) (s : ExprEval.St F) : Ext s (calls comps le s ks).1 := by
  induction ks generalizing s with
  | nil => exact Ext.refl s
  | cons k l ih => exact (visit_again ⟨comps, le, k.t, k.circ, k.map⟩ ⟨comps, le, k.t, true, k.map⟩ rfl rfl rfl k.expr s).1.trans (ih _)

/-- `generate_assignments` of components whose circuit was generated before leaves the storages as they are and returns the
variables of `generate_circuit`. -/
theorem calls_again (le : List Var → List Var → Bool) (ks ks' : List (Call F)) (s s' : ExprEval.St F)
    (hk : List.Forall₂ (fun k k' => k'.circ = true ∧ k'.map = k.map ∧ k'.expr = k.expr) ks ks') (h : Ext (calls comps le s ks).1 s') :
    calls comps le s' ks' = (s', (calls comps le s ks).2) := by
  induction hk generalizing s with
  | nil => rfl
  | @cons k k' l l' hkk hl ih =>
    obtain ⟨e1, a1⟩ := visit_again ⟨comps, le, k.t, k.circ, k.map⟩ ⟨comps, le, k'.t, k'.circ, k'.map⟩ rfl hkk.1 hkk.2.1 k.expr s
    have h1 := a1 s' ((calls_ext le l _).trans h)
    simp only [calls, hkk.2.2, h1]
    rw [ih _ h]

theorem calls_append (c : ℕ → Comp F) (le : List Var → List Var → Bool) (ks ks' : List (Call F)) (s : ExprEval.St F) :
    calls c le s (ks ++ ks') = ((calls c le (calls c le s ks).1 ks').1, (calls c le s ks).2 ++ (calls c le (calls c le s ks).1 ks').2) := by
  induction ks generalizing s with
  | nil => rfl
  | cons k l ih => simp only [List.cons_append, calls, ih]

/-- **C65**, the usual order of calls: circuits first, then assignments with the same expressions and mappings. All results
have values, and the assignment calls return the variables of the circuit calls. -/
theorem eval_flow (le : List Var → List Var → Bool) (ks ks' : List (Call F)) (hf : ∀ k ∈ ks, k.circ = false)
    (hpos : ∀ k ∈ ks, Pos k.expr) (hk : List.Forall₂ (fun k k' => k'.circ = true ∧ k'.map = k.map ∧ k'.expr = k.expr) ks ks') :
    AllDone (calls comps le St.empty (ks ++ ks')).1 ∧
      (calls comps le St.empty (ks ++ ks')).2 = (calls comps le St.empty ks).2 ++ (calls comps le St.empty ks).2 := by
  rw [calls_append, calls_again le ks ks' St.empty _ hk (Ext.refl _)]
  exact ⟨calls_done le ks hf hpos _ (inv_empty _) (fun b e he => by simp [St.empty] at he), rfl⟩

/-- Where the code is wrong: the flag means the opposite, so `generate_assignments` on its own computes nothing; all values
in the storage are zero. -/
theorem assign_nothing (le : List Var → List Var → Bool) (ks : List (Call F)) (hf : ∀ k ∈ ks, k.circ = true)
    (hpos : ∀ k ∈ ks, Pos k.expr) :
    (∀ x ∈ (calls comps le (St.empty (F := F)) ks).1.batch.store, x = 0) ∧
      ∀ b, ∀ e ∈ (calls comps le (St.empty (F := F)) ks).1.batch.ents b, e.done = false := by
  suffices H : ∀ s : ExprEval.St F, ((∀ x ∈ s.batch.store, x = 0) ∧ ∀ b, ∀ e ∈ s.batch.ents b, e.done = false) →
      (∀ x ∈ (calls comps le s ks).1.batch.store, x = 0) ∧ ∀ b, ∀ e ∈ (calls comps le s ks).1.batch.ents b, e.done = false from
    H _ ⟨by simp [St.empty], by simp [St.empty]⟩
  induction ks with
  | nil => exact fun s h => h
  | cons k l ih =>
    intro s h
    refine ih (fun k hk => hf k (List.mem_cons_of_mem _ hk)) (fun k hk => hpos k (List.mem_cons_of_mem _ hk)) _ ?_
    have hkc := hf k List.mem_cons_self
    refine (visit_ind ⟨comps, le, k.t, k.circ, k.map⟩ (fun s => (∀ x ∈ s.batch.store, x = 0) ∧ ∀ b, ∀ e ∈ s.batch.ents b, e.done = false)
      (fun _ _ _ => True) (fun _ => 0) ?_ ?_ k.expr (hpos k List.mem_cons_self) s h (fun _ _ => trivial)).1
    · intro s' x h'
      rw [(con_spec x s').1]
      exact ⟨h', trivial, fun _ _ _ => trivial⟩
    · rintro s' op a b x y ⟨h1, h2⟩ - -
      refine ⟨?_, trivial, fun _ _ _ => trivial⟩
      unfold req Batch.addInput
      simp only [hkc, Bool.or_true, if_true]
      split
      · exact ⟨h1, h2⟩
      · refine ⟨fun x hx => ?_, fun b' e he => ?_⟩
        · rcases List.mem_append.1 hx with hx | hx
          · exact h1 x hx
          · exact List.eq_of_mem_replicate hx
        · by_cases hb : b' = batchOf op
          · simp only [if_pos hb, mem_insert] at he
            rcases he with rfl | he
            · rfl
            · exact h2 _ e he
          · simp only [if_neg hb] at he
            exact h2 _ e he

end

/-! ### Examples -/

section
instance : Fact (Nat.Prime 13) := ⟨by decide⟩

/-- The order of the maps: here by insertion. -/
def exLe : List Var → List Var → Bool := fun _ _ => false

/-- Cells of row 0. -/
def exX (i : ℕ) : Var := ⟨i, 0, false, .witness⟩

/-- Values 2, 3, 5. -/
def exT : Table (ZMod 13) := fun ty i r => if ty = .witness ∧ r = 0 then (if i = 0 then 2 else if i = 1 then 3 else if i = 2 then 5 else 0) else 0

/-- (3 x0 x1 + x2)^5 - 7. -/
def exE : GExpr (ZMod 13) := .bin .sub (.pow (.bin .add (.term [exX 0, exX 1] 3) (.term [exX 2] 1)) 5) (.term [] 7)

def exCalls : List (Call (ZMod 13)) := [circuitCall exT id exE]

/-- The products x0 x1 x2. -/
def exP : GExpr (ZMod 13) := .term [exX 0, exX 1, exX 2] 1

/-- Where the code is wrong: with `generate_assignments` alone, a copy constraint of x0 x1 x2 fails. -/
theorem assign_incomplete :
    let s := (calls (comps (F := ZMod 13)) exLe St.empty [assignCall exT id exP]).1
    let ps := (finalizeAll (comps (F := ZMod 13)) 9 s.batch.ents [0, 1, 2] 1).1
    ¬ ∀ p ∈ finalCopies (comps (F := ZMod 13)) [] ps,
      p.1.value (assignAll comps s.batch.store (overlay exT s.consts) ps) =
        p.2.value (assignAll comps s.batch.store (overlay exT s.consts) ps) := by
  decide +kernel

/-- Where the code is wrong: results are computed when the circuit is generated. If the inputs get their values after that, a
later `generate_assignments` does not recompute them, and a copy constraint fails. -/
theorem stale_incomplete :
    let s := (calls (comps (F := ZMod 13)) exLe St.empty [circuitCall (fun _ _ _ => 0) id exP, assignCall exT id exP]).1
    let ps := (finalizeAll (comps (F := ZMod 13)) 9 s.batch.ents [0, 1, 2] 1).1
    ¬ ∀ p ∈ finalCopies (comps (F := ZMod 13)) [] ps,
      p.1.value (assignAll comps s.batch.store (overlay exT s.consts) ps) =
        p.2.value (assignAll comps s.batch.store (overlay exT s.consts) ps) := by
  decide +kernel

example : (calls (comps (F := ZMod 13)) exLe St.empty exCalls).2 = [batchVar 7] := by decide +kernel

/-- The storages after the call. -/
abbrev exS : ExprEval.St (ZMod 13) := (calls (comps (F := ZMod 13)) exLe St.empty exCalls).1

/-- The instances. -/
abbrev exPs : List Place := (finalizeAll (comps (F := ZMod 13)) 9 exS.batch.ents [0, 1, 2] 1).1

/-- The hypotheses of `eval_complete` (and so those of `eval_sound`) are met by (3 x0 x1 + x2)^5 - 7. -/
example : ∃ t2 copies last,
    finalize 0 1 20 (fun _ => 0) (assignAll comps exS.batch.store (overlay exT exS.consts) exPs) (finalCopies (comps (F := ZMod 13)) [] exPs) []
      exS.consts = some (t2, copies, last) ∧
    (∀ b ∈ [0, 1, 2], ∀ r ∈ enabled exPs b, ∀ g ∈ batchGate (comps b).gate 9 3, g.eval t2 (r : ℤ) = 0) ∧
    (∀ p ∈ copies, p.1.value t2 = p.2.value t2) ∧ ∃ rows : List ℕ, (final (comps (F := ZMod 13)) exPs 0 rows (batchVar 7)).value t2 =
      value (fun u => (final (comps (F := ZMod 13)) exPs 0 rows u).value t2) exE := by
  have hsome : (finalize 0 1 20 (fun _ => 0) (assignAll comps exS.batch.store (overlay exT exS.consts) exPs)
      (finalCopies (comps (F := ZMod 13)) [] exPs) [] exS.consts).isSome := by decide +kernel
  obtain ⟨⟨t2, copies, last⟩, hf⟩ := Option.isSome_iff_exists.1 hsome
  refine ⟨t2, copies, last, hf, ?_⟩
  have hvars : ∀ k ∈ exCalls, ∀ u ∈ k.expr.vars, k.map u = u ∧ (u = exX 0 ∨ u = exX 1 ∨ u = exX 2) := by
    intro k hk u hu
    obtain rfl := List.mem_singleton.1 hk
    refine ⟨rfl, ?_⟩
    simpa [circuitCall, exE, GExpr.vars] using hu
  obtain ⟨g1, g2, rows, g3⟩ := eval_complete exLe exCalls
    (by intro k hk; obtain rfl := List.mem_singleton.1 hk; simp [circuitCall, exE, Pos]) exT
    (by
      refine ⟨fun _ u hu => ?_, trivial⟩
      obtain ⟨h1, h2⟩ := hvars _ List.mem_cons_self u hu
      rw [h1]
      rcases h2 with rfl | rfl | rfl <;>
        exact ⟨fun h => by simp [exX, batchIndex] at h, fun h => by simp [exX, constIndex] at h, fun _ _ => rfl⟩)
    (calls_done _ _ (by intro k hk; obtain rfl := List.mem_singleton.1 hk; rfl)
      (by intro k hk; obtain rfl := List.mem_singleton.1 hk; simp [circuitCall, exE, Pos]) _ (inv_empty _)
      (fun b e he => by simp [St.empty] at he))
    (W := 9) (by decide) (by decide +kernel) [0, 1, 2] (by decide) (by intro b; simp; omega) 1
    (by
      intro k hk u hu
      obtain ⟨h1, h2⟩ := hvars k hk u hu
      rw [h1]
      rcases h2 with rfl | rfl | rfl <;>
        exact ⟨fun h => by simp [exX, constIndex] at h, fun h => by simp [exX] at h⟩)
    [] (by simp) (by simp) 0 1 20 (by decide +kernel) (fun _ => 0) [] t2 copies last
    (by
      have : ∀ p ∈ finalCopies (comps (F := ZMod 13)) [] exPs, ¬ (p.1.type = .constant ∧ p.1.index = 0) ∧
          ¬ (p.2.type = .constant ∧ p.2.index = 0) := by decide +kernel
      intro p hp v hv h1 h2
      rcases hv with rfl | rfl
      · exact absurd ⟨h1, h2⟩ (this p hp).1
      · exact absurd ⟨h1, h2⟩ (this p hp).2) hf
  exact ⟨g1, g2, rows, g3 0 _ _ rfl (by decide +kernel)⟩

end
end ExprEval
end Verif
