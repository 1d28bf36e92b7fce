import Verif.Model.KimchiFt
import Verif.Props.KimchiRows

/-!
# rpn_expression and ft_eval

The expressions of kimchi (`Ex`) and their translation to tokens are written here after the Rust code that the component is made for
(`kimchi/src/circuits/expr.rs`, `to_polish`); they are the specification of the stack machine.
-/

set_option linter.unusedSectionVars false
set_option linter.unusedVariables false

namespace Verif
namespace Kimchi

/-! ### Specification -/

/-- The values an expression depends on. -/
structure Env (F : Type) where
  x : F
  alpha : F
  beta : F
  gamma : F
  joint : F
  endo : F
  mds : ℕ → ℕ → F
  cell : Column → ℕ → F
  g : F
  n : ℕ

/-- Expressions. `store` puts the value of its argument in the cache, `load` takes a value from there. -/
inductive Ex (F : Type)
  | alpha | beta | gamma | joint | endo
  | mds (r c : ℕ)
  | lit (k : F)
  | cell (c : Column) (row : ℕ)
  | double (a : Ex F)
  | square (a : Ex F)
  | pow (a : Ex F) (e : ℕ)
  | add (a b : Ex F)
  | mul (a b : Ex F)
  | sub (a b : Ex F)
  | vanish
  | basis (i : ℤ)
  | store (a : Ex F)
  | load (i : ℕ)

/-- The product over the last four points of the domain. -/
def vanishAt {F : Type} [Field F] (e : Env F) : F := ∏ i ∈ Finset.Ico (e.n - 4) e.n, (e.x - e.g ^ i)

/-- The value of an expression and the cache after it; `none` if something is loaded that was not stored. -/
def Ex.eval {F : Type} [Field F] (e : Env F) : Ex F → List F → Option (F × List F)
  | .alpha, c => some (e.alpha, c)
  | .beta, c => some (e.beta, c)
  | .gamma, c => some (e.gamma, c)
  | .joint, c => some (e.joint, c)
  | .endo, c => some (e.endo, c)
  | .mds i j, c => some (e.mds i j, c)
  | .lit k, c => some (k, c)
  | .cell col row, c => some (e.cell col row, c)
  | .double a, c => (a.eval e c).map fun r => (2 * r.1, r.2)
  | .square a, c => (a.eval e c).map fun r => (r.1 ^ 2, r.2)
  | .pow a d, c => (a.eval e c).map fun r => (r.1 ^ d, r.2)
  | .add a b, c => (a.eval e c).bind fun r => (b.eval e r.2).map fun s => (r.1 + s.1, s.2)
  | .mul a b, c => (a.eval e c).bind fun r => (b.eval e r.2).map fun s => (r.1 * s.1, s.2)
  | .sub a b, c => (a.eval e c).bind fun r => (b.eval e r.2).map fun s => (r.1 - s.1, s.2)
  | .vanish, c => some (vanishAt e, c)
  | .basis i, c => some ((e.x ^ e.n - 1) / (e.x - e.g ^ basisIndex e.n i), c)
  | .store a, c => (a.eval e c).map fun r => (r.1, r.2 ++ [r.1])
  | .load i, c => (c[i]?).map fun v => (v, c)

variable {p : ℕ} [hp : Fact p.Prime]

/-- `to_polish`. -/
def Ex.toks (wc : ℕ) : Ex (ZMod p) → List (Tok p)
  | .alpha => [.alpha]
  | .beta => [.beta]
  | .gamma => [.gamma]
  | .joint => [.joint]
  | .endo => [.endo]
  | .mds i j => [.mds i j]
  | .lit k => [.lit k]
  | .cell c r => [.cell (colNum wc c) r]
  | .double a => a.toks wc ++ [.dup, .add]
  | .square a => a.toks wc ++ [.dup, .mul]
  | .pow a d => a.toks wc ++ [.pow d]
  | .add a b => a.toks wc ++ b.toks wc ++ [.add]
  | .mul a b => a.toks wc ++ b.toks wc ++ [.mul]
  | .sub a b => a.toks wc ++ b.toks wc ++ [.sub]
  | .vanish => [.vanish]
  | .basis i => [.basis i]
  | .store a => a.toks wc ++ [.store]
  | .load i => [.load i]

/-! ### The stack machine on values -/

structure MEnv (F : Type) where
  x : F
  alpha : F
  beta : F
  gamma : F
  joint : F
  endo : F
  mds : ℕ → ℕ → F
  cell : ℕ → ℕ → F
  g : F
  n : ℕ

/-- One token; `none` where the code has undefined behaviour. -/
def Tok.run (e : MEnv (ZMod p)) : Tok p → List (ZMod p) × List (ZMod p) → Option (List (ZMod p) × List (ZMod p))
  | .alpha, (s, c) => some (e.alpha :: s, c)
  | .beta, (s, c) => some (e.beta :: s, c)
  | .gamma, (s, c) => some (e.gamma :: s, c)
  | .joint, (s, c) => some (e.joint :: s, c)
  | .endo, (s, c) => some (e.endo :: s, c)
  | .mds i j, (s, c) => some (e.mds i j :: s, c)
  | .lit k, (s, c) => some (k :: s, c)
  | .cell i j, (s, c) => some (e.cell i j :: s, c)
  | .dup, (a :: s, c) => some (a :: a :: s, c)
  | .pow d, (a :: s, c) => some (a ^ d :: s, c)
  | .add, (a :: b :: s, c) => some ((b + a) :: s, c)
  | .mul, (a :: b :: s, c) => some ((b * a) :: s, c)
  | .sub, (a :: b :: s, c) => some ((b - a) :: s, c)
  | .vanish, (s, c) => some ((∏ i ∈ Finset.Ico (e.n - 4) e.n, (e.x - e.g ^ i)) :: s, c)
  | .basis i, (s, c) => some ((e.x ^ e.n - 1) / (e.x - e.g ^ basisIndex e.n i) :: s, c)
  | .store, (a :: s, c) => some (a :: s, c ++ [a])
  | .load i, (s, c) => (c[i]?).map fun v => (v :: s, c)
  | _, _ => none

def runAll (e : MEnv (ZMod p)) : List (Tok p) → List (ZMod p) × List (ZMod p) → Option (List (ZMod p) × List (ZMod p))
  | [], s => some s
  | t :: ts, s => (t.run e s).bind (runAll e ts)

theorem runAll_append (e : MEnv (ZMod p)) (l l' : List (Tok p)) (s : List (ZMod p) × List (ZMod p)) : runAll e (l ++ l') s = (runAll e l s).bind (runAll e l') := by
  induction l generalizing s with
  | nil => rfl
  | cons t l ih =>
    show (t.run e s).bind (runAll e (l ++ l')) = ((t.run e s).bind (runAll e l)).bind (runAll e l')
    cases t.run e s with
    | none => rfl
    | some r => exact ih r

/-- The column exists. -/
def Fits (wc : ℕ) : Column → Prop
  | .witness i => i < wc
  | _ => True

def Ex.Fits (wc : ℕ) : Ex (ZMod p) → Prop
  | .cell c _ => Kimchi.Fits wc c
  | .mds r c => r < 3 ∧ c < 3
  | .double a => a.Fits wc
  | .square a => a.Fits wc
  | .pow a _ => a.Fits wc
  | .add a b => a.Fits wc ∧ b.Fits wc
  | .mul a b => a.Fits wc ∧ b.Fits wc
  | .sub a b => a.Fits wc ∧ b.Fits wc
  | .store a => a.Fits wc
  | _ => True

/-- The machine with the cells of the columns numbered as by the parser. -/
def Matches (wc : ℕ) (e : Env (ZMod p)) (m : MEnv (ZMod p)) : Prop :=
  m.x = e.x ∧ m.alpha = e.alpha ∧ m.beta = e.beta ∧ m.gamma = e.gamma ∧ m.joint = e.joint ∧ m.endo = e.endo ∧ (∀ r c, r < 3 → c < 3 → m.mds r c = e.mds r c) ∧ m.g = e.g ∧ m.n = e.n ∧
    ∀ c r, Fits wc c → m.cell (colNum wc c) r = e.cell c r

/-- The tokens of an expression push its value. -/
theorem toks_run {wc : ℕ} {e : Env (ZMod p)} {m : MEnv (ZMod p)} (h : Matches wc e m) (a : Ex (ZMod p)) (hf : a.Fits wc) :
    ∀ (s c : List (ZMod p)) (v : ZMod p) (c' : List (ZMod p)), a.eval e c = some (v, c') → runAll m (a.toks wc) (s, c) = some (v :: s, c') := by
  obtain ⟨hx, h1, h2, h3, h4, h5, h6, h7, h8, h9⟩ := h
  have un : ∀ (a : Ex (ZMod p)) (l : List (Tok p)) (f : ZMod p × List (ZMod p) → ZMod p × List (ZMod p)),
      (∀ (s c : List (ZMod p)) (v : ZMod p) (c' : List (ZMod p)), a.eval e c = some (v, c') → runAll m (a.toks wc) (s, c) = some (v :: s, c')) →
      (∀ s v c, runAll m l (v :: s, c) = some ((f (v, c)).1 :: s, (f (v, c)).2)) → ∀ (s c : List (ZMod p)) (v : ZMod p) (c' : List (ZMod p)),
        (a.eval e c).map f = some (v, c') → runAll m (a.toks wc ++ l) (s, c) = some (v :: s, c') := by
    intro a l f ih hl s c v c' he
    rw [Option.map_eq_some_iff] at he
    obtain ⟨⟨w, d⟩, hw, he⟩ := he
    rw [runAll_append, ih s c w d hw]
    show runAll m l (w :: s, d) = _
    rw [hl, he]
  have bin : ∀ (a b : Ex (ZMod p)) (l : List (Tok p)) (f : ZMod p → ZMod p → ZMod p),
      (∀ (s c : List (ZMod p)) (v : ZMod p) (c' : List (ZMod p)), a.eval e c = some (v, c') → runAll m (a.toks wc) (s, c) = some (v :: s, c')) →
      (∀ (s c : List (ZMod p)) (v : ZMod p) (c' : List (ZMod p)), b.eval e c = some (v, c') → runAll m (b.toks wc) (s, c) = some (v :: s, c')) →
      (∀ s v w c, runAll m l (w :: v :: s, c) = some (f v w :: s, c)) → ∀ (s c : List (ZMod p)) (v : ZMod p) (c' : List (ZMod p)),
        ((a.eval e c).bind fun r => (b.eval e r.2).map fun s => (f r.1 s.1, s.2)) = some (v, c') → runAll m (a.toks wc ++ b.toks wc ++ l) (s, c) = some (v :: s, c') := by
    intro a b l f iha ihb hl s c v c' he
    rw [Option.bind_eq_some_iff] at he
    obtain ⟨⟨w, d⟩, hw, he⟩ := he
    rw [Option.map_eq_some_iff] at he
    obtain ⟨⟨w', d'⟩, hw', he⟩ := he
    rw [runAll_append, runAll_append, iha s c w d hw]
    show ((runAll m (b.toks wc) (w :: s, d)).bind _) = _
    rw [ihb _ _ _ _ hw']
    show runAll m l (w' :: w :: s, d') = _
    rw [hl]
    simp only [Prod.mk.injEq] at he
    rw [he.1, he.2]
  induction a with
  | double a ih => exact un a _ _ (ih hf) fun s v c => by simp [runAll, Tok.run, two_mul]
  | square a ih => exact un a _ _ (ih hf) fun s v c => by simp [runAll, Tok.run, sq]
  | pow a d ih => exact un a _ _ (ih hf) fun s v c => by simp [runAll, Tok.run]
  | store a ih => exact un a _ _ (ih hf) fun s v c => by simp [runAll, Tok.run]
  | add a b iha ihb => exact bin a b _ _ (iha hf.1) (ihb hf.2) fun s v w c => by simp [runAll, Tok.run]
  | mul a b iha ihb => exact bin a b _ _ (iha hf.1) (ihb hf.2) fun s v w c => by simp [runAll, Tok.run]
  | sub a b iha ihb => exact bin a b _ _ (iha hf.1) (ihb hf.2) fun s v w c => by simp [runAll, Tok.run]
  | cell col r =>
    intro s c v c' he
    simp only [Ex.eval, Option.some.injEq, Prod.mk.injEq] at he
    simp [Ex.toks, runAll, Tok.run, ← he.1, ← he.2, h9 col r hf]
  | mds k l =>
    intro s c v c' he
    simp only [Ex.eval, Option.some.injEq, Prod.mk.injEq] at he
    simp [Ex.toks, runAll, Tok.run, ← he.1, ← he.2, h6 k l hf.1 hf.2]
  | load i =>
    intro s c v c' he
    simp only [Ex.eval, Option.map_eq_some_iff] at he
    obtain ⟨w, hw, he⟩ := he
    simp only [Prod.mk.injEq] at he
    obtain ⟨rfl, rfl⟩ := he
    simp [Ex.toks, runAll, Tok.run, hw]
  | _ =>
    intro s c v c' he
    simp only [Ex.eval, Option.some.injEq, Prod.mk.injEq] at he
    obtain ⟨he, rfl⟩ := he
    rw [← he]
    simp [Ex.toks, runAll, Tok.run, vanishAt, hx, h1, h2, h3, h4, h5, h7, h8]

/-- The evaluation a column names. -/
def Evals.at (e : Evals) : Column → Arg
  | .witness i => e.w i
  | .z => e.z
  | .poseidon => e.poseidon
  | .generic => e.generic
  | .aggreg => e.aggreg
  | .table => e.table
  | .runtime => e.runtime
  | .sorted i => e.sorted i

theorem varFromEvals_colNum (wc : ℕ) (ev : ℕ → Evals) (c : Column) (r : ℕ) (hw : Fits wc c) : varFromEvals wc ev (colNum wc c) r = (ev r).at c := by
  cases c with
  | witness i => exact if_pos hw
  | sorted i =>
    have a0 : ¬(wc + 7 + i < wc) := by omega
    have a1 : ¬(wc + 7 + i = wc + 1) := by omega
    have a2 : ¬(wc + 7 + i = wc + 2) := by omega
    have a3 : ¬(wc + 7 + i = wc + 3) := by omega
    have a4 : ¬(wc + 7 + i = wc + 4) := by omega
    have a5 : ¬(wc + 7 + i = wc + 5) := by omega
    have a6 : ¬(wc + 7 + i = wc + 6) := by omega
    have e : wc + 7 + i - wc - 7 = i := by omega
    simp only [varFromEvals, colNum, a0, a1, a2, a3, a4, a5, a6, if_false, e, Evals.at]
  | z | poseidon | generic | aggreg | table | runtime =>
    have a (k : ℕ) : ¬(wc + k + 1 < wc) := by omega
    simp [varFromEvals, colNum, Evals.at, a, add_assoc]

/-! ### The circuit runs the machine -/

variable {base : ℤ} {K : Set Arg} {F D : (Arg → ZMod p) → Prop}

def menv (i : RpnIn) (V : Arg → ZMod p) : MEnv (ZMod p) where
  x := V i.x
  alpha := V i.alpha
  beta := V i.beta
  gamma := V i.gamma
  joint := V i.joint
  endo := V i.endo
  mds r c := V (i.mds r c)
  cell c r := V (varFromEvals i.wc i.ev c r)
  g := V i.g
  n := i.n

/-- The operands of the token are known, its numbers in range. -/
def Tok.Ready (K : Set Arg) (i : RpnIn) : Tok p → Prop
  | .alpha => i.alpha ∈ K
  | .beta => i.beta ∈ K
  | .gamma => i.gamma ∈ K
  | .joint => i.joint ∈ K
  | .endo => i.endo ∈ K
  | .mds r c => i.mds r c ∈ K
  | .cell c r => varFromEvals i.wc i.ev c r ∈ K
  | .pow e => e < 2 ^ 64
  | .vanish => 4 ≤ i.n
  | .basis j => -i.n ≤ j ∧ j < 2 ^ 31
  | _ => True

theorem Tok.Ready.mono {K K' : Set Arg} (h : K ⊆ K') {i : RpnIn} {t : Tok p} (ht : t.Ready K i) : t.Ready K' i := by
  cases t <;> first | exact h ht | exact ht

/-- The division of a basis polynomial is possible. -/
def Tok.Def (i : RpnIn) (V : Arg → ZMod p) : Tok p → Prop
  | .basis j => V i.x ≠ V i.g ^ basisIndex i.n j
  | _ => True

def Rpn.vals (V : Arg → ZMod p) (s : Rpn) : List (ZMod p) × List (ZMod p) := (s.stack.map V, s.cache.map V)

def Rpn.args (s : Rpn) : Set Arg := {a | a ∈ s.stack ∨ a ∈ s.cache}

theorem headD_known {x : Arg} (hx : x ∈ K) {l : List Arg} (h : ∀ a ∈ l, a ∈ K) : l.headD x ∈ K := by
  cases l with
  | nil => exact hx
  | cons a l => exact h a (by simp)

theorem getD_known {x : Arg} (hx : x ∈ K) {l : List Arg} (h : ∀ a ∈ l, a ∈ K) (j : ℕ) : l.getD j x ∈ K := by
  rw [List.getD_eq_getElem?_getD]
  cases e : l[j]? with
  | none => exact hx
  | some a => exact h a (List.mem_of_getElem? e)

theorem rpnStep_tri {i : RpnIn} {t : Tok p} {s : Rpn} (hx : i.x ∈ K) (hg : i.g ∈ K) (hs : s.args ⊆ K) (ht : t.Ready K i) (hn : i.n < 2 ^ 64) (h64 : 2 ^ 64 ≤ p)
    (hD : ∀ V, D V → t.Def i V) :
    Tri base K F D (rpnStep i t s) Rpn.args fun V s' => ∀ r, t.run (menv i V) (s.vals V) = some r → s'.vals V = r := by
  obtain ⟨st, ca⟩ := s
  have h1 : ∀ a ∈ st, a ∈ K := fun a ha => hs (Or.inl ha)
  have h2 : ∀ a ∈ ca, a ∈ K := fun a ha => hs (Or.inr ha)
  have k1 : st.headD i.x ∈ K := headD_known hx h1
  have k2 : st.tail.headD i.x ∈ K := headD_known hx fun a ha => h1 a (List.mem_of_mem_tail ha)
  have t1 : ∀ a ∈ st.tail, a ∈ K := fun a ha => h1 a (List.mem_of_mem_tail ha)
  have t2 : ∀ a ∈ st.tail.tail, a ∈ K := fun a ha => t1 a (List.mem_of_mem_tail ha)
  have push : ∀ {a : Arg} {K' : Set Arg} {l : List Arg}, a ∈ K' → K ⊆ K' → (∀ b ∈ l, b ∈ K) → Rpn.args ⟨a :: l, ca⟩ ⊆ K' := by
    rintro a K' l ha hK hl b (hb | hb)
    · rcases List.mem_cons.1 hb with rfl | hb
      · exact ha
      · exact hK (hl b hb)
    · exact hK (h2 b hb)
  cases t with
  | lit k =>
    refine emit_seq (by exact trivial) (by known) (by exact fun _ _ _ => trivial) fun r => Tri.ret (push (Or.inl rfl) Set.subset_union_right h1) ?_
    rintro V ⟨⟨e, -⟩, -⟩ r' hr
    simp only [Tok.run, Rpn.vals, Option.some.injEq] at hr
    rw [← hr]
    simp only [Rpn.vals, List.map_cons, e]
    rfl
  | dup =>
    refine Tri.ret (push k1 (fun _ h => h) h1) fun V _ r hr => ?_
    cases st with
    | nil => simp [Tok.run, Rpn.vals] at hr
    | cons a st => simpa [Tok.run, Rpn.vals] using hr
  | pow d =>
    refine emit_seq (by exact trivial) (by known) (by exact fun _ _ _ => trivial) fun ex => ?_
    refine emit_seq (by exact ⟨by norm_num, by rw [padded64]; exact h64⟩) (by rintro z (rfl | rfl); exacts [Or.inr k1, Or.inl rfl]) (fun V h _ => ?_) fun r => ?_
    · show (V ex).val < _
      rw [h.1.1, padded64]
      show ((d : ℕ) : ZMod p).val < 2 ^ 64
      rw [konst_val ht h64]; exact ht
    · refine Tri.ret (push (Or.inl rfl) (fun _ h => Or.inr (Or.inr h)) t1) ?_
      rintro V ⟨⟨e, -⟩, ⟨e2, -⟩, -⟩ r' hr
      cases st with
      | nil => simp [Tok.run, Rpn.vals] at hr
      | cons a st =>
        simp only [Tok.run, Rpn.vals, Option.some.injEq, List.map_cons] at hr
        rw [← hr]
        have e3 : V r = V a ^ (V ex).val := e
        rw [e2] at e3
        have e4 : V r = V a ^ d := by rw [e3]; show V a ^ ((d : ℕ) : ZMod p).val = _; rw [konst_val ht h64]
        simp only [Rpn.vals, List.map_cons, List.tail_cons, e4]
  | add =>
    refine emit_seq (by exact trivial) (by rintro z (rfl | rfl); exacts [k1, k2]) (by exact fun _ _ _ => trivial) fun r => Tri.ret (push (Or.inl rfl) Set.subset_union_right t2) ?_
    rintro V ⟨⟨e, -⟩, -⟩ r' hr
    match st, hr, e with
    | [], hr, e => simp [Tok.run, Rpn.vals] at hr
    | [a], hr, e => simp [Tok.run, Rpn.vals] at hr
    | a :: b :: st, hr, e =>
      simp only [Tok.run, Rpn.vals, Option.some.injEq, List.map_cons] at hr
      rw [← hr]
      have e : V r = V b + V a := e.trans (add_comm _ _)
      simp only [Rpn.vals, List.map_cons, List.tail_cons, e]
  | mul =>
    refine emit_seq (by exact trivial) (by rintro z (rfl | rfl); exacts [k1, k2]) (by exact fun _ _ _ => trivial) fun r => Tri.ret (push (Or.inl rfl) Set.subset_union_right t2) ?_
    rintro V ⟨⟨e, -⟩, -⟩ r' hr
    match st, hr, e with
    | [], hr, e => simp [Tok.run, Rpn.vals] at hr
    | [a], hr, e => simp [Tok.run, Rpn.vals] at hr
    | a :: b :: st, hr, e =>
      simp only [Tok.run, Rpn.vals, Option.some.injEq, List.map_cons] at hr
      rw [← hr]
      have e : V r = V b * V a := e.trans (mul_comm _ _)
      simp only [Rpn.vals, List.map_cons, List.tail_cons, e]
  | sub =>
    refine emit_seq (by exact trivial) (by rintro z (rfl | rfl); exacts [k2, k1]) (by exact fun _ _ _ => trivial) fun r => Tri.ret (push (Or.inl rfl) Set.subset_union_right t2) ?_
    rintro V ⟨⟨e, -⟩, -⟩ r' hr
    match st, hr, e with
    | [], hr, e => simp [Tok.run, Rpn.vals] at hr
    | [a], hr, e => simp [Tok.run, Rpn.vals] at hr
    | a :: b :: st, hr, e =>
      simp only [Tok.run, Rpn.vals, Option.some.injEq, List.map_cons] at hr
      rw [← hr]
      have e : V r = V b - V a := e
      simp only [Rpn.vals, List.map_cons, List.tail_cons, e]
  | vanish =>
    have ht : 4 ≤ i.n := ht
    refine (vanishes4_tri hg hx ht hn h64).seq fun r => Tri.ret (push (Or.inl rfl) Set.subset_union_right h1) ?_
    rintro V ⟨e, -⟩ r' hr
    simp only [Tok.run, Rpn.vals, Option.some.injEq] at hr
    rw [← hr]
    have e2 : V r = ∏ j ∈ Finset.Ico (i.n - 4) i.n, (V i.x - V i.g ^ j) := by
      rw [e]
      obtain ⟨m, hm⟩ := Nat.exists_eq_add_of_le ht
      rw [hm, Finset.prod_Ico_eq_prod_range, show 4 + m - (4 + m - 4) = 4 by omega, Finset.prod_range_succ, Finset.prod_range_succ, Finset.prod_range_succ,
        Finset.prod_range_one, show 4 + m - 4 = m by omega, show 4 + m - 3 = m + 1 by omega, show 4 + m - 2 = m + 2 by omega, show 4 + m - 1 = m + 3 by omega]
      rfl
    simp only [Rpn.vals, List.map_cons, e2, menv]
  | basis j =>
    refine (lagrangeBasis_tri hg hx ht.1 ht.2 hn h64 hD).seq fun r => Tri.ret (push (Or.inl rfl) Set.subset_union_right h1) ?_
    rintro V ⟨⟨e1, e⟩, -⟩ r' hr
    simp only [Tok.run, Rpn.vals, Option.some.injEq] at hr
    rw [← hr]
    have e2 : V r = (V i.x ^ i.n - 1) / (V i.x - V i.g ^ basisIndex i.n j) := by rw [eq_div_iff (sub_ne_zero.2 e1), e]
    simp only [Rpn.vals, List.map_cons, e2, menv]
  | store =>
    refine Tri.ret ?_ fun V _ r hr => ?_
    · rintro b (hb | hb)
      · exact h1 b hb
      · rcases List.mem_append.1 hb with hb | hb
        · exact h2 b hb
        · rw [List.mem_singleton.1 hb]; exact k1
    · cases st with
      | nil => simp [Tok.run, Rpn.vals] at hr
      | cons a st => simpa [Tok.run, Rpn.vals] using hr
  | load j =>
    refine Tri.ret (push (getD_known hx h2 j) (fun _ h => h) h1) fun V _ r hr => ?_
    simp only [Tok.run, Rpn.vals, Option.map_eq_some_iff, List.getElem?_map] at hr
    obtain ⟨w, ⟨a, ha, rfl⟩, rfl⟩ := hr
    simp only [Rpn.vals, List.map_cons, List.getD_eq_getElem?_getD, ha, Option.getD_some]
  | _ =>
    refine Tri.ret (push ht (fun _ h => h) h1) fun V _ r hr => ?_
    simpa [Tok.run, Rpn.vals, menv] using hr

theorem rpnRun_tri {i : RpnIn} (hn : i.n < 2 ^ 64) (h64 : 2 ^ 64 ≤ p) (ts : List (Tok p)) (hD : ∀ V, D V → ∀ t ∈ ts, t.Def i V) :
    ∀ {K : Set Arg} {F : (Arg → ZMod p) → Prop} {s : Rpn}, i.x ∈ K → i.g ∈ K → s.args ⊆ K → (∀ t ∈ ts, t.Ready K i) →
      Tri base K F D (rpnRun i ts s) Rpn.args fun V s' => ∀ r, runAll (menv i V) ts (s.vals V) = some r → s'.vals V = r := by
  induction ts with
  | nil => exact fun {K F s} _ _ hs _ => Tri.ret hs fun V _ r hr => Option.some.inj hr
  | cons t ts ih =>
    intro K F s hx hg hs ht
    refine (rpnStep_tri hx hg hs (ht t (by simp)) hn h64 fun V h => hD V h t (by simp)).seq fun s' => ?_
    refine (ih (fun V h u hu => hD V h u (by simp [hu])) (Or.inr hx) (Or.inr hg) Set.subset_union_left fun u hu =>
      (ht u (by simp [hu])).mono Set.subset_union_right).weaken (fun _ h => h) (fun _ h => h) (fun _ _ h => h) (fun _ _ h => Or.inl h) ?_
    rintro V s'' ⟨q, -⟩ hq r hr
    obtain ⟨u, hu, hr⟩ := Option.bind_eq_some_iff.1 hr
    exact hq r (by rw [q u hu]; exact hr)

theorem constTable_tri {mds : ℕ → ℕ → ZMod p} {e : Arg} (he : e ∈ K) :
    Tri base K F D (loop (fun k (m : ℕ → Arg) => do
      let r ← emit (.konst (mds (k / 3) (k % 3)))
      pure (Function.update m k r)) (fun _ => e) 9) (fun m => {a | ∃ j, a = m j}) fun V m => ∀ j < 9, V (m j) = mds (j / 3) (j % 3) := by
  refine loop_tri (fun _ (m : ℕ → Arg) => {a | ∃ j, a = m j}) (fun i V (m : ℕ → Arg) => ∀ j < i, V (m j) = mds (j / 3) (j % 3)) ?_ ?_ ?_
  · rintro a ⟨j, rfl⟩; exact he
  · exact fun V _ j hj => absurd hj (Nat.not_lt_zero j)
  · intro i hi m
    refine emit_seq (by exact trivial) (by known) (by exact fun _ _ _ => trivial) fun r => Tri.ret ?_ ?_
    · rintro a ⟨j, rfl⟩
      by_cases h : j = i
      · subst h; rw [Function.update_self]; exact Or.inl rfl
      · rw [Function.update_of_ne h]; exact Or.inr (Or.inl ⟨j, rfl⟩)
    · rintro V ⟨⟨q, -⟩, h, -⟩ j hj
      by_cases hji : j = i
      · subst hji; rw [Function.update_self, q]; rfl
      · rw [Function.update_of_ne hji]; exact h j (by omega)

/-- The operands the caller gives are known, and the numbers in range. -/
def Tok.Given (K : Set Arg) (i : RpnIn) : Tok p → Prop
  | .endo => True
  | .mds r c => r < 3 ∧ c < 3
  | t => t.Ready K i

def Ex.Good (K : Set Arg) (i : RpnIn) : Ex (ZMod p) → Prop
  | .alpha => i.alpha ∈ K
  | .beta => i.beta ∈ K
  | .gamma => i.gamma ∈ K
  | .joint => i.joint ∈ K
  | .mds r c => r < 3 ∧ c < 3
  | .cell c r => Kimchi.Fits i.wc c ∧ (i.ev r).at c ∈ K
  | .double a => a.Good K i
  | .square a => a.Good K i
  | .pow a e => e < 2 ^ 64 ∧ a.Good K i
  | .add a b => a.Good K i ∧ b.Good K i
  | .mul a b => a.Good K i ∧ b.Good K i
  | .sub a b => a.Good K i ∧ b.Good K i
  | .vanish => 4 ≤ i.n
  | .basis j => -i.n ≤ j ∧ j < 2 ^ 31
  | .store a => a.Good K i
  | _ => True

/-- The divisions of an expression are possible. -/
def Ex.Def (n : ℕ) (x g : ZMod p) : Ex (ZMod p) → Prop
  | .double a => a.Def n x g
  | .square a => a.Def n x g
  | .pow a _ => a.Def n x g
  | .add a b => a.Def n x g ∧ b.Def n x g
  | .mul a b => a.Def n x g ∧ b.Def n x g
  | .sub a b => a.Def n x g ∧ b.Def n x g
  | .basis j => x ≠ g ^ basisIndex n j
  | .store a => a.Def n x g
  | _ => True

theorem Ex.Good.fits {i : RpnIn} {a : Ex (ZMod p)} (h : a.Good K i) : a.Fits i.wc := by
  induction a with
  | cell c r => exact h.1
  | mds r c => exact h
  | pow a e ih => exact ih h.2
  | double a ih => exact ih h
  | square a ih => exact ih h
  | store a ih => exact ih h
  | add a b iha ihb => exact ⟨iha h.1, ihb h.2⟩
  | mul a b iha ihb => exact ⟨iha h.1, ihb h.2⟩
  | sub a b iha ihb => exact ⟨iha h.1, ihb h.2⟩
  | _ => trivial

theorem Ex.Good.given {i : RpnIn} {a : Ex (ZMod p)} (h : a.Good K i) : ∀ t ∈ a.toks i.wc, t.Given K i := by
  induction a with
  | cell c r =>
    intro t ht
    rw [List.mem_singleton.1 ht]
    show varFromEvals i.wc i.ev (colNum i.wc c) r ∈ K
    rw [varFromEvals_colNum _ _ _ _ h.1]; exact h.2
  | pow a e ih =>
    intro t ht
    rcases List.mem_append.1 ht with ht | ht
    · exact ih h.2 t ht
    · rw [List.mem_singleton.1 ht]; exact h.1
  | double a ih =>
    intro t ht
    rcases List.mem_append.1 ht with ht | ht
    · exact ih h t ht
    · simp only [List.mem_cons, List.not_mem_nil, or_false] at ht
      rcases ht with rfl | rfl <;> trivial
  | square a ih =>
    intro t ht
    rcases List.mem_append.1 ht with ht | ht
    · exact ih h t ht
    · simp only [List.mem_cons, List.not_mem_nil, or_false] at ht
      rcases ht with rfl | rfl <;> trivial
  | store a ih =>
    intro t ht
    rcases List.mem_append.1 ht with ht | ht
    · exact ih h t ht
    · rw [List.mem_singleton.1 ht]; trivial
  | add a b iha ihb | mul a b iha ihb | sub a b iha ihb =>
    intro t ht
    rcases List.mem_append.1 ht with ht | ht
    · rcases List.mem_append.1 ht with ht | ht
      · exact iha h.1 t ht
      · exact ihb h.2 t ht
    · rw [List.mem_singleton.1 ht]; trivial
  | _ =>
    intro t ht
    rw [List.mem_singleton.1 ht]
    first | exact h | trivial

theorem Ex.Def.toks {i : RpnIn} {V : Arg → ZMod p} {a : Ex (ZMod p)} (h : a.Def i.n (V i.x) (V i.g)) : ∀ t ∈ a.toks i.wc, t.Def i V := by
  induction a with
  | pow a e ih | store a ih =>
    intro t ht
    rcases List.mem_append.1 ht with ht | ht
    · exact ih h t ht
    · rw [List.mem_singleton.1 ht]; trivial
  | double a ih | square a ih =>
    intro t ht
    rcases List.mem_append.1 ht with ht | ht
    · exact ih h t ht
    · simp only [List.mem_cons, List.not_mem_nil, or_false] at ht
      rcases ht with rfl | rfl <;> trivial
  | add a b iha ihb | mul a b iha ihb | sub a b iha ihb =>
    intro t ht
    rcases List.mem_append.1 ht with ht | ht
    · rcases List.mem_append.1 ht with ht | ht
      · exact iha h.1 t ht
      · exact ihb h.2 t ht
    · rw [List.mem_singleton.1 ht]; trivial
  | _ =>
    intro t ht
    rw [List.mem_singleton.1 ht]
    first | exact h | trivial

/-- The values of the inputs. -/
def envAt (i : RpnIn) (endo : ZMod p) (mds : ℕ → ℕ → ZMod p) (V : Arg → ZMod p) : Env (ZMod p) where
  x := V i.x
  alpha := V i.alpha
  beta := V i.beta
  gamma := V i.gamma
  joint := V i.joint
  endo := endo
  mds := mds
  cell c r := V ((i.ev r).at c)
  g := V i.g
  n := i.n

theorem rpnExpr_tri {i : RpnIn} {endo : ZMod p} {mds : ℕ → ℕ → ZMod p} {a : Ex (ZMod p)} (hx : i.x ∈ K) (hg : i.g ∈ K) (ha : a.Good K i) (hn : i.n < 2 ^ 64)
    (h64 : 2 ^ 64 ≤ p) (hD : ∀ V, D V → a.Def i.n (V i.x) (V i.g)) :
    Tri base K F D (rpnExpr i endo mds (a.toks i.wc)) (fun o => {o}) fun V o => ∀ v c, a.eval (envAt i endo mds V) [] = some (v, c) → V o = v := by
  unfold rpnExpr
  refine emit_seq (by exact trivial) (by known) (by exact fun _ _ _ => trivial) fun e => ?_
  refine (constTable_tri (Or.inl rfl)).seq fun m => ?_
  refine (rpnRun_tri (i := { i with endo := e, mds := fun r c => m (3 * r + c) }) hn h64 (a.toks i.wc) (fun V h => (Ex.Def.toks (i := { i with endo := e, mds := _ }) (hD V h)))
    (Or.inr (Or.inr hx)) (Or.inr (Or.inr hg)) (by rintro b (hb | hb) <;> exact absurd hb (List.not_mem_nil)) fun t ht => ?_).seq fun s => ?_
  · have := ha.given t ht
    have sub : K ⊆ {a | ∃ j, a = m j} ∪ ({e} ∪ K) := fun _ h => Or.inr (Or.inr h)
    cases t with
    | endo => exact Or.inr (Or.inl rfl)
    | mds r c => exact Or.inl ⟨_, rfl⟩
    | alpha | beta | gamma | joint | cell => exact sub this
    | _ => exact this
  · refine Tri.ret ?_ ?_
    · rintro b rfl
      exact headD_known (Or.inr (Or.inr (Or.inr hx))) fun b hb => Or.inl (Or.inl hb)
    · rintro V ⟨q, qm, ⟨qe, -⟩, -⟩ v c hv
      have hm : Matches i.wc (envAt i endo mds V) (menv { i with endo := e, mds := fun r c => m (3 * r + c) } V) := by
        refine ⟨rfl, rfl, rfl, rfl, rfl, qe, fun r c hr hc => ?_, rfl, rfl, fun c r hc => ?_⟩
        · show V (m (3 * r + c)) = mds r c
          rw [qm _ (by omega), show (3 * r + c) / 3 = r by omega, show (3 * r + c) % 3 = c by omega]
        · exact congrArg V (varFromEvals_colNum i.wc i.ev c r hc)
      have := q _ (toks_run hm a ha.fits [] [] v c hv)
      obtain ⟨st, ca⟩ := s
      cases st with
      | nil => simp [Rpn.vals] at this
      | cons b st =>
        simp only [Rpn.vals, List.map_cons, Prod.mk.injEq, List.cons.injEq] at this
        exact this.1.1

/-! ### ft_eval -/

/-- The linearized polynomial at `zeta`, as the verifier of kimchi computes it (`kimchi/src/verifier.rs`, `ft_eval0`). -/
def ftAt {F : Type} [Field F] (P n : ℕ) (w s shift : ℕ → F) (z0 z1 a0 a1 a2 b g zeta zn om pub ct : F) : F :=
  let zkp := ∏ i ∈ Finset.Ico (n - 3) n, (zeta - om ^ i)
  (w (P - 1) + g) * z1 * a0 * zkp * (∏ i ∈ Finset.range (P - 1), (b * s i + w i + g)) - pub
    - a0 * zkp * z0 * (∏ i ∈ Finset.range P, (g + b * zeta * shift i + w i))
    + ((zn - 1) * a1 * (zeta - om ^ (n - 3)) + (zn - 1) * a2 * (zeta - 1)) * (1 - z0) / ((zeta - om ^ (n - 3)) * (zeta - 1)) - ct

theorem ftPerm_tri {i : FtIn} {m : ℕ} {init : Arg} (hw : ∀ k < m, i.w k ∈ K) (hs : ∀ k < m, i.s k ∈ K) (hb : i.beta ∈ K) (hg : i.gamma ∈ K) (hi : init ∈ K) :
    Tri base K F D (ftPerm i m init) (fun a => {a}) fun V a => V a = V init * ∏ k ∈ Finset.range m, (V i.beta * V (i.s k) + V (i.w k) + V i.gamma) := by
  unfold ftPerm
  refine loop_tri (fun _ (a : Arg) => {a}) (fun j V a => V a = V init * ∏ k ∈ Finset.range j, (V i.beta * V (i.s k) + V (i.w k) + V i.gamma)) ?_ ?_ ?_
  · rintro a rfl; exact hi
  · intro V _; simp
  · intro k hk a
    have hwk := hw k hk
    have hsk := hs k hk
    iterate 3 step
    refine emit_last _ (by exact trivial) (by known) (by exact fun _ _ _ => trivial) fun V o h e _ => ?_
    simp only [Call.sem] at h e
    obtain ⟨⟨q1, -⟩, ⟨q2, -⟩, ⟨q3, -⟩, q, -⟩ := h
    rw [e, q1, q2, q3, q, Finset.prod_range_succ]
    ring

theorem ftShift_tri {i : FtIn} {P : ℕ} {zkp : Arg} (hw : ∀ k < P, i.w k ∈ K) (hs : ∀ k < P, i.shift k ∈ K) (hb : i.beta ∈ K) (hg : i.gamma ∈ K) (hz : i.zeta ∈ K)
    (h0 : i.z0 ∈ K) (ha : i.alpha0 ∈ K) (hk : zkp ∈ K) :
    Tri base K F D (ftShift i P zkp) (fun a => {a})
      fun V a => V a = V i.alpha0 * V zkp * V i.z0 * ∏ k ∈ Finset.range P, (V i.gamma + V i.beta * V i.zeta * V (i.shift k) + V (i.w k)) := by
  unfold ftShift
  iterate 2 step
  refine loop_tri (fun _ (a : Arg) => {a}) (fun j V a => V a = V i.alpha0 * V zkp * V i.z0 *
    ∏ k ∈ Finset.range j, (V i.gamma + V i.beta * V i.zeta * V (i.shift k) + V (i.w k))) ?_ ?_ ?_
  · rintro a rfl; exact Or.inl rfl
  · rintro V ⟨⟨q1, -⟩, ⟨q2, -⟩, -⟩
    simp only [Call.sem] at q1 q2
    simp [q1, q2]
  · intro k hk' a
    have hwk := hw k hk'
    have hsk := hs k hk'
    iterate 4 step
    refine emit_last _ (by exact trivial) (by known) (by exact fun _ _ _ => trivial) fun V o h e _ => ?_
    simp only [Call.sem] at h e
    obtain ⟨⟨q1, -⟩, ⟨q2, -⟩, ⟨q3, -⟩, ⟨q4, -⟩, q, -⟩ := h
    rw [e, q1, q2, q3, q4, q, Finset.prod_range_succ]
    ring

theorem ftBoundary_tri {i : FtIn} {one zm : Arg} (h1 : one ∈ K) (hzm : zm ∈ K) (ho : i.omega ∈ K) (hz : i.zeta ∈ K) (h0 : i.z0 ∈ K) (ha1 : i.alpha1 ∈ K) (ha2 : i.alpha2 ∈ K)
    (h3 : 3 ≤ i.n) (hn : i.n < 2 ^ 64) (h64 : 2 ^ 64 ≤ p) (hF : ∀ V, F V → V one = 1)
    (hD : ∀ V, D V → V i.zeta ≠ 1 ∧ V i.zeta ≠ V i.omega ^ (i.n - 3)) :
    Tri base K F D (ftBoundary i one zm) (fun a => {a}) fun V a => (V i.zeta ≠ 1 ∧ V i.zeta ≠ V i.omega ^ (i.n - 3)) ∧
      V a = (V zm * V i.alpha1 * (V i.zeta - V i.omega ^ (i.n - 3)) + V zm * V i.alpha2 * (V i.zeta - 1)) * (1 - V i.z0) /
        ((V i.zeta - V i.omega ^ (i.n - 3)) * (V i.zeta - 1)) := by
  unfold ftBoundary
  refine (zkW3_tri ho h3 hn h64).seq fun off => ?_
  iterate 10 step
  refine emit_seq (by exact trivial) (by known) (fun V h hd => ?_) fun di => ?_
  · show V _ ≠ 0
    simp only [Call.sem] at h
    obtain ⟨⟨q1, -⟩, -, -, -, -, -, -, -, ⟨q2, -⟩, ⟨q3, -⟩, q4, hf⟩ := h
    have := hD V hd
    rw [q1, q2, q3, q4, hF V hf]
    exact mul_ne_zero (sub_ne_zero.2 this.2) (sub_ne_zero.2 this.1)
  refine emit_last _ (by exact trivial) (by known) (by exact fun _ _ _ => trivial) fun V o h e _ => ?_
  obtain ⟨⟨q0, qd⟩, ⟨q1, -⟩, ⟨q2, -⟩, ⟨q3, -⟩, ⟨q4, -⟩, ⟨q5, -⟩, ⟨q6, -⟩, ⟨q7, -⟩, ⟨q8, -⟩, ⟨q9, -⟩, ⟨q10, -⟩, q11, hf⟩ := h
  have qd : V _ ≠ 0 := qd
  simp only [Call.sem] at q0 q1 q2 q3 q4 q5 q6 q7 q8 q9 q10 e
  rw [q1, q9, q10, q11, hF V hf] at qd
  refine ⟨⟨sub_ne_zero.1 (right_ne_zero_of_mul qd), sub_ne_zero.1 (left_ne_zero_of_mul qd)⟩, ?_⟩
  rw [e, q0, q1, q2, q3, q4, q5, q6, q7, q8, q9, q10, q11, hF V hf]
  rw [mul_one_div]

theorem ftPublic_tri {i : FtIn} {present : Bool} {undef : Arg} (hp' : present = true → i.pub ∈ K ∧ undef ∈ K) :
    Tri base K F D (ftPublic i present undef) (fun _ => ∅) fun _ _ => True := by
  unfold ftPublic
  cases present with
  | false => exact Tri.ret (Set.empty_subset _) fun _ _ => trivial
  | true =>
    obtain ⟨h1, h2⟩ := hp' rfl
    rw [if_pos rfl]
    step
    exact Tri.ret (Set.empty_subset _) fun _ _ => trivial

theorem ftEval_tri {i : FtIn} {P : ℕ} {present : Bool} {undef : Arg} {ct : Bld p Arg} {Qc : (Arg → ZMod p) → Arg → Prop} (hP : 0 < P) (hw : ∀ k < P, i.w k ∈ K)
    (hs : ∀ k < P - 1, i.s k ∈ K) (hsh : ∀ k < P, i.shift k ∈ K) (h0 : i.z0 ∈ K) (h1 : i.z1 ∈ K) (ha0 : i.alpha0 ∈ K) (ha1 : i.alpha1 ∈ K) (ha2 : i.alpha2 ∈ K)
    (hb : i.beta ∈ K) (hg : i.gamma ∈ K) (hz : i.zeta ∈ K) (hzn : i.zetaN ∈ K) (ho : i.omega ∈ K) (hp' : present = true → i.pub ∈ K ∧ undef ∈ K)
    (h3 : 3 ≤ i.n) (hn : i.n < 2 ^ 64) (h64 : 2 ^ 64 ≤ p) (hD : ∀ V, D V → V i.zeta ≠ 1 ∧ V i.zeta ≠ V i.omega ^ (i.n - 3))
    (hct : Tri base K F D ct (fun a => {a}) Qc) :
    Tri base K F D (ftEval i P present undef ct) (fun a => {a}) fun V a => (V i.zeta ≠ 1 ∧ V i.zeta ≠ V i.omega ^ (i.n - 3)) ∧ ∃ c, Qc V c ∧
      V a = ftAt P i.n (fun k => V (i.w k)) (fun k => V (i.s k)) (fun k => V (i.shift k)) (V i.z0) (V i.z1) (V i.alpha0) (V i.alpha1) (V i.alpha2) (V i.beta) (V i.gamma)
        (V i.zeta) (V i.zetaN) (V i.omega) 0 (V c) := by
  unfold ftEval
  have hwP := hw (P - 1) (by omega)
  step
  refine emit_seq (by exact trivial) (by known) (by exact fun _ _ _ => trivial) fun one => ?_
  refine (zkpm_tri (by simp [ho]) (by simp [hz]) h3 hn h64).seq fun zkp => ?_
  refine emit_seq (by exact trivial) (by known) (by exact fun _ _ _ => trivial) fun zm => ?_
  iterate 3 step
  refine emit_seq (by exact trivial) (by known) (by exact fun _ _ _ => trivial) fun init => ?_
  refine (ftPerm_tri (fun k hk => by simp [hw k (by omega)]) (fun k hk => by simp [hs k hk]) (by simp [hb]) (by simp [hg]) (by simp)).seq fun ft => ?_
  refine (ftPublic_tri fun h => ⟨by simp [(hp' h).1], by simp [(hp' h).2]⟩).seq fun _ => ?_
  refine (ftShift_tri (fun k hk => by simp [hw k hk]) (fun k hk => by simp [hsh k hk]) (by simp [hb]) (by simp [hg]) (by simp [hz]) (by simp [h0]) (by simp [ha0])
    (by simp)).seq fun fs => ?_
  refine emit_seq (by exact trivial) (by known) (by exact fun _ _ _ => trivial) fun ft1 => ?_
  refine (ftBoundary_tri (by simp) (by simp) (by simp [ho]) (by simp [hz]) (by simp [h0]) (by simp [ha1]) (by simp [ha2]) h3 hn h64
    (by rintro V ⟨-, -, -, -, -, -, -, -, -, -, ⟨q, -⟩, -⟩; exact q) hD).seq fun nd => ?_
  refine emit_seq (by exact trivial) (by known) (by exact fun _ _ _ => trivial) fun ft2 => ?_
  refine (hct.weaken (O := fun a => {a}) (Q := Qc) (K := _) (fun z hz => by simp [hz]) (by rintro V ⟨-, -, -, -, -, -, -, -, -, -, -, -, -, -, h⟩; exact h) (fun _ _ h => h)
    (fun _ _ h => Or.inl h) (fun _ _ _ h => h)).seq fun pt => ?_
  refine emit_last _ (by exact trivial) (by known) (by exact fun _ _ _ => trivial) fun V o h e _ => ?_
  obtain ⟨qc, ⟨q1, -⟩, ⟨qz, q2⟩, ⟨q3, -⟩, q4, -, q5, ⟨q6, -⟩, ⟨q7, -⟩, ⟨q8, -⟩, ⟨q9, -⟩, ⟨q10, -⟩, q11, ⟨q12, -⟩, -⟩ := h
  refine ⟨qz, pt, qc, ?_⟩
  simp only [Call.sem] at q1 q3 q6 q7 q8 q9 q10 q12 e
  have hk : V zkp = ∏ j ∈ Finset.Ico (i.n - 3) i.n, (V i.zeta - V i.omega ^ j) := by
    rw [q11]
    obtain ⟨m, hm⟩ := Nat.exists_eq_add_of_le h3
    rw [hm, Finset.prod_Ico_eq_prod_range, show 3 + m - (3 + m - 3) = 3 by omega, Finset.prod_range_succ, Finset.prod_range_succ, Finset.prod_range_one,
      show 3 + m - 3 = m by omega, show 3 + m - 2 = m + 1 by omega, show 3 + m - 1 = m + 2 by omega]
    rfl
  rw [e, q1, q2, q3, q4, q5, q6, q7, q8, q9, q10, q12, hk, ftAt]
  ring

end Kimchi
end Verif
