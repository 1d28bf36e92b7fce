import Verif.Props.KimchiFt

/-!
# rpn_expression and ft_eval in tables
-/

set_option linter.unusedSectionVars false
set_option linter.unusedVariables false

namespace Verif
namespace Kimchi

variable {p : ℕ} [hp : Fact p.Prime]

/-- The inputs of rpn_expression. -/
structure RpnVars where
  x : Var
  alpha : Var
  beta : Var
  gamma : Var
  joint : Var
  g : Var
  wc : ℕ
  n : ℕ
  ev : ℕ → Column → Var

def RpnVars.toIn (i : RpnVars) : RpnIn where
  x := .ext i.x
  alpha := .ext i.alpha
  beta := .ext i.beta
  gamma := .ext i.gamma
  joint := .ext i.joint
  wc := i.wc
  ev r := ⟨fun k => .ext (i.ev r (.witness k)), .ext (i.ev r .z), .ext (i.ev r .poseidon), .ext (i.ev r .generic), .ext (i.ev r .aggreg), .ext (i.ev r .table),
    .ext (i.ev r .runtime), fun k => .ext (i.ev r (.sorted k))⟩
  g := .ext i.g
  n := i.n
  endo := .ext i.x
  mds _ _ := .ext i.x

theorem RpnVars.at_eq (i : RpnVars) (r : ℕ) (c : Column) : (i.toIn.ev r).at c = .ext (i.ev r c) := by cases c <;> rfl

/-- The values of the inputs in a table. -/
def RpnVars.env (i : RpnVars) (endo : ZMod p) (mds : ℕ → ℕ → ZMod p) (t : Table (ZMod p)) : Env (ZMod p) where
  x := i.x.value t
  alpha := i.alpha.value t
  beta := i.beta.value t
  gamma := i.gamma.value t
  joint := i.joint.value t
  endo := endo
  mds := mds
  cell c r := (i.ev r c).value t
  g := i.g.value t
  n := i.n

/-- The component for an expression. -/
abbrev rpn (i : RpnVars) (endo : ZMod p) (mds : ℕ → ℕ → ZMod p) (a : Ex (ZMod p)) : Bld p Arg := rpnExpr i.toIn endo mds (a.toks i.wc)

theorem envAt_toIn (i : RpnVars) (endo : ZMod p) (mds : ℕ → ℕ → ZMod p) (V : Arg → ZMod p) (t : Table (ZMod p)) (hV : ∀ v, V (.ext v) = v.value t) :
    envAt i.toIn endo mds V = i.env endo mds t := by
  unfold envAt RpnVars.env
  congr 1
  all_goals first | exact hV _ | (funext c r; rw [i.at_eq, hV])

/-- The numbers in the expression are in range: columns, rows of the matrix, exponents, rows of the domain. -/
def Ex.InRange (wc n : ℕ) : Ex (ZMod p) → Prop
  | .mds r c => r < 3 ∧ c < 3
  | .cell c _ => Kimchi.Fits wc c
  | .double a => a.InRange wc n
  | .square a => a.InRange wc n
  | .pow a e => e < 2 ^ 64 ∧ a.InRange wc n
  | .add a b => a.InRange wc n ∧ b.InRange wc n
  | .mul a b => a.InRange wc n ∧ b.InRange wc n
  | .sub a b => a.InRange wc n ∧ b.InRange wc n
  | .vanish => 4 ≤ n
  | .basis j => -n ≤ j ∧ j < 2 ^ 31
  | .store a => a.InRange wc n
  | _ => True

/-- All inputs are available. -/
def RpnVars.Known (i : RpnVars) (K : Set Arg) : Prop :=
  .ext i.x ∈ K ∧ .ext i.alpha ∈ K ∧ .ext i.beta ∈ K ∧ .ext i.gamma ∈ K ∧ .ext i.joint ∈ K ∧ .ext i.g ∈ K ∧ ∀ r c, .ext (i.ev r c) ∈ K

theorem good_of {i : RpnVars} {K : Set Arg} (h : i.Known K) {a : Ex (ZMod p)} (ha : a.InRange i.wc i.n) : a.Good K i.toIn := by
  obtain ⟨h1, h2, h3, h4, h5, h6, h7⟩ := h
  induction a with
  | alpha => exact h2
  | beta => exact h3
  | gamma => exact h4
  | joint => exact h5
  | cell c r => exact ⟨ha, (i.at_eq r c) ▸ h7 r c⟩
  | double a ih => exact ih ha
  | square a ih => exact ih ha
  | store a ih => exact ih ha
  | pow a e ih => exact ⟨ha.1, ih ha.2⟩
  | add a b iha ihb => exact ⟨iha ha.1, ihb ha.2⟩
  | mul a b iha ihb => exact ⟨iha ha.1, ihb ha.2⟩
  | sub a b iha ihb => exact ⟨iha ha.1, ihb ha.2⟩
  | _ => exact ha

section
variable (i : RpnVars) (endo : ZMod p) (mds : ℕ → ℕ → ZMod p) (a : Ex (ZMod p)) (row : ℤ) (hn : i.n < 2 ^ 64) (h64 : 2 ^ 64 ≤ p) (ha : a.InRange i.wc i.n)
include hn h64 ha

/-- rpn_expression on the tokens of an expression: the output is the value of the expression. -/
theorem rpn_sound (t : Table (ZMod p)) (h : Sat t (circuitOf (rpn i endo mds a) row)) (v : ZMod p) (c : List (ZMod p))
    (hv : a.eval (i.env endo mds t) [] = some (v, c)) : outVal (rpn i endo mds a) row t = v := by
  have hk : i.Known Set.univ := ⟨trivial, trivial, trivial, trivial, trivial, trivial, fun _ _ => trivial⟩
  refine sound_of (rpnExpr_tri (F := fun _ => True) trivial trivial (good_of hk ha) hn h64 fun _ h => h.elim) trivial h v c ?_
  rw [envAt_toIn i endo mds _ t fun _ => rfl]
  exact hv

theorem rpn_complete (hk : i.Known (given row)) (t : Table (ZMod p)) (hD : a.Def i.n (i.x.value (writeConsts (circuitOf (rpn i endo mds a) row) t))
    (i.g.value (writeConsts (circuitOf (rpn i endo mds a) row) t))) : Accepted (rpn i endo mds a) row t :=
  accepted_of (rpnExpr_tri (F := fun _ => True) (D := fun V => a.Def i.n (V (.ext i.x)) (V (.ext i.g))) hk.1 hk.2.2.2.2.2.1 (good_of hk ha) hn h64 fun _ h => h) t
    fun V hV => ⟨trivial, by rw [hV, hV]; exact hD⟩

end

/-! ### ft_eval -/

/-- The inputs of ft_eval. -/
structure FtVars where
  w : ℕ → Var
  s : ℕ → Var
  shift : ℕ → Var
  z0 : Var
  z1 : Var
  alpha0 : Var
  alpha1 : Var
  alpha2 : Var
  beta : Var
  gamma : Var
  zeta : Var
  zetaN : Var
  omega : Var
  pub : Var
  n : ℕ

def FtVars.toIn (i : FtVars) : FtIn where
  w k := .ext (i.w k)
  s k := .ext (i.s k)
  shift k := .ext (i.shift k)
  z0 := .ext i.z0
  z1 := .ext i.z1
  alpha0 := .ext i.alpha0
  alpha1 := .ext i.alpha1
  alpha2 := .ext i.alpha2
  beta := .ext i.beta
  gamma := .ext i.gamma
  zeta := .ext i.zeta
  zetaN := .ext i.zetaN
  omega := .ext i.omega
  pub := .ext i.pub
  n := i.n

/-- The specification with the values of a table. -/
def FtVars.spec (i : FtVars) (P : ℕ) (t : Table (ZMod p)) (pub ct : ZMod p) : ZMod p :=
  ftAt P i.n (fun k => (i.w k).value t) (fun k => (i.s k).value t) (fun k => (i.shift k).value t) (i.z0.value t) (i.z1.value t) (i.alpha0.value t) (i.alpha1.value t)
    (i.alpha2.value t) (i.beta.value t) (i.gamma.value t) (i.zeta.value t) (i.zetaN.value t) (i.omega.value t) pub ct

/-- The component: `undef` is the variable read before it is set. -/
abbrev ft (i : FtVars) (P : ℕ) (present : Bool) (undef : Var) (r : RpnVars) (endo : ZMod p) (mds : ℕ → ℕ → ZMod p) (a : Ex (ZMod p)) : Bld p Arg :=
  ftEval i.toIn P present (.ext undef) (rpn r endo mds a)

section
variable (i : FtVars) (P : ℕ) (present : Bool) (undef : Var) (r : RpnVars) (endo : ZMod p) (mds : ℕ → ℕ → ZMod p) (a : Ex (ZMod p)) (row : ℤ)
  (hP : 0 < P) (h3 : 3 ≤ i.n) (hn : i.n < 2 ^ 64) (hr : r.n < 2 ^ 64) (h64 : 2 ^ 64 ≤ p) (ha : a.InRange r.wc r.n)
include hP h3 hn hr h64 ha

/-- What ft_eval computes: the evaluation of the public input is left out, whether it is there or not. -/
theorem ft_value (t : Table (ZMod p)) (h : Sat t (circuitOf (ft i P present undef r endo mds a) row)) (v : ZMod p) (c : List (ZMod p))
    (hv : a.eval (r.env endo mds t) [] = some (v, c)) : i.zeta.value t ≠ 1 ∧ i.zeta.value t ≠ i.omega.value t ^ (i.n - 3) ∧
      outVal (ft i P present undef r endo mds a) row t = i.spec P t 0 v := by
  have hk : r.Known Set.univ := ⟨trivial, trivial, trivial, trivial, trivial, trivial, fun _ _ => trivial⟩
  obtain ⟨⟨h1, h2⟩, b, hb, e⟩ := sound_of (ftEval_tri (F := fun _ => True) hP (fun _ _ => trivial) (fun _ _ => trivial) (fun _ _ => trivial) trivial trivial trivial trivial trivial
    trivial trivial trivial trivial trivial (fun _ => ⟨trivial, trivial⟩) h3 hn h64 (fun _ h => h.elim)
    (rpnExpr_tri (F := fun _ => True) trivial trivial (good_of hk ha) hr h64 fun _ h => h.elim)) trivial h
  have hbv := hb v c (by rw [envAt_toIn r endo mds _ t fun _ => rfl]; exact hv)
  rw [hbv] at e
  exact ⟨h1, h2, e⟩

/-- Without public input (or where its evaluation is 0) ft_eval is right. -/
theorem ft_sound_partial (t : Table (ZMod p)) (hpub : present = true → i.pub.value t = 0) (h : Sat t (circuitOf (ft i P present undef r endo mds a) row)) (v : ZMod p)
    (c : List (ZMod p)) (hv : a.eval (r.env endo mds t) [] = some (v, c)) :
    outVal (ft i P present undef r endo mds a) row t = i.spec P t (if present then i.pub.value t else 0) v := by
  rw [(ft_value i P present undef r endo mds a row hP h3 hn hr h64 ha t h v c hv).2.2]
  cases present with
  | false => rfl
  | true => rw [if_pos rfl, hpub rfl]

/-- With a public input that does not evaluate to 0 it is wrong, in every table. -/
theorem ft_wrong (t : Table (ZMod p)) (hpub : i.pub.value t ≠ 0) (h : Sat t (circuitOf (ft i P true undef r endo mds a) row)) (v : ZMod p)
    (c : List (ZMod p)) (hv : a.eval (r.env endo mds t) [] = some (v, c)) :
    outVal (ft i P true undef r endo mds a) row t ≠ i.spec P t (i.pub.value t) v := by
  rw [(ft_value i P true undef r endo mds a row hP h3 hn hr h64 ha t h v c hv).2.2]
  intro e
  unfold FtVars.spec ftAt at e
  apply hpub
  simp only at e
  linear_combination e

theorem ft_complete (hw : ∀ k < P, Before row (i.w k)) (hs : ∀ k < P - 1, Before row (i.s k)) (hsh : ∀ k < P, Before row (i.shift k)) (h0 : Before row i.z0)
    (h1 : Before row i.z1) (ha0 : Before row i.alpha0) (ha1 : Before row i.alpha1) (ha2 : Before row i.alpha2) (hb : Before row i.beta) (hg : Before row i.gamma)
    (hz : Before row i.zeta) (hzn : Before row i.zetaN) (ho : Before row i.omega) (hp' : present = true → Before row i.pub ∧ Before row undef) (hk : r.Known (given row))
    (t : Table (ZMod p)) (tc : Table (ZMod p)) (htc : tc = writeConsts (circuitOf (ft i P present undef r endo mds a) row) t)
    (hz1 : i.zeta.value tc ≠ 1) (hz3 : i.zeta.value tc ≠ i.omega.value tc ^ (i.n - 3)) (hD : a.Def r.n (r.x.value tc) (r.g.value tc)) :
    Accepted (ft i P present undef r endo mds a) row t := by
  subst htc
  exact accepted_of (ftEval_tri (F := fun _ => True)
    (D := fun V => (V (.ext i.zeta) ≠ 1 ∧ V (.ext i.zeta) ≠ V (.ext i.omega) ^ (i.n - 3)) ∧ a.Def r.n (V (.ext r.x)) (V (.ext r.g))) hP
    (fun k h => mem_given (hw k h)) (fun k h => mem_given (hs k h)) (fun k h => mem_given (hsh k h)) (mem_given h0) (mem_given h1) (mem_given ha0) (mem_given ha1)
    (mem_given ha2) (mem_given hb) (mem_given hg) (mem_given hz) (mem_given hzn) (mem_given ho) (fun h => ⟨mem_given (hp' h).1, mem_given (hp' h).2⟩) h3 hn h64
    (fun _ h => h.1) (rpnExpr_tri (F := fun _ => True) hk.1 hk.2.2.2.2.2.1 (good_of hk ha) hr h64 fun _ h => h.2)) t
    fun V hV => ⟨trivial, by simp only [hV]; exact ⟨⟨hz1, hz3⟩, hD⟩⟩

end

/-! ### Rows -/

/-- The rows `rpn_component_rows` (constraints/rpn_string_literal.hpp:87-157) adds for a token. -/
def Tok.rows : Tok p → ℕ
  | .lit _ => 1
  | .pow _ => 1 + Exponentiation.rows 64
  | .add => 1
  | .mul => 1
  | .sub => 1
  | .vanish => 1 + Exponentiation.rows 60 + 6 * 1 + 4 * 1
  | .basis _ => 3 + 2 * Exponentiation.rows 64 + 2 * 1 + 1
  | _ => 0

theorem rpnStep_place (i : RpnIn) (t : Tok p) (s : Rpn) (P : Prog p) : Place (rpnStep i t s) P t.rows fun _ _ => True := by
  cases t with
  | lit k => exact (place_konst _ P).seq fun _ _ _ _ _ => Place.ret trivial
  | pow e => exact (place_konst _ P).seq fun _ _ _ _ _ => (skip_exp _ _ _ _).seq fun _ _ _ _ _ => Place.ret trivial
  | add => exact (skip_add _ _ P).seq fun _ _ _ _ _ => Place.ret trivial
  | mul => exact (skip_mul _ _ P).seq fun _ _ _ _ _ => Place.ret trivial
  | sub => exact (skip_sub _ _ P).seq fun _ _ _ _ _ => Place.ret trivial
  | vanish => exact (vanishes4_place _ _ _ P).seq fun _ _ _ _ _ => Place.ret trivial
  | basis j => exact (lagrangeBasis_place _ _ _ _ P).seq fun _ _ _ _ _ => Place.ret trivial
  | _ => exact Place.ret trivial

theorem rpnRun_place (i : RpnIn) (ts : List (Tok p)) : ∀ (s : Rpn) (P : Prog p), Place (rpnRun i ts s) P (ts.map Tok.rows).sum fun _ _ => True := by
  induction ts with
  | nil => exact fun s P => Place.ret trivial
  | cons t ts ih => exact fun s P => (rpnStep_place i t s P).seq fun R s' _ _ _ => ih s' R

theorem rpnExpr_place (i : RpnIn) (endo : ZMod p) (mds : ℕ → ℕ → ZMod p) (ts : List (Tok p)) (P : Prog p) :
    Place (rpnExpr i endo mds ts) P (1 + 3 * 3 + (ts.map Tok.rows).sum) fun _ _ => True := by
  refine Place.weaken ((place_konst _ P).seq fun R e _ _ _ => (Place.loop (M := 1) (fun _ _ _ => True) trivial 9 fun _ _ _ _ _ _ _ => (place_konst _ _).seq
    fun _ _ _ _ _ => Place.ret trivial).seq fun R m _ _ _ => (rpnRun_place _ ts _ R).seq fun _ _ _ _ _ => Place.ret (Q := fun _ _ => True) trivial) ?_ fun _ _ _ _ h => h
  omega

/-- rpn_expression takes the rows that `rpn_component_rows` counts. -/
theorem rpn_rows (i : RpnIn) (endo : ZMod p) (mds : ℕ → ℕ → ZMod p) (ts : List (Tok p)) :
    heightOf (rpnExpr i endo mds ts) = 1 + 3 * 3 + (ts.map Tok.rows).sum := (rpnExpr_place i endo mds ts []).cells.1

/-- `rows()` of ft_eval, oracles_scalar/ft_eval.hpp:90-138; `N` rows for the constant term. -/
def ftRows (P : ℕ) (present : Bool) (N : ℕ) : ℕ :=
  2 + (1 + Exponentiation.rows 60 + 4 * 1 + 3 * 1) + 1 + 1 + 3 * 1 + (P - 1) * (2 * 1 + 2 * 1) + (if present then 1 else 0) + 2 * 1 + P * (3 * 1 + 2 * 1) + 1 +
    (Exponentiation.rows 64 + 1) + 3 * 1 + 5 * 1 + 1 + 1 + 1 + 1 + 1 + N + 1

theorem ftPublic_place (i : FtIn) (present : Bool) (undef : Arg) (P : Prog p) : Place (ftPublic i present undef) P (if present then 1 else 0) fun _ _ => True := by
  cases present with
  | false => exact Place.ret trivial
  | true => exact (skip_sub _ _ P).seq fun _ _ _ _ _ => Place.ret trivial

/-- ft_eval: rows, and the output in the last row (159-162). -/
theorem ft_rows (i : FtIn) (P : ℕ) (present : Bool) (undef : Arg) (ct : Bld p Arg) (N : ℕ) (hct : ∀ R : Prog p, Place ct R N fun _ _ => True) :
    Cell (ftEval i P present undef ct) (ftRows P present N) w2 (ftRows P present N - 1) := by
  have key : Place (ftEval i P present undef ct) [] (ftRows P present N) fun R a => At R a w2 (ftRows P present N - 1) := by
    refine Place.weaken ((place_konst _ _).seq fun _ _ _ h1 _ => (place_konst _ _).seq fun _ _ _ h2 _ => (zkpm_place _ _ _ _).seq fun _ _ _ h3 _ =>
      (skip_sub _ _ _).seq fun _ _ _ h4 _ => (skip_add _ _ _).seq fun _ _ _ h5 _ => (skip_mul _ _ _).seq fun _ _ _ h6 _ => (skip_mul _ _ _).seq fun _ _ _ h7 _ =>
      (skip_mul _ _ _).seq fun _ _ _ h8 _ =>
      (Place.loop (M := 4) (fun _ _ _ => True) trivial (P - 1) fun _ _ _ _ _ _ _ => (skip_mul _ _ _).seq fun _ _ _ _ _ => (skip_add _ _ _).seq fun _ _ _ _ _ =>
        (skip_add _ _ _).seq fun _ _ _ _ _ => skip_mul _ _ _).seq fun _ _ _ h9 _ =>
      (ftPublic_place _ _ _ _).seq fun _ _ _ h10 _ =>
      (show Place (ftShift i P _) _ (2 + P * 5) (fun _ _ => True) from
        Place.weaken ((skip_mul _ _ _).seq fun _ _ _ _ _ => (skip_mul _ _ _).seq fun _ _ _ _ _ =>
          Place.loop (M := 5) (fun _ _ _ => True) trivial P fun _ _ _ _ _ _ _ => (skip_mul _ _ _).seq fun _ _ _ _ _ => (skip_mul _ _ _).seq fun _ _ _ _ _ =>
            (skip_add _ _ _).seq fun _ _ _ _ _ => (skip_add _ _ _).seq fun _ _ _ _ _ => skip_mul _ _ _) (by omega) fun _ _ _ _ h => h).seq fun _ _ _ h11 _ =>
      (skip_sub _ _ _).seq fun _ _ _ h12 _ =>
      (show Place (ftBoundary i _ _) _ (Exponentiation.rows 64 + 1 + 12) (fun _ _ => True) from
        Place.weaken ((zkW3_place _ _ _).seq fun _ _ _ _ _ => (skip_sub _ _ _).seq fun _ _ _ _ _ => (skip_sub _ _ _).seq fun _ _ _ _ _ => (skip_sub _ _ _).seq fun _ _ _ _ _ =>
          (skip_mul _ _ _).seq fun _ _ _ _ _ => (skip_mul _ _ _).seq fun _ _ _ _ _ => (skip_mul _ _ _).seq fun _ _ _ _ _ => (skip_mul _ _ _).seq fun _ _ _ _ _ =>
          (skip_add _ _ _).seq fun _ _ _ _ _ => (skip_mul _ _ _).seq fun _ _ _ _ _ => (skip_mul _ _ _).seq fun _ _ _ _ _ => (skip_div _ _ _).seq fun _ _ _ _ _ =>
          skip_mul _ _ _) (by omega) fun _ _ _ _ h => h).seq fun _ _ _ h13 _ =>
      (skip_add _ _ _).seq fun _ _ _ h14 _ => (hct _).seq fun _ _ _ h15 _ => place_sub _ _ _ (ftRows P present N - 1) ?_) ?_ fun _ _ _ _ h => h
    · rw [show height ([] : Prog p) = 0 from rfl] at h1
      unfold ftRows
      omega
    · unfold ftRows
      omega
  exact key.cell

/-! ### Examples -/

/-- All inputs in the cells of the row before. -/
def exRpn : RpnVars := ⟨cellOf 0, cellOf 1, cellOf 1, cellOf 1, cellOf 1, cellOf 2, 15, 16, fun _ _ => cellOf 3⟩

/-- `alpha * cache(w0^2 - w0) + load 0 + mds[1][2] * w0'^7`. -/
def exExpr : Ex (ZMod p) :=
  .add (.add (.mul .alpha (.store (.sub (.square (.cell (.witness 0) 0)) (.cell (.witness 0) 0)))) (.load 0)) (.mul (.mds 1 2) (.pow (.cell (.witness 0) 1) 7))

theorem exExpr_range : (exExpr (p := p)).InRange 15 16 := by
  simp [exExpr, Ex.InRange, Fits]

theorem exKnown : exRpn.Known (given 10) :=
  ⟨mem_given (cellOf_before _), mem_given (cellOf_before _), mem_given (cellOf_before _), mem_given (cellOf_before _), mem_given (cellOf_before _),
    mem_given (cellOf_before _), fun _ _ => mem_given (cellOf_before _)⟩

/-- With alpha 5 and all evaluations 4: `5 * 12 + 12 + 6 * 4^7`. -/
example : ∃ (q : ℕ) (_ : Fact q.Prime) (t : Table (ZMod q)), 2 ^ 64 ≤ q ∧ Sat t (circuitOf (rpn exRpn (9 : ZMod q) (fun r c => (3 * r + c + 1 : ℕ)) exExpr) 10) ∧
    outVal (rpn exRpn (9 : ZMod q) (fun r c => (3 * r + c + 1 : ℕ)) exExpr) 10 t = 5 * 12 + 12 + 6 * 4 ^ 7 := by
  obtain ⟨q, h64, hq⟩ := Nat.exists_infinite_primes (2 ^ 64)
  have : Fact q.Prime := ⟨hq⟩
  obtain ⟨t, h1, h2⟩ := filled (rpn_complete exRpn (9 : ZMod q) (fun r c => (3 * r + c + 1 : ℕ)) exExpr 10 (by decide) h64 exExpr_range exKnown
    (tableOf fun i => [3, 5, 2, 4].getD i 0) (by simp [exExpr, Ex.Def]))
  refine ⟨q, inferInstance, t, h64, h1, ?_⟩
  refine rpn_sound exRpn (9 : ZMod q) (fun r c => (3 * r + c + 1 : ℕ)) exExpr 10 (by decide) h64 exExpr_range t h1 _ [12] ?_
  have e1 : (cellOf 1).value t = 5 := h2 1
  have e3 : (cellOf 3).value t = 4 := h2 3
  simp only [exExpr, Ex.eval, RpnVars.env, exRpn, e1, e3]
  norm_num

/-- All inputs of ft_eval in the row before; the public evaluation is cell 4. -/
def exFt : FtVars := ⟨fun _ => cellOf 3, fun _ => cellOf 1, fun _ => cellOf 2, cellOf 5, cellOf 1, cellOf 1, cellOf 3, cellOf 2, cellOf 1, cellOf 3, cellOf 0, cellOf 6, cellOf 2, cellOf 4, 16⟩

theorem three_ne {q : ℕ} (h : 2 ^ 64 ≤ q) (hq : q.Prime) : (3 : ZMod q) ≠ 1 ∧ (3 : ZMod q) ≠ 2 ^ 13 := by
  refine ⟨fun e => ?_, fun e => ?_⟩
  · have e' : ((3 : ℕ) : ZMod q) = ((1 : ℕ) : ZMod q) := by push_cast; exact e
    rw [ZMod.natCast_eq_natCast_iff', Nat.mod_eq_of_lt (by omega), Nat.mod_eq_of_lt (by omega)] at e'
    omega
  · have e' : ((3 : ℕ) : ZMod q) = ((2 ^ 13 : ℕ) : ZMod q) := by push_cast; rw [e]; norm_num
    rw [ZMod.natCast_eq_natCast_iff', Nat.mod_eq_of_lt (by omega), Nat.mod_eq_of_lt (by omega)] at e'
    omega

theorem exFt_filled {q : ℕ} [hq : Fact q.Prime] (h64 : 2 ^ 64 ≤ q) (present : Bool) : ∃ t : Table (ZMod q),
    Sat t (circuitOf (ft exFt 7 present (cellOf 7) exRpn (9 : ZMod q) (fun r c => (3 * r + c + 1 : ℕ)) exExpr) 10) ∧
      ∀ i, (cellOf i).value t = [3, 5, 2, 4, 11, 8, 3 ^ 16].getD i 0 := by
  have b := cellOf_before
  refine filled (ft_complete exFt 7 present (cellOf 7) exRpn (9 : ZMod q) (fun r c => (3 * r + c + 1 : ℕ)) exExpr 10 (by decide) (by decide) (by decide) (by decide) h64
    exExpr_range (fun _ _ => b _) (fun _ _ => b _) (fun _ _ => b _) (b _) (b _) (b _) (b _) (b _) (b _) (b _) (b _) (b _) (b _) (fun _ => ⟨b _, b _⟩) exKnown _ _ rfl
    ?_ ?_ (by simp [exExpr, Ex.Def]))
  · show (cellOf 0).value _ ≠ 1
    rw [consts_cell]; exact (three_ne h64 hq.1).1
  · show (cellOf 0).value _ ≠ (cellOf 2).value _ ^ 13
    rw [consts_cell, consts_cell]; exact (three_ne h64 hq.1).2

theorem exEval {q : ℕ} [hq : Fact q.Prime] (t : Table (ZMod q)) (e1 : (cellOf 1).value t = 5) (e3 : (cellOf 3).value t = 4) :
    exExpr.eval (exRpn.env (9 : ZMod q) (fun r c => (3 * r + c + 1 : ℕ)) t) [] = some (5 * 12 + 12 + 6 * 4 ^ 7, [12]) := by
  simp only [exExpr, Ex.eval, RpnVars.env, exRpn, e1, e3]
  norm_num

/-- A table in which ft_eval leaves out the public evaluation 11. -/
example : ∃ (q : ℕ) (_ : Fact q.Prime) (t : Table (ZMod q)), Sat t (circuitOf (ft exFt 7 true (cellOf 7) exRpn (9 : ZMod q) (fun r c => (3 * r + c + 1 : ℕ)) exExpr) 10) ∧
    (cellOf 4).value t = 11 ∧ outVal (ft exFt 7 true (cellOf 7) exRpn (9 : ZMod q) (fun r c => (3 * r + c + 1 : ℕ)) exExpr) 10 t ≠
      exFt.spec 7 t 11 (5 * 12 + 12 + 6 * 4 ^ 7) := by
  obtain ⟨q, h64, hq⟩ := Nat.exists_infinite_primes (2 ^ 64)
  have : Fact q.Prime := ⟨hq⟩
  obtain ⟨t, h1, h2⟩ := exFt_filled (q := q) h64 true
  have e4 : (cellOf 4).value t = 11 := h2 4
  refine ⟨q, inferInstance, t, h1, e4, ?_⟩
  have := ft_wrong exFt 7 (cellOf 7) exRpn (9 : ZMod q) (fun r c => (3 * r + c + 1 : ℕ)) exExpr 10 (by decide) (by decide) (by decide) (by decide) h64 exExpr_range t
    (by
      show (cellOf 4).value t ≠ 0
      rw [e4]
      intro e
      have e' : ((11 : ℕ) : ZMod q) = ((0 : ℕ) : ZMod q) := by push_cast; exact e
      rw [ZMod.natCast_eq_natCast_iff', Nat.mod_eq_of_lt (by omega), Nat.mod_eq_of_lt (by omega)] at e'
      omega) h1 _ _ (exEval t (h2 1) (h2 3))
  rw [show exFt.pub.value t = 11 from e4] at this
  exact this

/-- Without public input. -/
example : ∃ (q : ℕ) (_ : Fact q.Prime) (t : Table (ZMod q)), Sat t (circuitOf (ft exFt 7 false (cellOf 7) exRpn (9 : ZMod q) (fun r c => (3 * r + c + 1 : ℕ)) exExpr) 10) ∧
    outVal (ft exFt 7 false (cellOf 7) exRpn (9 : ZMod q) (fun r c => (3 * r + c + 1 : ℕ)) exExpr) 10 t = exFt.spec 7 t 0 (5 * 12 + 12 + 6 * 4 ^ 7) := by
  obtain ⟨q, h64, hq⟩ := Nat.exists_infinite_primes (2 ^ 64)
  have : Fact q.Prime := ⟨hq⟩
  obtain ⟨t, h1, h2⟩ := exFt_filled (q := q) h64 false
  exact ⟨q, inferInstance, t, h1, ft_sound_partial exFt 7 false (cellOf 7) exRpn (9 : ZMod q) (fun r c => (3 * r + c + 1 : ℕ)) exExpr 10 (by decide) (by decide) (by decide)
    (by decide) h64 exExpr_range t (fun h => by simp at h) h1 _ _ (exEval t (h2 1) (h2 3))⟩

end Kimchi
end Verif
