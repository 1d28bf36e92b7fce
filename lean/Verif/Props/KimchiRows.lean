import Verif.Props.KimchiMain

/-!
# Rows and output cells of the kimchi components

`rows_amount` and `result_type` of a component are written separately from its `generate_circuit`. Here the calls are shown to take the rows
announced, and the outputs to be the cells that `result_type` names.
-/

namespace Verif
namespace Kimchi
variable {p : ℕ} [hp : Fact p.Prime] {α β : Type}

/-- The operand is the output of a call with output cell `f` that starts `k` rows after the first call. -/
def At (P : Prog p) (a : Arg) (f : ℤ → Var) (k : ℕ) : Prop := ∃ i c, a = .res i ∧ P[i]? = some c ∧ (∀ r, c.out r = f r) ∧ height (P.take i) = k

theorem At.mono {P R : Prog p} {a : Arg} {f : ℤ → Var} {k : ℕ} (h : At P a f k) (hR : P <+: R) : At R a f k := by
  obtain ⟨i, c, rfl, hi, hf, hk⟩ := h
  obtain ⟨S, rfl⟩ := hR
  have hl : i < P.length := (List.getElem?_eq_some_iff.1 hi).1
  refine ⟨i, c, rfl, by rw [List.getElem?_append_left hl, hi], hf, ?_⟩
  rw [List.take_append_of_le_length hl.le, hk]

theorem At.var {P : Prog p} {a : Arg} {f : ℤ → Var} {k : ℕ} (h : At P a f k) (base : ℤ) : argVar P base a = f (base + k) := by
  obtain ⟨i, c, rfl, hi, hf, hk⟩ := h
  rw [argVar, hi]
  show c.out (rowAt P base i) = _
  rw [hf, rowAt, ← hk]; rfl

/-- From the calls `P` on, the component takes `N` rows, and `Q` holds of the calls after it and of its result. -/
def Place (m : Bld p α) (P : Prog p) (N : ℕ) (Q : Prog p → α → Prop) : Prop := Q (m P).2 (m P).1 ∧ height (m P).2 = height P + N ∧ P <+: (m P).2

theorem Place.ret {P : Prog p} {a : α} {Q : Prog p → α → Prop} (h : Q P a) : Place (pure a : Bld p α) P 0 Q := ⟨h, rfl, List.prefix_rfl⟩

theorem Place.emit (c : Call p) (P : Prog p) : Place (emit c) P c.rows fun R a => At R a (fun r => c.out r) (height P) := by
  refine ⟨⟨P.length, c, rfl, by simp [Kimchi.emit], fun _ => rfl, by simp [Kimchi.emit]⟩, Rows.emit c P, ⟨[c], rfl⟩⟩

theorem Place.seq {m : Bld p α} {P : Prog p} {N : ℕ} {Q : Prog p → α → Prop} (h : Place m P N Q) {f : α → Bld p β} {M : ℕ} {Q' : Prog p → β → Prop}
    (h' : ∀ R a, P <+: R → height R = height P + N → Q R a → Place (f a) R M Q') : Place (m >>= f) P (N + M) Q' := by
  obtain ⟨h1, h2, h3⟩ := h
  obtain ⟨g1, g2, g3⟩ := h' _ _ h3 h2 h1
  exact ⟨g1, by rw [← Nat.add_assoc, ← h2]; exact g2, h3.trans g3⟩

theorem Place.weaken {m : Bld p α} {P : Prog p} {N M : ℕ} {Q Q' : Prog p → α → Prop} (h : Place m P N Q) (e : N = M)
    (hQ : ∀ R a, P <+: R → height R = height P + M → Q R a → Q' R a) : Place m P M Q' := by
  subst e
  exact ⟨hQ _ _ h.2.2 h.2.1 h.1, h.2⟩

theorem Place.loop {f : ℕ → α → Bld p α} {a : α} {P : Prog p} {M : ℕ} (I : ℕ → Prog p → α → Prop) (h0 : I 0 P a) (N : ℕ)
    (h : ∀ i < N, ∀ R b, P <+: R → height R = height P + i * M → I i R b → Place (f i b) R M (I (i + 1))) : Place (loop f a N) P (N * M) (I N) := by
  induction N with
  | zero => rw [Nat.zero_mul]; exact Place.ret h0
  | succ N ih =>
    rw [Nat.succ_mul]
    exact (ih fun i hi => h i (by omega)).seq fun R b hR hh hi => h N (by omega) R b hR hh hi

/-- Output cells of the components called: `W2` of the row, `W1` for a multiplication by a constant. -/
def w2 (r : ℤ) : Var := ⟨2, r, false, .witness⟩
def w1 (r : ℤ) : Var := ⟨1, r, false, .witness⟩

theorem place_mul (x y : Arg) (P : Prog p) (k : ℕ) (hk : height P = k) : Place (emit (.mul 0 x y)) P 1 fun R a => At R a w2 k := hk ▸ Place.emit _ P
theorem place_mulp (pad : ℕ) (x y : Arg) (P : Prog p) (k : ℕ) (hk : height P = k) : Place (emit (.mul pad x y)) P (1 + pad) fun R a => At R a w2 k := hk ▸ Place.emit _ P
theorem place_add (x y : Arg) (P : Prog p) (k : ℕ) (hk : height P = k) : Place (emit (.add x y)) P 1 fun R a => At R a w2 k := hk ▸ Place.emit _ P
theorem place_sub (x y : Arg) (P : Prog p) (k : ℕ) (hk : height P = k) : Place (emit (.sub x y)) P 1 fun R a => At R a w2 k := hk ▸ Place.emit _ P
theorem place_div (x y : Arg) (P : Prog p) (k : ℕ) (hk : height P = k) : Place (emit (.div x y)) P 1 fun R a => At R a w2 k := hk ▸ Place.emit _ P
theorem place_mulc (c : ZMod p) (x : Arg) (P : Prog p) (k : ℕ) (hk : height P = k) : Place (emit (.mulc c x)) P 1 fun R a => At R a w1 k := hk ▸ Place.emit _ P
theorem place_konst (c : ZMod p) (P : Prog p) : Place (emit (.konst c)) P 1 fun _ _ => True := ⟨trivial, (Place.emit _ P).2⟩
theorem place_exp (es : ℕ) (x y : Arg) (P : Prog p) (k : ℕ) (hk : height P = k) :
    Place (emit (.exp es x y)) P (Exponentiation.rows es) fun R a => At R a (Exponentiation.out c15 es) k := hk ▸ Place.emit _ P

theorem skip_mul (x y : Arg) (P : Prog p) : Place (emit (.mul 0 x y)) P 1 fun _ _ => True := ⟨trivial, (Place.emit _ P).2⟩
theorem skip_add (x y : Arg) (P : Prog p) : Place (emit (.add x y)) P 1 fun _ _ => True := ⟨trivial, (Place.emit _ P).2⟩
theorem skip_sub (x y : Arg) (P : Prog p) : Place (emit (.sub x y)) P 1 fun _ _ => True := ⟨trivial, (Place.emit _ P).2⟩
theorem skip_div (x y : Arg) (P : Prog p) : Place (emit (.div x y)) P 1 fun _ _ => True := ⟨trivial, (Place.emit _ P).2⟩
theorem skip_mulc (c : ZMod p) (x : Arg) (P : Prog p) : Place (emit (.mulc c x)) P 1 fun _ _ => True := ⟨trivial, (Place.emit _ P).2⟩
theorem skip_exp (es : ℕ) (x y : Arg) (P : Prog p) : Place (emit (.exp es x y)) P (Exponentiation.rows es) fun _ _ => True := ⟨trivial, (Place.emit _ P).2⟩

/-- A component whose output is one cell: `rows_amount`, and the cell named by `result_type`. -/
def Cell (m : Bld p Arg) (N : ℕ) (f : ℤ → Var) (k : ℕ) : Prop := ∀ row : ℤ, heightOf m = N ∧ varOf m row (resultOf m) = f (row + k)

theorem Place.cell {m : Bld p Arg} {N : ℕ} {f : ℤ → Var} {k : ℕ} (h : Place m [] N fun R a => At R a f k) : Cell m N f k := fun row => by
  refine ⟨?_, h.1.var row⟩
  have := h.2.1
  rw [show height ([] : Prog p) = 0 from rfl, Nat.zero_add] at this
  exact this

theorem zkW3_place (n : ℕ) (g : Arg) (P : Prog p) :
    Place (zkW3 n g) P (Exponentiation.rows 64 + 1) fun R a => At R a (Exponentiation.out c15 64) (height P + 1) := by
  refine Place.weaken ((place_konst _ P).seq fun R a hR hh _ => place_exp _ _ _ _ _ hh) (by omega) fun _ _ _ _ h => h

theorem zkpm_place (n : ℕ) (g x : Arg) (P : Prog p) :
    Place (zkpm n g x) P (1 + Exponentiation.rows 60 + 4 * 1 + 3 * 1) fun R a => At R a w2 (height P + 1 + Exponentiation.rows 60 + 6) := by
  refine Place.weaken ((place_konst _ P).seq fun _ _ _ h1 _ => (skip_exp _ _ _ _).seq fun _ _ _ h2 _ => (skip_mul _ _ _).seq fun _ _ _ h3 _ =>
    (skip_mul _ _ _).seq fun _ _ _ h4 _ => (skip_sub _ _ _).seq fun _ _ _ h5 _ => (skip_sub _ _ _).seq fun _ _ _ h6 _ =>
    (skip_sub _ _ _).seq fun _ _ _ h7 _ => (skip_mul _ _ _).seq fun _ _ _ h8 _ => place_mul _ _ _ (height P + 1 + Exponentiation.rows 60 + 6) ?_) ?_ fun _ _ _ _ h => h
  · omega
  · omega

theorem vanishes4_place (n : ℕ) (g x : Arg) (P : Prog p) :
    Place (vanishes4 n g x) P (1 + Exponentiation.rows 60 + 6 * 1 + 4 * 1) fun R a => At R a w2 (height P + 1 + Exponentiation.rows 60 + 9) := by
  refine Place.weaken ((place_konst _ P).seq fun _ _ _ h1 _ => (skip_exp _ _ _ _).seq fun _ _ _ h2 _ => (skip_mul _ _ _).seq fun _ _ _ h3 _ =>
    (skip_mul _ _ _).seq fun _ _ _ h4 _ => (skip_mul _ _ _).seq fun _ _ _ h5 _ => (skip_sub _ _ _).seq fun _ _ _ h6 _ =>
    (skip_sub _ _ _).seq fun _ _ _ h7 _ => (skip_sub _ _ _).seq fun _ _ _ h8 _ => (skip_sub _ _ _).seq fun _ _ _ h9 _ =>
    (skip_mul _ _ _).seq fun _ _ _ h10 _ => (skip_mul _ _ _).seq fun _ _ _ h11 _ => place_mul _ _ _ (height P + 1 + Exponentiation.rows 60 + 9) ?_) ?_
    fun _ _ _ _ h => h
  · omega
  · omega

theorem lagrangeBasis_place (n : ℕ) (i : ℤ) (g x : Arg) (P : Prog p) :
    Place (lagrangeBasis n i g x) P (3 + 2 * Exponentiation.rows 64 + 2 * 1 + 1) fun R a => At R a w2 (height P + (3 + 2 * Exponentiation.rows 64 + 2 * 1 + 1 - 1)) := by
  refine Place.weaken ((place_konst _ P).seq fun _ _ _ h1 _ => (place_konst _ _).seq fun _ _ _ h2 _ => (place_konst _ _).seq fun _ _ _ h3 _ =>
    (skip_exp _ _ _ _).seq fun _ _ _ h4 _ => (skip_sub _ _ _).seq fun _ _ _ h5 _ => (skip_exp _ _ _ _).seq fun _ _ _ h6 _ =>
    (skip_sub _ _ _).seq fun _ _ _ h7 _ => place_div _ _ _ (height P + (3 + 2 * Exponentiation.rows 64 + 2 * 1 + 1 - 1)) ?_) ?_ fun _ _ _ _ h => h
  · omega
  · omega

theorem powTwos_place (n : ℕ) (x : Arg) (P : Prog p) : Place (powTwos n x) P (n - 1) fun _ _ => True :=
  Place.weaken (Place.loop (M := 1) (fun _ _ _ => True) trivial _ fun _ _ _ _ _ _ _ => (skip_mul _ _ _).seq fun _ _ _ _ _ => Place.ret trivial) (by omega)
    fun _ _ _ _ _ => trivial

theorem bPoly_place (n : ℕ) (hn : 0 < n) (ch : ℕ → Arg) (x one : Arg) (P : Prog p) :
    Place (bPoly n ch x one) P ((n - 1) * 1 + n * (1 + 1 + 1)) fun R a => At R a w2 (height P + ((n - 1) * 1 + n * (1 + 1 + 1) - 1)) := by
  have key : ∀ (R : Prog p) (pw : ℕ → Arg), Place (loop (fun i res => do
      let r ← emit (.mul 0 (ch i) (pw (n - 1 - i)))
      let s ← emit (.add one r)
      emit (.mul 0 res s)) one n) R (n * 3) fun R' a => 0 < n → At R' a w2 (height R + n * 3 - 1) := fun R pw =>
    Place.loop (fun i R' a => 0 < i → At R' a w2 (height R + i * 3 - 1)) (fun h => absurd h (lt_irrefl 0)) n fun i _ R' b _ h _ => by
      refine Place.weaken ((skip_mul _ _ _).seq fun R1 _ _ h1 _ => (skip_add _ _ _).seq fun R2 _ _ h2 _ => place_mul _ _ R2 (height R + (i + 1) * 3 - 1) ?_) rfl
        fun _ _ _ _ h _ => h
      omega
  refine Place.weaken ((powTwos_place n x P).seq fun R pw _ h0 _ => Place.weaken (key R pw) rfl
    (Q' := fun R' a => At R' a w2 (height P + ((n - 1) * 1 + n * (1 + 1 + 1) - 1))) fun R' a _ _ h => ?_) (by omega) fun _ _ _ _ h => h
  have := h hn
  rwa [show height R + n * 3 - 1 = height P + ((n - 1) * 1 + n * (1 + 1 + 1) - 1) by omega] at this

theorem permScalars_place (m : ℕ) (w s : ℕ → Arg) (z al be ga zk : Arg) (P : Prog p) :
    Place (permScalars m w s z al be ga zk) P (3 * 1 + m * (2 * 1 + 2 * 1) + 1) fun R a => At R a w1 (height P + (3 * 1 + m * (2 * 1 + 2 * 1) + 1 - 1)) := by
  refine Place.weaken ((skip_mul _ _ P).seq fun _ _ _ h1 _ => (skip_mul _ _ _).seq fun _ _ _ h2 _ => (skip_mul _ _ _).seq fun R _ _ h3 _ =>
    (Place.loop (M := 4) (fun _ _ _ => True) trivial m fun i _ R' b _ h _ => Place.weaken ((skip_mul _ _ _).seq fun _ _ _ _ _ => (skip_add _ _ _).seq
      fun _ _ _ _ _ => (skip_add _ _ _).seq fun _ _ _ _ _ => skip_mul _ _ _) rfl fun _ _ _ _ _ => trivial).seq fun _ _ _ h4 _ =>
    place_mulc _ _ _ (height P + (3 * 1 + m * (2 * 1 + 2 * 1) + 1 - 1)) ?_) ?_ fun _ _ _ _ h => h
  · omega
  · omega

/-! ### The single output components -/

theorem zkW3_rows (n : ℕ) (g : Arg) : Cell (zkW3 (p := p) n g) (Exponentiation.rows 64 + 1) (Exponentiation.out c15 64) 1 := (zkW3_place n g []).cell
theorem zkpm_rows (n : ℕ) (g x : Arg) : Cell (zkpm (p := p) n g x) (1 + Exponentiation.rows 60 + 4 * 1 + 3 * 1) w2 (1 + Exponentiation.rows 60 + 4 * 1 + 3 * 1 - 1) := by
  have := (zkpm_place (p := p) n g x []).cell
  rwa [show height ([] : Prog p) + 1 + Exponentiation.rows 60 + 6 = 1 + Exponentiation.rows 60 + 4 * 1 + 3 * 1 - 1 by rw [show height ([] : Prog p) = 0 from rfl]; omega]
    at this
theorem vanishes4_rows (n : ℕ) (g x : Arg) :
    Cell (vanishes4 (p := p) n g x) (1 + Exponentiation.rows 60 + 6 * 1 + 4 * 1) w2 (1 + Exponentiation.rows 60 + 6 * 1 + 4 * 1 - 1) := by
  have := (vanishes4_place (p := p) n g x []).cell
  rwa [show height ([] : Prog p) + 1 + Exponentiation.rows 60 + 9 = 1 + Exponentiation.rows 60 + 6 * 1 + 4 * 1 - 1 by rw [show height ([] : Prog p) = 0 from rfl]; omega]
    at this
theorem lagrangeBasis_rows (n : ℕ) (i : ℤ) (g x : Arg) :
    Cell (lagrangeBasis (p := p) n i g x) (3 + 2 * Exponentiation.rows 64 + 2 * 1 + 1) w2 (3 + 2 * Exponentiation.rows 64 + 2 * 1 + 1 - 1) := by
  have := (lagrangeBasis_place (p := p) n i g x []).cell
  rwa [show height ([] : Prog p) = 0 from rfl, Nat.zero_add] at this
theorem bPoly_rows (n : ℕ) (hn : 0 < n) (ch : ℕ → Arg) (x one : Arg) :
    Cell (bPoly (p := p) n ch x one) ((n - 1) * 1 + n * (1 + 1 + 1)) w2 ((n - 1) * 1 + n * (1 + 1 + 1) - 1) := by
  have := (bPoly_place (p := p) n hn ch x one []).cell
  rwa [show height ([] : Prog p) = 0 from rfl, Nat.zero_add] at this
theorem permScalars_rows (m : ℕ) (w s : ℕ → Arg) (z al be ga zk : Arg) :
    Cell (permScalars (p := p) m w s z al be ga zk) (3 * 1 + m * (2 * 1 + 2 * 1) + 1) w1 (3 * 1 + m * (2 * 1 + 2 * 1) + 1 - 1) := by
  have := (permScalars_place (p := p) m w s z al be ga zk []).cell
  rwa [show height ([] : Prog p) = 0 from rfl, Nat.zero_add] at this

/-! ### Components with an array of outputs -/

theorem denominators_place (N off : ℕ) (z : Arg) (om : ℕ → Arg) (one : Arg) (o : ℕ → Arg) (P : Prog p) :
    Place (denominators N off z om one o) P (N * 2) fun R (o' : ℕ → Arg) =>
      (∀ i < N, At R (o' (off + i)) w2 (height P + 2 * i + 1)) ∧ ∀ i < off, o' i = o i := by
  refine Place.loop (M := 2) (fun j R (o' : ℕ → Arg) => (∀ i < j, At R (o' (off + i)) w2 (height P + 2 * i + 1)) ∧ ∀ i < off, o' i = o i)
    ⟨fun i hi => absurd hi (by omega), fun _ _ => rfl⟩ N
    fun j _ R b _ hh hI => Place.weaken ((skip_sub _ _ _).seq fun R1 _ p1 h1 _ => (place_div _ _ _ (height P + 2 * j + 1) (by omega)).seq fun R2 d p2 h2 ha => Place.ret
      (Q := fun R' (o' : ℕ → Arg) => (∀ i < j + 1, At R' (o' (off + i)) w2 (height P + 2 * i + 1)) ∧ ∀ i < off, o' i = o i) ⟨fun i hi => ?_, fun i hi => ?_⟩) rfl
      fun _ _ _ _ h => h
  · rcases Nat.lt_succ_iff_lt_or_eq.1 hi with h | rfl
    · rw [Function.update_of_ne (by omega)]; exact ((hI.1 i h).mono p1).mono p2
    · rw [Function.update_self]; exact ha
  · rw [Function.update_of_ne (by omega)]; exact hI.2 i hi

theorem lagrangeDenominators_place (N : ℕ) (z zo : Arg) (om : ℕ → Arg) (one : Arg) (P : Prog p) :
    Place (lagrangeDenominators N z zo om one) P ((1 + 1) * N * 2) fun R (o : ℕ → Arg) => ∀ i < N, At R (o i) w2 (height P + 2 * i + 1) ∧
      At R (o (N + i)) w2 (height P + 2 * N + 2 * i + 1) := by
  refine Place.weaken ((denominators_place N 0 z om one _ P).seq (M := N * 2) (Q' := fun R (o : ℕ → Arg) => ∀ i < N, At R (o i) w2 (height P + 2 * i + 1) ∧
      At R (o (N + i)) w2 (height P + 2 * N + 2 * i + 1)) fun R o p1 h1 hq => Place.weaken (denominators_place N N zo om one o R) rfl
    fun R' o' p2 _ h i hi => ⟨?_, ?_⟩) (by omega) fun _ _ _ _ h => h
  · rw [h.2 i hi]
    have := (hq.1 i hi).mono p2
    rwa [Nat.zero_add] at this
  · have := h.1 i hi
    rwa [h1, Nat.mul_comm N 2] at this

theorem publicEval_place (N off : ℕ) (zn acc : Arg) (pub lag om : ℕ → Arg) (size one : Arg) (P : Prog p) :
    Place (publicEval N off zn acc pub lag om size one) P ((1 + 1 + 1 + 1) * N + 1 + 1 + 1) fun R a => At R a w2 (height P + 4 * N + 2) := by
  refine Place.weaken ((Place.loop (M := 4) (fun _ _ _ => True) trivial N fun i _ R' b _ h _ => Place.weaken ((skip_mulc _ _ _).seq fun _ _ _ _ _ => (skip_mul _ _ _).seq
      fun _ _ _ _ _ => (skip_mul _ _ _).seq fun _ _ _ _ _ => skip_add _ _ _) rfl fun _ _ _ _ _ => trivial).seq fun _ _ _ h1 _ => (skip_sub _ _ _).seq fun _ _ _ h2 _ =>
      (skip_div _ _ _).seq fun _ _ _ h3 _ => place_mul _ _ _ (height P + 4 * N + 2) ?_) ?_ fun _ _ _ _ h => h
  · omega
  · omega

theorem publicCalls_place (N : ℕ) (srow : ℤ) (zn zon : Arg) (pub lag om : ℕ → Arg) (size one : Arg) (P : Prog p) :
    Place (publicCalls N srow zn zon pub lag om size one) P (((1 + 1 + 1 + 1) * N + 1 + 1 + 1) * 2) fun R (o : Arg × Arg) => At R o.1 w2 (height P + 4 * N + 2) ∧
      At R o.2 w2 (height P + 8 * N + 5) := by
  refine Place.weaken ((publicEval_place N _ _ _ _ _ _ _ _ P).seq fun R a p1 h1 ha => (publicEval_place N _ _ _ _ _ _ _ _ R).seq fun R' b p2 h2 hb =>
    Place.ret (Q := fun R (o : Arg × Arg) => At R o.1 w2 (height P + 4 * N + 2) ∧ At R o.2 w2 (height P + 8 * N + 5)) ⟨ha.mono p2, ?_⟩) ?_ fun _ _ _ _ h => h
  · rw [h1] at hb
    rwa [show height P + ((1 + 1 + 1 + 1) * N + 1 + 1 + 1) + 4 * N + 2 = height P + 8 * N + 5 by ring] at hb
  · omega

theorem powerCalls_place (n : ℕ) (srow : ℤ) (P : Prog p) :
    Place (powerCalls n srow) P (n - 2) fun R (o : ℕ → Arg) => ∀ i < n - 2, At R (o (i + 2)) w2 (height P + i) := by
  refine Place.weaken (Place.loop (M := 1) (fun j R (o : ℕ → Arg) => ∀ i < j, At R (o (i + 2)) w2 (height P + i)) (fun i hi => absurd hi (by omega)) (n - 2)
    fun j _ R b _ hh hI => (place_mul _ _ _ (height P + j) (by omega)).seq fun R2 d p2 h2 ha => Place.ret
      (Q := fun R' (o : ℕ → Arg) => ∀ i < j + 1, At R' (o (i + 2)) w2 (height P + i)) fun i hi => ?_) (by omega) fun _ _ _ _ h => h
  rcases Nat.lt_succ_iff_lt_or_eq.1 hi with h | rfl
  · rw [Function.update_of_ne (by omega)]; exact (hI i h).mono p2
  · rw [Function.update_self]; exact ha

theorem combineEvals_place (N : ℕ) (e : ℕ → Arg) (x : Arg) (P : Prog p) :
    Place (combineEvals N e x) P N fun R (o : ℕ → Arg) => ∀ i < N, At R (o i) w2 (height P + i) := by
  refine Place.weaken (Place.loop (M := 1) (fun j R (o : ℕ → Arg) => ∀ i < j, At R (o i) w2 (height P + i)) (fun i hi => absurd hi (by omega)) N
    fun j _ R b _ hh hI => (place_mul _ _ _ (height P + j) (by omega)).seq fun R2 d p2 h2 ha => Place.ret
      (Q := fun R' (o : ℕ → Arg) => ∀ i < j + 1, At R' (o i) w2 (height P + i)) fun i hi => ?_) (by omega) fun _ _ _ _ h => h
  rcases Nat.lt_succ_iff_lt_or_eq.1 hi with h | rfl
  · rw [Function.update_of_ne (by omega)]; exact (hI i h).mono p2
  · rw [Function.update_self]; exact ha

/-- The row of output `5 i + j` of generic_scalars within the component. -/
def genericRow (i j : ℕ) : ℕ := 6 * i + if j < 3 then j + 1 else if j = 3 then 5 else 0

theorem genericScalars_place (w al : ℕ → Arg) (sel : Arg) (P : Prog p) :
    Place (genericScalars w al sel) P (12 * 1) fun R (o : ℕ → Arg) => ∀ i < 2, ∀ j < 5, At R (o (5 * i + j)) w2 (height P + genericRow i j) := by
  refine Place.loop (M := 6) (fun n R (o : ℕ → Arg) => ∀ i < n, ∀ j < 5, At R (o (5 * i + j)) w2 (height P + genericRow i j)) (fun i hi => absurd hi (by omega)) 2
    fun n _ R b _ hh hI => Place.weaken ((place_mul _ _ _ (height P + 6 * n) (by omega)).seq fun R1 d1 p1 h1 a1 => (place_mul _ _ _ (height P + 6 * n + 1) (by omega)).seq
      fun R2 d2 p2 h2 a2 => (place_mul _ _ _ (height P + 6 * n + 2) (by omega)).seq fun R3 d3 p3 h3 a3 => (place_mul _ _ _ (height P + 6 * n + 3) (by omega)).seq
      fun R4 d4 p4 h4 a4 => (skip_mul _ _ _).seq fun R5 d5 p5 h5 _ => (place_mul _ _ _ (height P + 6 * n + 5) (by omega)).seq fun R6 d6 p6 h6 a6 => Place.ret
      (Q := fun R' (o : ℕ → Arg) => ∀ i < n + 1, ∀ j < 5, At R' (o (5 * i + j)) w2 (height P + genericRow i j)) fun i hi j hj => ?_) rfl fun _ _ _ _ h => h
  rcases Nat.lt_succ_iff_lt_or_eq.1 hi with h | rfl
  · rw [if_pos (by omega)]
    exact ((((((hI i h j hj).mono p1).mono p2).mono p3).mono p4).mono p5).mono p6
  · rw [if_neg (by omega)]
    have : j = 0 ∨ j = 1 ∨ j = 2 ∨ j = 3 ∨ j = 4 := by omega
    rcases this with rfl | rfl | rfl | rfl | rfl
    · simpa [genericRow, Nat.add_assoc] using (((a2.mono p3).mono p4).mono p5).mono p6
    · simpa [genericRow, Nat.add_assoc] using ((a3.mono p4).mono p5).mono p6
    · simpa [genericRow, Nat.add_assoc] using (a4.mono p5).mono p6
    · simpa [genericRow, Nat.add_assoc] using a6
    · simpa [genericRow, Nat.add_assoc] using ((((a1.mono p2).mono p3).mono p4).mono p5).mono p6

/-- b_poly_coefficients: one row more than its multiplications. -/
theorem bPolyCoeffs_place (n : ℕ) (hn : 0 < n) (ch : ℕ → Arg) (one : Arg) (P : Prog p) :
    Place (bPolyCoeffs n ch one) P (1 * 2 ^ n) fun R (o : Coef) => ∀ i, 0 < i → i < 2 ^ n → At R (o.out i) w2 (height P + (i - 1)) := by
  have hpw : 2 ≤ 2 ^ n := by calc 2 = 2 ^ 1 := rfl
    _ ≤ 2 ^ n := Nat.pow_le_pow_right (by omega) hn
  have main : ∀ N, N + 1 ≤ 2 ^ n → Place (loop (fun j (s : Coef) => do
      let shift := if j + 1 = s.pow then 1 else 0
      let k := s.k + shift
      let pow := s.pow <<< shift
      let r ← emit (p := p) (.mul (if j + 2 = 2 ^ n then 1 else 0) (s.out (j + 1 - (pow >>> 1))) (ch (n - 1 - (k - 1))))
      pure ⟨Function.update s.out (j + 1) r, k, pow⟩) ⟨fun _ => one, 0, 1⟩ N) P (if N + 1 = 2 ^ n then N + 1 else N)
      fun R (o : Coef) => ∀ i, 0 < i → i < N + 1 → At R (o.out i) w2 (height P + (i - 1)) := by
    intro N
    induction N with
    | zero => 
      intro _
      rw [if_neg (by omega)]
      exact Place.ret fun i h1 h2 => absurd h1 (by omega)
    | succ N ih =>
      intro hN
      refine Place.weaken ((ih (by omega)).seq fun R s p1 h1 hI => (place_mulp _ _ _ R (height P + N) (by rw [h1, if_neg (by omega)])).seq (M := 0) fun R2 d p2 h2 ha => Place.ret
        (Q := fun R' (o : Coef) => ∀ i, 0 < i → i < N + 1 + 1 → At R' (o.out i) w2 (height P + (i - 1))) fun i hi hi2 => ?_)
        (M := if N + 1 + 1 = 2 ^ n then N + 1 + 1 else N + 1) ?_ fun _ _ _ _ h => h
      · rcases Nat.lt_succ_iff_lt_or_eq.1 hi2 with h | rfl
        · show At _ (Function.update s.out (N + 1) d i) _ _
          rw [Function.update_of_ne (by omega)]; exact (hI i hi h).mono p2
        · show At _ (Function.update s.out (N + 1) d (N + 1)) _ _
          rw [Function.update_self]
          exact ha
      · rw [if_neg (show ¬N + 1 = 2 ^ n by omega)]
        split_ifs <;> omega
  have := main (2 ^ n - 1) (by omega)
  rw [if_pos (by omega), show 2 ^ n - 1 + 1 = 2 ^ n by omega] at this
  rw [Nat.one_mul]
  exact this

theorem splitEval_place (n M : ℕ) (hM : M < 2 ^ n) (b : ℕ → Arg) (full x pw one zero : Arg) (P : Prog p) :
    Place (splitEval n M b full x pw one zero) P ((2 ^ n - M) * (1 + 1 + 1) + 1 + 1) fun R (o : Arg × Arg) =>
      At R o.1 w2 (height P + (2 ^ n - M) * 3 + 1) ∧ At R o.2 w2 (height P + (2 ^ n - M) * 3 - 1) := by
  have key : Place (highPart n M b x one zero) P ((2 ^ n - M) * 3) fun R' (s : Arg × Arg) => 0 < 2 ^ n - M → At R' s.2 w2 (height P + (2 ^ n - M) * 3 - 1) :=
    Place.loop (fun i R' (s : Arg × Arg) => 0 < i → At R' s.2 w2 (height P + i * 3 - 1)) (fun h => absurd h (lt_irrefl 0)) _ fun i _ R' s _ h _ => by
      refine Place.weaken ((skip_mul _ _ _).seq fun R1 _ _ h1 _ => (skip_mul _ _ _).seq fun R2 _ _ h2 _ => (place_add _ _ R2 (height P + (i + 1) * 3 - 1) ?_).seq
        fun R3 d _ h3 hd => Place.ret (Q := fun R' (s : Arg × Arg) => 0 < i + 1 → At R' s.2 w2 (height P + (i + 1) * 3 - 1)) fun _ => hd) rfl fun _ _ _ _ h => h
      omega
  refine Place.weaken (key.seq fun R s p1 h1 hs => (skip_mul _ _ R).seq fun R1 r p2 h2 _ => (place_sub _ _ R1 (height P + (2 ^ n - M) * 3 + 1) ?_).seq
    fun R2 d p3 h3 hd => Place.ret (Q := fun R (o : Arg × Arg) => At R o.1 w2 (height P + (2 ^ n - M) * 3 + 1) ∧ At R o.2 w2 (height P + (2 ^ n - M) * 3 - 1))
    ⟨hd, ((hs (by omega)).mono p2).mono p3⟩) ?_ fun _ _ _ _ h => h
  · omega
  · omega

theorem coefficients_place (n M : ℕ) (hn : 0 < n) (hM : M < 2 ^ n) (ch : ℕ → Arg) (one : Arg) (P : Prog p) :
    Place (coefficients n M ch one) P (1 * 2 ^ n) fun _ _ => True := by
  rw [coefficients, if_pos hM]
  exact (bPolyCoeffs_place n hn ch one P).seq fun _ _ _ _ _ => Place.ret trivial

theorem prevChalEvals_place (n M : ℕ) (hn : 0 < n) (hM : M < 2 ^ n) (ch : ℕ → Arg) (x pw : Fin 2 → Arg) (one zero : Arg) (P : Prog p) :
    let B := (n - 1) * 1 + n * (1 + 1 + 1)
    let H := (2 ^ n - M) * (1 + 1 + 1) + 1 + 1
    Place (prevChalEvals n M ch x pw one zero) P (1 * 2 ^ n + 2 * (B + H)) fun R (o : Fin 2 → Arg × Arg) =>
      (At R (o 0).1 w2 (height P + (B + 2 ^ n + H - 1)) ∧ At R (o 0).2 w2 (height P + (B + 2 ^ n + H - 3))) ∧
        At R (o 1).1 w2 (height P + (B + 2 ^ n + H + B + H - 1)) ∧ At R (o 1).2 w2 (height P + (B + 2 ^ n + H + B + H - 3)) := by
  intro B H
  refine Place.weaken ((bPoly_place n hn ch (x 0) one P).seq fun R1 f0 p1 h1 _ => (coefficients_place n M hn hM ch one R1).seq fun R2 b p2 h2 _ =>
    (splitEval_place n M hM b f0 (x 0) (pw 0) one zero R2).seq fun R3 r0 p3 h3 a3 => (bPoly_place n hn ch (x 1) one R3).seq fun R4 f1 p4 h4 _ =>
    (splitEval_place n M hM b f1 (x 1) (pw 1) one zero R4).seq fun R5 r1 p5 h5 a5 => Place.ret (Q := fun R (o : Fin 2 → Arg × Arg) =>
      (At R (o 0).1 w2 (height P + (B + 2 ^ n + H - 1)) ∧ At R (o 0).2 w2 (height P + (B + 2 ^ n + H - 3))) ∧
        At R (o 1).1 w2 (height P + (B + 2 ^ n + H + B + H - 1)) ∧ At R (o 1).2 w2 (height P + (B + 2 ^ n + H + B + H - 3)))
      ⟨⟨?_, ?_⟩, ?_, ?_⟩) ?_ fun _ _ _ _ h => h
  · have := (a3.1.mono p4).mono p5
    rwa [show height R2 + (2 ^ n - M) * 3 + 1 = height P + (B + 2 ^ n + H - 1) by omega] at this
  · have := (a3.2.mono p4).mono p5
    rwa [show height R2 + (2 ^ n - M) * 3 - 1 = height P + (B + 2 ^ n + H - 3) by omega] at this
  · have := a5.1
    rwa [show height R4 + (2 ^ n - M) * 3 + 1 = height P + (B + 2 ^ n + H + B + H - 1) by omega] at this
  · have := a5.2
    rwa [show height R4 + (2 ^ n - M) * 3 - 1 = height P + (B + 2 ^ n + H + B + H - 3) by omega] at this
  · omega

/-- A component with any result: `rows_amount`, and facts about the output cells for every start row. -/
theorem Place.cells {m : Bld p α} {N : ℕ} {Q : Prog p → α → Prop} (h : Place m [] N Q) : heightOf m = N ∧ Q (m []).2 (resultOf m) := by
  refine ⟨?_, h.1⟩
  have := h.2.1
  rw [show height ([] : Prog p) = 0 from rfl, Nat.zero_add] at this
  exact this

theorem cell0 {P : Prog p} {a : Arg} {f : ℤ → Var} {k : ℕ} (h : At P a f (height ([] : Prog p) + k)) (row : ℤ) : argVar P row a = f (row + k) := by
  have := h.var row
  rwa [show height ([] : Prog p) = 0 from rfl, Nat.zero_add] at this

/-- lagrange_denominators: rows_amount (73-74), result_type (87-102). -/
theorem lagrangeDenominators_rows (N : ℕ) (z zo : Arg) (om : ℕ → Arg) (one : Arg) (row : ℤ) :
    let m := lagrangeDenominators (p := p) N z zo om one
    heightOf m = (1 + 1) * N * 2 ∧ ∀ i < N, varOf m row (resultOf m i) = w2 (row + (2 * i + 1 : ℕ)) ∧
      varOf m row (resultOf m (N + i)) = w2 (row + (2 * N + 2 * i + 1 : ℕ)) := by
  obtain ⟨h1, h2⟩ := (lagrangeDenominators_place (p := p) N z zo om one []).cells
  refine ⟨h1, fun i hi => ⟨cell0 ?_ row, cell0 ?_ row⟩⟩
  · exact (Nat.add_assoc _ _ _) ▸ (h2 i hi).1
  · have := (h2 i hi).2
    rwa [show ∀ a b c : ℕ, a + b + c + 1 = a + (b + c + 1) from fun _ _ _ => by ring] at this

/-- public_evaluations: rows_amount (80-85), result_type (102-118); the calls start on the second row. -/
theorem publicEvaluations_rows (N : ℕ) (srow : ℤ) (zn zon : Arg) (pub lag om : ℕ → Arg) (size one : Arg) :
    let m := publicCalls (p := p) N srow zn zon pub lag om size one
    1 + heightOf m = 1 + ((1 + 1 + 1 + 1) * N + 1 + 1 + 1) * 2 ∧ varOf m (srow + 1) (resultOf m).1 = w2 (srow + (1 + 4 * N + 2 : ℕ)) ∧
      varOf m (srow + 1) (resultOf m).2 = w2 (srow + (1 + (4 * N + 2 + 1) + 4 * N + 2 : ℕ)) := by
  obtain ⟨h1, h2, h3⟩ := (publicCalls_place (p := p) N srow zn zon pub lag om size one []).cells
  refine ⟨by rw [h1], ?_, ?_⟩
  · have := h2.var (srow + 1)
    rw [show height ([] : Prog p) = 0 from rfl, Nat.zero_add] at this
    rw [show srow + (1 + 4 * N + 2 : ℕ) = srow + 1 + (4 * N + 2 : ℕ) by push_cast; ring]
    exact this
  · have := h3.var (srow + 1)
    rw [show height ([] : Prog p) = 0 from rfl, Nat.zero_add] at this
    rw [show srow + (1 + (4 * N + 2 + 1) + 4 * N + 2 : ℕ) = srow + 1 + (8 * N + 5 : ℕ) by push_cast; ring]
    exact this

/-- element_powers: rows_amount (69-70), result_type (81-89). -/
theorem elementPowers_rows (n : ℕ) (srow : ℤ) :
    let m := powerCalls (p := p) n srow
    1 + heightOf m = (if n ≤ 1 then 1 else (n - 2) * 1 + 1) ∧ ∀ i, 2 ≤ i → i < n → varOf m (srow + 1) (resultOf m i) = w2 (srow + i - 1) := by
  obtain ⟨h1, h2⟩ := (powerCalls_place (p := p) n srow []).cells
  refine ⟨by rw [h1]; split_ifs <;> omega, fun i hi hi2 => ?_⟩
  have := (h2 (i - 2) (by omega)).var (srow + 1)
  rw [show height ([] : Prog p) = 0 from rfl, Nat.zero_add, show i - 2 + 2 = i by omega] at this
  rw [show srow + i - 1 = srow + 1 + (i - 2 : ℕ) by omega]
  exact this

/-- generic_scalars: rows_amount (73), result_type (89-114). -/
theorem genericScalars_rows (w al : ℕ → Arg) (sel : Arg) (row : ℤ) :
    let m := genericScalars (p := p) w al sel
    heightOf m = 12 * 1 ∧ ∀ i < 2, ∀ j < 5, varOf m row (resultOf m (5 * i + j)) = w2 (row + genericRow i j) := by
  obtain ⟨h1, h2⟩ := (genericScalars_place (p := p) w al sel []).cells
  exact ⟨h1, fun i hi j hj => cell0 (h2 i hi j hj) row⟩

/-- combine_proof_evals: rows_amount (80-87), result_type (97-141), `N` evaluations in the order of the struct. -/
theorem combineEvals_rows (N : ℕ) (e : ℕ → Arg) (x : Arg) (row : ℤ) :
    let m := combineEvals (p := p) N e x
    heightOf m = N ∧ ∀ i < N, varOf m row (resultOf m i) = w2 (row + i) := by
  obtain ⟨h1, h2⟩ := (combineEvals_place (p := p) N e x []).cells
  exact ⟨h1, fun i hi => cell0 (h2 i hi) row⟩

/-- b_poly_coefficients: rows_amount (71). The last row is not used. -/
theorem bPolyCoeffs_rows (n : ℕ) (hn : 0 < n) (ch : ℕ → Arg) (one : Arg) (row : ℤ) :
    let m := bPolyCoeffs (p := p) n ch one
    heightOf m = 1 * 2 ^ n ∧ ∀ i, 0 < i → i < 2 ^ n → varOf m row ((resultOf m).out i) = w2 (row + (i - 1 : ℕ)) := by
  obtain ⟨h1, h2⟩ := (bPolyCoeffs_place (p := p) n hn ch one []).cells
  exact ⟨h1, fun i hi hi2 => cell0 (h2 i hi hi2) row⟩

/-- prev_chal_evals with two chunks: rows_amount (86-94), result_type (108-139). -/
theorem prevChalEvals_rows (n M : ℕ) (hn : 0 < n) (hM : M < 2 ^ n) (ch : ℕ → Arg) (x pw : Fin 2 → Arg) (one zero : Arg) (row : ℤ) :
    let m := prevChalEvals (p := p) n M ch x pw one zero
    let B := (n - 1) * 1 + n * (1 + 1 + 1)
    let H := (2 ^ n - M) * (1 + 1 + 1) + 1 + 1
    heightOf m = 1 * 2 ^ n + 2 * (B + H) ∧
      (varOf m row (resultOf m 0).1 = w2 (row + (B + 2 ^ n + H - 1 : ℕ)) ∧ varOf m row (resultOf m 0).2 = w2 (row + (B + 2 ^ n + H - 3 : ℕ))) ∧
        varOf m row (resultOf m 1).1 = w2 (row + (B + 2 ^ n + H + B + H - 1 : ℕ)) ∧ varOf m row (resultOf m 1).2 = w2 (row + (B + 2 ^ n + H + B + H - 3 : ℕ)) := by
  intro m B H
  obtain ⟨h1, ⟨a, b⟩, c, d⟩ := (prevChalEvals_place (p := p) n M hn hM ch x pw one zero []).cells
  exact ⟨h1, ⟨cell0 a row, cell0 b row⟩, cell0 c row, cell0 d row⟩

/-! ### The theorems of `KimchiMain` are not vacuous -/

/-- Given cells in the row before the component. -/
def cellOf (i : ℕ) : Var := ⟨i, 9, false, .witness⟩

theorem cellOf_before (i : ℕ) : Before 10 (cellOf i) := fun _ => by show (9 : ℤ) < 10; norm_num

/-- A table with the given cells. -/
def tableOf (v : ℕ → ZMod p) : Table (ZMod p) := fun ty i r => if ty = .witness ∧ r = 9 then v i else 0

theorem consts_cell (os : List (Op (ZMod p))) (v : ℕ → ZMod p) (i : ℕ) : (cellOf i).value (writeConsts os (tableOf v)) = v i := by
  show writeConsts os (tableOf v) .witness i 9 = v i
  rw [writeConsts_other _ _ _ _ _ fun _ _ _ => Or.inr (by decide)]
  exact if_pos ⟨rfl, rfl⟩

theorem accepted_cell {m : Bld p α} {v : ℕ → ZMod p} (h : Accepted m 10 (tableOf v)) (i : ℕ) :
    (cellOf i).value (assignOf m 10 (writeConsts (circuitOf m 10) (tableOf v))) = v i := by
  rw [h.before (cellOf_before i), consts_cell]

/-- A table that satisfies the obligations and has the given cells. -/
theorem filled {m : Bld p α} {v : ℕ → ZMod p} (h : Accepted m 10 (tableOf v)) : ∃ t, Sat t (circuitOf m 10) ∧ ∀ i, (cellOf i).value t = v i :=
  ⟨_, h.1, accepted_cell h⟩

abbrev ext (i : ℕ) : Arg := .ext (cellOf i)

/-- zkpm_evaluate at 3 for a domain of 16 points generated by 2, over some prime field of more than 64 bits. -/
example : ∃ (q : ℕ) (_ : Fact q.Prime) (t : Table (ZMod q)), 2 ^ 64 ≤ q ∧ (cellOf 0).value t = 2 ∧ (cellOf 1).value t = 3 ∧
    Sat t (circuitOf (zkpm 16 (ext 0) (ext 1)) 10) ∧ outVal (zkpm 16 (ext 0) (ext 1)) 10 t = (3 - 2 ^ 13) * (3 - 2 ^ 14) * (3 - 2 ^ 15) := by
  obtain ⟨q, h64, hq⟩ := Nat.exists_infinite_primes (2 ^ 64)
  have : Fact q.Prime := ⟨hq⟩
  obtain ⟨t, h1, h2⟩ := filled (zkpm_complete (p := q) (n := 16) (by norm_num) (by norm_num) h64 (cellOf 0) (cellOf 1) 10 (cellOf_before 0) (cellOf_before 1)
    (tableOf fun i => if i = 0 then 2 else 3))
  refine ⟨q, inferInstance, t, h64, h2 0, h2 1, h1, ?_⟩
  rw [zkpm_sound (by norm_num) (by norm_num) h64 (cellOf 0) (cellOf 1) 10 _ h1, h2, h2, Finset.prod_Ico_eq_prod_range]
  simp [Finset.prod_range_succ]

/-- The Lagrange basis of row 13 at the point 3: the point is not in the domain generated by 2. -/
example : ∃ (q : ℕ) (_ : Fact q.Prime) (t : Table (ZMod q)), 2 ^ 64 ≤ q ∧ (cellOf 0).value t = 2 ∧ (cellOf 1).value t = 3 ∧
    Sat t (circuitOf (lagrangeBasis 16 (-3) (ext 0) (ext 1)) 10) ∧ outVal (lagrangeBasis 16 (-3) (ext 0) (ext 1)) 10 t * (3 - 2 ^ 13) = 3 ^ 16 - 1 := by
  obtain ⟨q, h64, hq⟩ := Nat.exists_infinite_primes (2 ^ 64)
  have : Fact q.Prime := ⟨hq⟩
  have hb : basisIndex 16 (-3) = 13 := by decide
  obtain ⟨t, h1, h2⟩ := filled (lagrangeBasis_complete (p := q) (n := 16) (i := -3) (by norm_num) (by norm_num) (by norm_num) h64 (cellOf 0) (cellOf 1) 10
    (cellOf_before 0) (cellOf_before 1) (tableOf fun i => if i = 0 then 2 else 3) (by
      rw [consts_cell, consts_cell, hb]
      intro h
      have h' : ((3 : ℕ) : ZMod q) = ((2 ^ 13 : ℕ) : ZMod q) := by push_cast; rw [if_neg (by norm_num), if_pos rfl] at h; rw [h]; norm_num
      rw [ZMod.natCast_eq_natCast_iff', Nat.mod_eq_of_lt (by omega), Nat.mod_eq_of_lt (by omega)] at h'
      omega))
  refine ⟨q, inferInstance, t, h64, h2 0, h2 1, h1, ?_⟩
  have := (lagrangeBasis_sound (p := q) (n := 16) (i := -3) (by norm_num) (by norm_num) (by norm_num) h64 (cellOf 0) (cellOf 1) 10 t h1).2
  rw [h2, h2, hb] at this
  simpa using this

local instance fact101 : Fact (Nat.Prime 101) := ⟨by norm_num⟩

/-- b_poly with the challenges 2 and 3 at 5. -/
example : ∃ t : Table (ZMod 101), (cellOf 3).value t = 1 ∧ Sat t (circuitOf (bPoly 2 ext (ext 2) (ext 3)) 10) ∧
    outVal (bPoly 2 ext (ext 2) (ext 3)) 10 t = (1 + 2 * 5 ^ 2) * (1 + 3 * 5) := by
  obtain ⟨t, h1, h2⟩ := filled (bPoly_complete (p := 101) 2 cellOf (cellOf 3) 10 (cellOf 2) (fun i _ => cellOf_before i) (cellOf_before 2) (cellOf_before 3)
    (tableOf fun i => [2, 3, 5, 1].getD i 0) (by rw [consts_cell]; rfl))
  refine ⟨t, h2 3, h1, ?_⟩
  rw [bPoly_sound 2 cellOf (cellOf 3) 10 (cellOf 2) t (h2 3) h1]
  simp only [h2]
  decide

/-- prev_chal_evals with the same polynomial `(1 + 2 X ^ 2) (1 + 3 X)` cut after its third coefficient. -/
example : ∃ t : Table (ZMod 101), Sat t (circuitOf (chunks 2 cellOf (cellOf 3) 3 (fun _ => cellOf 2) (fun _ => cellOf 5) (cellOf 4)) 10) ∧
    valOf (chunks 2 cellOf (cellOf 3) 3 (fun _ => cellOf 2) (fun _ => cellOf 5) (cellOf 4)) 10 t
      (resultOf (chunks (p := 101) 2 cellOf (cellOf 3) 3 (fun _ => cellOf 2) (fun _ => cellOf 5) (cellOf 4)) 0).1 = 1 + 3 * 5 + 2 * 5 ^ 2 ∧
    valOf (chunks 2 cellOf (cellOf 3) 3 (fun _ => cellOf 2) (fun _ => cellOf 5) (cellOf 4)) 10 t
      (resultOf (chunks (p := 101) 2 cellOf (cellOf 3) 3 (fun _ => cellOf 2) (fun _ => cellOf 5) (cellOf 4)) 0).2 = 6 := by
  obtain ⟨t, h1, h2⟩ := filled (prevChalEvals_complete (p := 101) 2 cellOf (cellOf 3) 10 3 (fun _ => cellOf 2) (fun _ => cellOf 5) (cellOf 4) (fun i _ => cellOf_before i)
    (fun _ => cellOf_before 2) (fun _ => cellOf_before 5) (cellOf_before 3) (cellOf_before 4)
    (tableOf fun i => [2, 3, 5, 1, 0, 125].getD i 0) (by rw [consts_cell]; rfl) (by rw [consts_cell]; rfl) (fun _ => by rw [consts_cell, consts_cell]; decide))
  obtain ⟨e1, e2⟩ := prevChalEvals_sound (p := 101) 2 cellOf (cellOf 3) 10 3 (fun _ => cellOf 2) (fun _ => cellOf 5) (cellOf 4) t (h2 3) (h2 4)
    (fun _ => by rw [h2, h2]; decide) h1 0
  refine ⟨t, h1, ?_, ?_⟩
  · rw [e1]; simp only [h2]; decide
  · rw [e2]; simp only [h2]; decide

/-- perm_scalars with two wires. -/
example : ∃ t : Table (ZMod 101), Sat t (circuitOf (perm 2 cellOf (fun i => cellOf (i + 2)) (cellOf 4) (cellOf 5) (cellOf 6) (cellOf 7) (cellOf 8)) 10) ∧
    outVal (perm 2 cellOf (fun i => cellOf (i + 2)) (cellOf 4) (cellOf 5) (cellOf 6) (cellOf 7) (cellOf 8)) 10 t =
      -(5 * 7 * 6 * 9 * ((8 + 7 * 3 + 1) * (8 + 7 * 4 + 2))) := by
  obtain ⟨t, h1, h2⟩ := filled (permScalars_complete (p := 101) 2 cellOf (fun i => cellOf (i + 2)) (cellOf 4) (cellOf 5) (cellOf 6) (cellOf 7) (cellOf 8) 10
    (fun i _ => cellOf_before i) (fun i _ => cellOf_before _) (cellOf_before _) (cellOf_before _) (cellOf_before _) (cellOf_before _) (cellOf_before _)
    (tableOf fun i => i + 1))
  refine ⟨t, h1, ?_⟩
  rw [permScalars_sound 2 cellOf _ _ _ _ _ _ 10 t h1]
  simp only [h2]
  decide

/-- Public evaluations of the polynomial with the values 4 and 7 on the domain of order 4 of the field with 101 elements, at 2 and 20. -/
example : ∃ t : Table (ZMod 101),
    Sat t (publicCircuit 2 (fun i => cellOf i) (cellOf 4) 10 (cellOf 2) (cellOf 3) (cellOf 6) (fun i => cellOf (7 + i)) (fun i => cellOf (9 + i)) (cellOf 5)) ∧
    valOf (pubCalls 2 (fun i => cellOf i) (cellOf 4) 10 (cellOf 2) (cellOf 3) (cellOf 6) (fun i => cellOf (7 + i)) fun i => cellOf (9 + i)) 11 t
      (resultOf (pubCalls (p := 101) 2 (fun i => cellOf i) (cellOf 4) 10 (cellOf 2) (cellOf 3) (cellOf 6) (fun i => cellOf (7 + i)) fun i => cellOf (9 + i))).1 =
      -(4 * 1 * (2 - 1)⁻¹ + 7 * 10 * (2 - 10)⁻¹) * ((2 ^ 4 - 1) / 4) := by
  let v : ℕ → ZMod 101 := fun i => [1, 10, 2 ^ 4, 20 ^ 4, 1, 0, 4, 4, 7, (2 - 1)⁻¹, (2 - 10)⁻¹, (20 - 1)⁻¹, (20 - 10)⁻¹].getD i 0
  have b : ∀ i, Before 10 (cellOf i) := cellOf_before
  obtain ⟨h, hv⟩ := publicEvaluations_complete (p := 101) 2 (fun i => cellOf i) (cellOf 4) 10 (cellOf 2) (cellOf 3) (cellOf 6) (fun i => cellOf (7 + i))
    (fun i => cellOf (9 + i)) (cellOf 5) (b _) (b _) (b _) (b _) (b _) (fun _ _ => b _) (fun _ _ => b _) (fun _ _ => b _) (tableOf v) (by rw [consts_cell]; rfl)
    (by rw [consts_cell]; rfl) (by rw [consts_cell]; decide)
  have hv' := fun i => (hv _ (b i)).trans (consts_cell _ v i)
  refine ⟨_, h, ?_⟩
  have := (publicEvaluations_sound (p := 101) 2 (fun i => cellOf i) (cellOf 4) 10 (cellOf 2) (cellOf 3) (cellOf 6) (fun i => cellOf (7 + i)) (fun i => cellOf (9 + i)) (cellOf 5)
    _ (hv' 4) (hv' 5) h).2.1
  simp only [hv'] at this
  exact this.trans (by decide +kernel)

/-- The hypotheses of the interpolation theorem: 10 is a primitive fourth root, and neither point is in the domain. -/
example : IsPrimitiveRoot (10 : ZMod 101) 4 ∧ (2 : ZMod 101) ^ 4 ≠ 1 ∧ (20 : ZMod 101) ^ 4 ≠ 1 := by
  refine ⟨(IsPrimitiveRoot.iff (by norm_num)).2 ⟨by decide, fun l h1 h2 => ?_⟩, by decide, by decide⟩
  interval_cases l <;> decide

/-- Five powers of 3. -/
example : ∃ t : Table (ZMod 101), Sat t (powersCircuit 5 10 (cellOf 0) (cellOf 1)) ∧
    valOf (powerCalls 5 10) 11 t (resultOf (powerCalls (p := 101) 5 10) 4) = 3 ^ 4 := by
  obtain ⟨h, hv⟩ := elementPowers_complete (p := 101) 5 10 (cellOf 0) (cellOf 1) (cellOf_before _) (cellOf_before _) (tableOf fun i => if i = 0 then 3 else 1)
    (by rw [consts_cell]; rfl)
  have hv' := fun i => (hv _ (cellOf_before i)).trans (consts_cell _ _ i)
  refine ⟨_, h, ?_⟩
  have := elementPowers_sound 5 10 (cellOf 0) (cellOf 1) _ (hv' 1) h 4 (by norm_num)
  rwa [hv' 0] at this

/-- generic_scalars and combine_proof_evals accept every input. -/
example : ∃ t : Table (ZMod 101), Sat t (circuitOf (generic cellOf (fun i => cellOf (6 + i)) (cellOf 8)) 10) ∧ (cellOf 8).value t = 9 :=
  let ⟨t, h, hv⟩ := filled (genericScalars_complete (p := 101) cellOf 10 (fun i => cellOf (6 + i)) (cellOf 8) (fun i _ => cellOf_before i) (fun i _ => cellOf_before _)
    (cellOf_before _) (tableOf fun i => i + 1))
  ⟨t, h, by rw [hv]; decide⟩

end Kimchi
end Verif
