import Verif.Props.R1csRouting

/-!
# C156: the honest assignment of the Benes network
-/

set_option linter.unusedSimpArgs false
set_option linter.unusedVariables false
set_option linter.unusedSectionVars false

namespace Verif
namespace R1cs
namespace Routing
variable {p : ℕ} [Fact p.Prime]

/-! ### Assignments in order -/

theorem run_aux {F : Type*} [Field F] (s : Asg F) (T : ℕ → Prop) : ∀ (l : List (ℕ × (Asg F → F))) (s0 : Asg F), (∀ w ∈ l, T w.1) → (∀ x, ¬ T x → s0 x = s x) →
    (∀ w ∈ l, ∀ s' : Asg F, (∀ x, ¬ T x → s' x = s x) → w.2 s' = w.2 s) → run l s0 = s0.setAll (l.map fun w => (w.1, w.2 s)) := by
  intro l
  induction l with
  | nil => intro s0 _ _ _; rfl
  | cons w l ih =>
    intro s0 h1 h2 h3
    show run l (s0.set w.1 (w.2 s0)) = (s0.set w.1 (w.2 s)).setAll _
    rw [h3 w (by simp) s0 h2]
    refine ih _ (fun x hx => h1 x (by simp [hx])) (fun x hx => ?_) fun x hx => h3 x (by simp [hx])
    rw [Asg.set_ne _ _ (show x ≠ w.1 from fun e => hx (by rw [e]; exact h1 w (by simp))), h2 x hx]

theorem run_eq {F : Type*} [Field F] (l : List (ℕ × (Asg F → F))) (s : Asg F) (T : ℕ → Prop) (h1 : ∀ w ∈ l, T w.1)
    (h3 : ∀ w ∈ l, ∀ s' : Asg F, (∀ x, ¬ T x → s' x = s x) → w.2 s' = w.2 s) : run l s = s.setAll (l.map fun w => (w.1, w.2 s)) :=
  run_aux s T l s h1 (fun _ _ => rfl) h3

/-! ### Unpacking -/

theorem fromPacked_ne (bits : List ℕ) (packed : ℕ → ℕ) (c : ℕ) (s : Asg (ZMod p)) (m j : ℕ) (h : j ∉ bits) : multiFromPacked bits packed c s m j = s j := by
  induction m with
  | zero => rfl
  | succ m ih => rw [multiFromPacked, packAssign_ne _ _ _ fun hm => h (mem_of_chunk hm), ih]

theorem chunk_nodup {l : List ℕ} (h : l.Nodup) (c i : ℕ) : (chunk l c i).Nodup := h.sublist ((List.drop_sublist _ _).trans (List.take_sublist _ _))

theorem fromPacked_get (bits : List ℕ) (bs : List Bool) (hl : bits.length = bs.length) (hnd : bits.Nodup) (packed : ℕ → ℕ) (c : ℕ) (hc : 0 < c) (hp : 2 ^ c ≤ p)
    (s : Asg (ZMod p)) (hpk : ∀ j, packed j ∉ bits) (hv : ∀ j < numChunks bs.length c, val s (packed j) = ((bnat (chunk bs c j) : ℕ) : ZMod p)) (m : ℕ) :
    ∀ t (h : t < bits.length), t / c < m → multiFromPacked bits packed c s m bits[t] = b2f (bs[t]'(hl ▸ h)) := by
  induction m with
  | zero => intro t h h'; exact absurd h' (Nat.not_lt_zero _)
  | succ m ih =>
    intro t h h'
    rw [multiFromPacked]
    obtain ⟨d1, d2, d3⟩ := chunk_index (len := bs.length) hc (hl ▸ h)
    by_cases e : t / c = m
    · subst e
      have g : (chunk bits c (t / c))[t % c]? = some bits[t] := by rw [chunk_get, if_pos d3, d2, List.getElem?_eq_getElem h]
      obtain ⟨g1, g2⟩ := List.getElem?_eq_some_iff.1 g
      rw [← g2, packAssign_get _ (chunk_nodup hnd _ _) _ _ g1, val_congr (fromPacked_ne bits packed c s _ _ (hpk _)), hv _ d1,
        ZMod.val_natCast_of_lt (lt_of_lt_of_le (lt_of_lt_of_le (bnat_lt _) (Nat.pow_le_pow_right (by norm_num) (chunk_length _ _ _))) hp), bnat_testBit]
      congr 1
      rw [List.getD_eq_getElem?_getD, chunk_get, if_pos d3, d2, List.getElem?_eq_getElem (hl ▸ h), Option.getD_some]
    · rw [packAssign_ne, ih t h (by omega)]
      intro hm
      obtain ⟨q, hq, hqe⟩ := List.getElem_of_mem hm
      have hqc : q < c := lt_of_lt_of_le hq (chunk_length _ _ _)
      have : (chunk bits c m)[q]? = some bits[t] := by rw [List.getElem?_eq_getElem hq, hqe]
      rw [chunk_get, if_pos hqc] at this
      obtain ⟨w1, w2⟩ := List.getElem?_eq_some_iff.1 this
      have := (List.Nodup.getElem_inj_iff hnd).1 w2
      apply e
      rw [← this, mul_comm, Nat.mul_add_div hc, Nat.div_eq_of_lt hqc, add_zero]

theorem fromPacked_bits (bits : List ℕ) (bs : List Bool) (hl : bits.length = bs.length) (hnd : bits.Nodup) (h0 : 0 ∉ bits) (packed : ℕ → ℕ) (c : ℕ) (hc : 0 < c)
    (hp : 2 ^ c ≤ p) (s : Asg (ZMod p)) (hpk : ∀ j, packed j ∉ bits) (hv : ∀ j < numChunks bs.length c, val s (packed j) = ((bnat (chunk bs c j) : ℕ) : ZMod p)) :
    bitsOf (multiFromPacked bits packed c s (numChunks bits.length c)) bits = bs.map b2f := by
  apply List.ext_getElem (by simp [bitsOf, hl])
  intro t h1 h2
  have ht : t < bits.length := by simpa [bitsOf] using h1
  simp only [bitsOf, List.getElem_map]
  rw [val_pos _ fun e => h0 (e ▸ List.getElem_mem ht)]
  exact fromPacked_get bits bs hl hnd packed c hc hp s hpk hv _ t ht (chunk_index hc ht).1

/-! ### Packing -/

theorem multiFrom_value (bits : List ℕ) (bs : List Bool) (packed : ℕ → ℕ) (base c : ℕ) (hpk : ∀ j, packed j = base + j) (s : Asg (ZMod p)) (hb : ∀ j ∈ bits, j < base)
    (h0 : 0 < base) (hbs : bitsOf s bits = bs.map b2f) (m : ℕ) : ∀ j < m, val (multiFromBits (bits.map Lc.var) packed c s m) (packed j) = ((bnat (chunk bs c j) : ℕ) : ZMod p) := by
  intro j hj
  have e : packed = fun j => base + j := funext hpk
  subst e
  rw [val_pos _ (show base + j ≠ 0 by omega), multiFrom_get bits base c s hb m j hj, ← chunk_map]
  have : bits.map (val s) = bs.map b2f := hbs
  rw [this, chunk_map, horner_bits]

/-! ### The network -/

namespace Benes
variable (k : Benes)

theorem pk_inj {c i j c' i' j' : ℕ} (hi : i < k.n) (hi' : i' < k.n) (hj : j < k.sub) (hj' : j' < k.sub) (h : k.pk c i j = k.pk c' i' j') : c = c' ∧ i = i' ∧ j = j' := by
  unfold pk at h
  obtain ⟨a, b⟩ := mul_inj hj hj' (Nat.add_left_cancel h)
  obtain ⟨a1, a2⟩ := mul_inj hi hi' a
  exact ⟨a1, a2, b⟩

theorem pk_lt {c i j : ℕ} (hc : c ≤ k.cols) (hi : i < k.n) (hj : j < k.sub) : k.pk c i j < k.base + (k.cols + 1) * k.n * k.sub := by
  unfold pk
  have a : c * k.n + i + 1 ≤ (k.cols + 1) * k.n := by
    have : c * k.n ≤ k.cols * k.n := Nat.mul_le_mul_right _ hc
    have : (k.cols + 1) * k.n = k.cols * k.n + k.n := by ring
    omega
  have b := Nat.mul_le_mul_right k.sub a
  have : (c * k.n + i + 1) * k.sub = (c * k.n + i) * k.sub + k.sub := by ring
  omega

theorem pk_ne_sw {c i j c' i' : ℕ} (hc : c ≤ k.cols) (hi : i < k.n) (hj : j < k.sub) : k.pk c i j ≠ k.sw c' i' := by
  have := k.pk_lt hc hi hj
  unfold sw; omega

theorem sw_inj {c i c' i' : ℕ} (hi : i < k.n) (hi' : i' < k.n) (h : k.sw c i = k.sw c' i') : c = c' ∧ i = i' := by
  unfold sw at h
  exact mul_inj hi hi' (Nat.add_left_cancel h)

/-- The routing is one of the network: the two rows of a switch agree. -/
def Routes (r : ℕ → ℕ → Bool) : Prop := ∀ c < k.cols, ∀ i < k.n, r c (k.cr c i) = r c i

theorem dest_lt (hk : k.Topology) (r : ℕ → ℕ → Bool) {c i : ℕ} (hc : c < k.cols) (hi : i < k.n) : k.dest r c i < k.n := by
  unfold dest
  split
  · exact (hk.cr c hc i hi).1
  · rw [hk.st c hc i hi]; exact hi

theorem dest_dest (hk : k.Topology) {r : ℕ → ℕ → Bool} (hr : k.Routes r) {c i : ℕ} (hc : c < k.cols) (hi : i < k.n) : k.dest r c (k.dest r c i) = i := by
  by_cases h : r c i = true
  · have e : k.dest r c i = k.cr c i := if_pos h
    rw [e, dest, if_pos (by rw [hr c hc i hi]; exact h)]
    exact (hk.cr c hc i hi).2.2
  · have e : k.dest r c i = i := by unfold dest; rw [if_neg h]; exact hk.st c hc i hi
    rw [e, e]

theorem dest_inj (hk : k.Topology) {r : ℕ → ℕ → Bool} (hr : k.Routes r) {c i i' : ℕ} (hc : c < k.cols) (hi : i < k.n) (hi' : i' < k.n)
    (h : k.dest r c i = k.dest r c i') : i = i' := by
  rw [← k.dest_dest hk hr hc hi, ← k.dest_dest hk hr hc hi', h]

/-- What is written in column `c`. -/
theorem mem_col {r : ℕ → ℕ → Bool} {c : ℕ} {w : ℕ × (Asg (ZMod p) → ZMod p)} : w ∈ (List.range k.n).flatMap (k.colWrites r c) ↔
    (∃ i < k.n, 1 < k.sub ∧ w = (k.sw c i, fun _ => if r c i then 1 else 0)) ∨
      ∃ i < k.n, ∃ j < k.sub, w = (k.pk (c + 1) (k.dest r c i) j, fun s => val s (k.pk c i j)) := by
  simp only [List.mem_flatMap, List.mem_range, colWrites, List.mem_append, List.mem_map]
  constructor
  · rintro ⟨i, hi, h | ⟨j, hj, rfl⟩⟩
    · split at h
      · rename_i h1; exact Or.inl ⟨i, hi, h1, List.mem_singleton.1 h⟩
      · simp at h
    · exact Or.inr ⟨i, hi, j, hj, rfl⟩
  · rintro (⟨i, hi, h1, rfl⟩ | ⟨i, hi, j, hj, rfl⟩)
    · exact ⟨i, hi, Or.inl (by rw [if_pos h1]; simp)⟩
    · exact ⟨i, hi, Or.inr ⟨j, hj, rfl⟩⟩

theorem col_run (hk : k.Topology) {r : ℕ → ℕ → Bool} {c : ℕ} (hc : c < k.cols) (s : Asg (ZMod p)) :
    run ((List.range k.n).flatMap (k.colWrites r c)) s = s.setAll (((List.range k.n).flatMap (k.colWrites r c)).map fun w => (w.1, w.2 s)) := by
  refine run_eq _ s (fun x => (∃ i < k.n, ∃ j < k.sub, x = k.pk (c + 1) i j) ∨ ∃ i < k.n, x = k.sw c i) (fun w hw => ?_) fun w hw s' hs' => ?_
  · rcases k.mem_col.1 hw with ⟨i, hi, -, rfl⟩ | ⟨i, hi, j, hj, rfl⟩
    · exact Or.inr ⟨i, hi, rfl⟩
    · exact Or.inl ⟨_, k.dest_lt hk r hc hi, j, hj, rfl⟩
  · rcases k.mem_col.1 hw with ⟨i, hi, -, rfl⟩ | ⟨i, hi, j, hj, rfl⟩
    · rfl
    · refine val_congr (hs' _ ?_)
      rintro (⟨a, ha, b, hb, e⟩ | ⟨a, ha, e⟩)
      · have := (k.pk_inj hi ha hj hb e).1; omega
      · exact k.pk_ne_sw (by omega) hi hj e

theorem col_pk (hk : k.Topology) {r : ℕ → ℕ → Bool} (hr : k.Routes r) {c : ℕ} (hc : c < k.cols) (s : Asg (ZMod p)) {i j : ℕ} (hi : i < k.n) (hj : j < k.sub) :
    run ((List.range k.n).flatMap (k.colWrites r c)) s (k.pk (c + 1) (k.dest r c i) j) = val s (k.pk c i j) := by
  rw [k.col_run hk hc]
  apply Asg.setAll_mem
  · exact List.mem_map.2 ⟨_, k.mem_col.2 (Or.inr ⟨i, hi, j, hj, rfl⟩), rfl⟩
  · intro t ht e
    obtain ⟨w, hw, rfl⟩ := List.mem_map.1 ht
    rcases k.mem_col.1 hw with ⟨a, ha, -, rfl⟩ | ⟨a, ha, b, hb, rfl⟩
    · exact absurd e.symm (k.pk_ne_sw (by omega) (k.dest_lt hk r hc hi) hj)
    · obtain ⟨-, e1, rfl⟩ := k.pk_inj (k.dest_lt hk r hc ha) (k.dest_lt hk r hc hi) hb hj e
      rw [k.dest_inj hk hr hc ha hi e1]

theorem col_sw (hk : k.Topology) {r : ℕ → ℕ → Bool} {c : ℕ} (hc : c < k.cols) (s : Asg (ZMod p)) {i : ℕ} (hi : i < k.n) (h1 : 1 < k.sub) :
    run ((List.range k.n).flatMap (k.colWrites r c)) s (k.sw c i) = if r c i then 1 else 0 := by
  rw [k.col_run hk hc]
  apply Asg.setAll_mem
  · exact List.mem_map.2 ⟨_, k.mem_col.2 (Or.inl ⟨i, hi, h1, rfl⟩), rfl⟩
  · intro t ht e
    obtain ⟨w, hw, rfl⟩ := List.mem_map.1 ht
    rcases k.mem_col.1 hw with ⟨a, ha, -, rfl⟩ | ⟨a, ha, b, hb, rfl⟩
    · rw [(k.sw_inj ha hi e).2]
    · exact absurd e (k.pk_ne_sw (by omega) (k.dest_lt hk r hc ha) hb)

theorem col_ne (hk : k.Topology) {r : ℕ → ℕ → Bool} {c : ℕ} (hc : c < k.cols) (s : Asg (ZMod p)) {x : ℕ} (h1 : ∀ i < k.n, ∀ j < k.sub, k.pk (c + 1) i j ≠ x)
    (h2 : ∀ i < k.n, k.sw c i ≠ x) : run ((List.range k.n).flatMap (k.colWrites r c)) s x = s x := by
  rw [k.col_run hk hc]
  apply Asg.setAll_ne
  intro t ht
  obtain ⟨w, hw, rfl⟩ := List.mem_map.1 ht
  rcases k.mem_col.1 hw with ⟨a, ha, -, rfl⟩ | ⟨a, ha, b, hb, rfl⟩
  · exact h2 a ha
  · exact h1 _ (k.dest_lt hk r hc ha) b hb

/-- After `m` columns. -/
theorem route_inv (hk : k.Topology) {r : ℕ → ℕ → Bool} (hr : k.Routes r) (s : Asg (ZMod p)) (m : ℕ) (hm : m ≤ k.cols) :
    (∀ x < k.base, k.routeAll r s m x = s x) ∧
    (∀ c ≤ k.cols, m < c ∨ c = 0 → ∀ i < k.n, ∀ j < k.sub, k.routeAll r s m (k.pk c i j) = s (k.pk c i j)) ∧
    (1 < k.sub → ∀ c < m, ∀ i < k.n, k.routeAll r s m (k.sw c i) = if r c i then 1 else 0) ∧
    (∀ c < m, ∀ i < k.n, ∀ j < k.sub, k.routeAll r s m (k.pk (c + 1) (k.dest r c i) j) = val (k.routeAll r s m) (k.pk c i j)) := by
  induction m with
  | zero => exact ⟨fun _ _ => rfl, fun _ _ _ _ _ _ _ => rfl, fun _ c hc => by omega, fun c hc => by omega⟩
  | succ m ih =>
    obtain ⟨a1, a2, a3, a4⟩ := ih (by omega)
    have hmc : m < k.cols := by omega
    -- packets of other columns
    have fr : ∀ c ≤ k.cols, c ≠ m + 1 → ∀ i < k.n, ∀ j < k.sub, k.routeAll r s (m + 1) (k.pk c i j) = k.routeAll r s m (k.pk c i j) := by
      intro c hc hne i hi j hj
      refine k.col_ne hk hmc _ (fun a ha b hb e => hne (k.pk_inj ha hi hb hj e).1.symm) fun a ha e => k.pk_ne_sw hc hi hj e.symm
    refine ⟨fun x hx => ?_, fun c hc hcm i hi j hj => ?_, fun h1 c hc i hi => ?_, fun c hc i hi j hj => ?_⟩
    · rw [← a1 x hx]
      refine k.col_ne hk hmc _ (fun a _ b _ => by unfold pk; omega) fun a _ => by unfold sw; omega
    · rw [fr c hc (by omega) i hi j hj]
      exact a2 c hc (by omega) i hi j hj
    · by_cases e : c = m
      · subst e; exact k.col_sw hk hmc _ hi h1
      · rw [← a3 h1 c (by omega) i hi]
        refine k.col_ne hk hmc _ (fun a ha b hb => k.pk_ne_sw (by omega) ha hb) fun a ha e' => e (k.sw_inj ha hi e').1.symm
    · by_cases e : c = m
      · subst e
        rw [val_congr (fr c (by omega) (by omega) i hi j hj)]
        exact k.col_pk hk hr hmc _ hi hj
      · rw [fr (c + 1) (by omega) (by omega) _ (k.dest_lt hk r (by omega) hi) j hj, val_congr (fr c (by omega) (by omega) i hi j hj)]
        exact a4 c (by omega) i hi j hj

/-- Where packet `i` is after `m` columns. -/
def path (r : ℕ → ℕ → Bool) (i : ℕ) : ℕ → ℕ
  | 0 => i
  | m + 1 => k.dest r m (path r i m)

theorem path_lt (hk : k.Topology) (r : ℕ → ℕ → Bool) {i : ℕ} (hi : i < k.n) (m : ℕ) (hm : m ≤ k.cols) : k.path r i m < k.n := by
  induction m with
  | zero => exact hi
  | succ m ih => exact k.dest_lt hk r (by omega) (ih (by omega))

theorem path_inj (hk : k.Topology) {r : ℕ → ℕ → Bool} (hr : k.Routes r) {i i' : ℕ} (hi : i < k.n) (hi' : i' < k.n) (m : ℕ) (hm : m ≤ k.cols)
    (h : k.path r i m = k.path r i' m) : i = i' := by
  induction m with
  | zero => exact h
  | succ m ih => exact ih (by omega) (k.dest_inj hk hr (by omega) (k.path_lt hk r hi m (by omega)) (k.path_lt hk r hi' m (by omega)) h)

/-- The bits are given, below `base`; output bits are different variables, not input bits. -/
structure WF : Prop where
  base : 0 < k.base
  cap : 0 < k.cap
  w : 0 < k.w
  lines : k.lines ≤ k.n
  inB : ∀ i < k.n, (k.inB i).length = k.w ∧ ∀ x ∈ k.inB i, x < k.base
  outB : ∀ i < k.lines, (k.outB i).length = k.w ∧ (k.outB i).Nodup ∧ ∀ x ∈ k.outB i, 0 < x ∧ x < k.base
  outIn : ∀ i < k.lines, ∀ j < k.n, ∀ x ∈ k.outB i, x ∉ k.inB j
  outOut : ∀ i < k.lines, ∀ j < k.lines, i ≠ j → ∀ x ∈ k.outB i, x ∉ k.outB j

theorem packIn_low (s : Asg (ZMod p)) (m : ℕ) : ∀ x < k.base, k.packIn s m x = s x := by
  induction m with
  | zero => intro x _; rfl
  | succ m ih =>
    intro x hx
    rw [packIn, multiFrom_ne _ _ _ _ _ _ (fun i _ => by unfold pk; omega), ih x hx]

theorem packIn_pk (hw : k.WF) (s : Asg (ZMod p)) (bs : ℕ → List Bool) (hbs : ∀ i < k.n, bitsOf s (k.inB i) = (bs i).map b2f) (m : ℕ) (hm : m ≤ k.n) :
    ∀ i < m, ∀ j < k.sub, val (k.packIn s m) (k.pk 0 i j) = ((bnat (chunk (bs i) k.cap j) : ℕ) : ZMod p) := by
  have hsub : k.sub = numChunks k.w k.cap := sub_eq hw.cap
  induction m with
  | zero => intro i hi; omega
  | succ m ih =>
    intro i hi j hj
    rw [packIn, (hw.inB m (by omega)).1, ← hsub]
    by_cases e : i = m
    · subst e
      have hlow : bitsOf (k.packIn s i) (k.inB i) = (bs i).map b2f := by
        rw [← hbs i (by omega)]
        exact List.map_congr_left fun x hx => val_congr (k.packIn_low s i x ((hw.inB i (by omega)).2 x hx))
      have := hw.base
      exact multiFrom_value _ (bs i) (k.pk 0 i) (k.base + i * k.sub) k.cap (fun j => by unfold pk; rw [Nat.zero_mul, Nat.zero_add]; omega) _
        (fun x hx => by have := (hw.inB i (by omega)).2 x hx; omega) (by omega) hlow k.sub j hj
    · rw [← ih (by omega) i (by omega) j hj]
      exact val_congr (multiFrom_ne _ _ _ _ _ _ fun a ha e' => e (k.pk_inj (show i < k.n by omega) (show m < k.n by omega) hj ha e').2.1)

theorem unpack_ne (s : Asg (ZMod p)) (m x : ℕ) (h : ∀ i < m, x ∉ k.outB i) : k.unpack s m x = s x := by
  induction m with
  | zero => rfl
  | succ m ih => rw [unpack, fromPacked_ne _ _ _ _ _ _ (h m (by omega)), ih fun i hi => h i (by omega)]

theorem unpack_bits (hw : k.WF) (hp : 2 ^ k.cap ≤ p) (s : Asg (ZMod p)) (os : ℕ → List Bool) (hl : ∀ i < k.lines, (os i).length = k.w)
    (hv : ∀ i < k.lines, ∀ j < k.sub, val s (k.pk k.cols i j) = ((bnat (chunk (os i) k.cap j) : ℕ) : ZMod p)) (m : ℕ) (hm : m ≤ k.lines) :
    ∀ i < m, bitsOf (k.unpack s m) (k.outB i) = (os i).map b2f := by
  have hsub : k.sub = numChunks k.w k.cap := sub_eq hw.cap
  have hb := hw.base
  induction m with
  | zero => intro i hi; omega
  | succ m ih =>
    intro i hi
    rw [unpack]
    by_cases e : i = m
    · subst e
      obtain ⟨o1, o2, o3⟩ := hw.outB i (by omega)
      refine fromPacked_bits (k.outB i) (os i) (by rw [o1, hl i (by omega)]) o2 (fun h => by have := (o3 0 h).1; omega) _ k.cap hw.cap hp _
        (fun j h => by have := (o3 _ h).2; unfold pk at this; omega) fun j hj => ?_
      rw [hl i (by omega), ← hsub] at hj
      rw [← hv i (by omega) j hj]
      refine val_congr (k.unpack_ne _ _ _ fun a ha h => ?_)
      have := ((hw.outB a (by omega)).2.2 _ h).2
      unfold pk at this; omega
    · rw [← ih (by omega) i (by omega)]
      exact List.map_congr_left fun x hx => val_congr (fromPacked_ne _ _ _ _ _ _ (hw.outOut i (by omega) m (by omega) e x hx))

/-- **C156, completeness.** For every routing of the network that keeps the lines that are not unpacked, the honest assignment is accepted, the inputs stay and
packet `i` comes out where its path ends. -/
theorem complete (hk : k.Topology) (hw : k.WF) (hp : 2 ^ k.cap ≤ p) {r : ℕ → ℕ → Bool} (hr : k.Routes r) (hkeep : ∀ i < k.n, k.lines ≤ i → k.path r i k.cols = i)
    (s : Asg (ZMod p)) (hb : ∀ i < k.n, ∀ x ∈ k.inB i, IsBit (val s x)) :
    Sat (k.assign r s) k.gates ∧ (∀ i < k.n, bitsOf (k.assign r s) (k.inB i) = bitsOf s (k.inB i)) ∧
      ∀ i < k.n, k.path r i k.cols < k.lines → bitsOf (k.assign r s) (k.outB (k.path r i k.cols)) = bitsOf s (k.inB i) := by
  classical
  have hsub : k.sub = numChunks k.w k.cap := sub_eq hw.cap
  have h0 := hw.base
  have hlines := hw.lines
  have hs1 : 1 ≤ k.sub := by
    have := (chunk_index (len := k.w) hw.cap hw.w).1
    rw [hsub]; exact Nat.succ_le_of_lt (lt_of_le_of_lt (Nat.zero_le _) this)
  have ex : ∀ i, ∃ bs : List Bool, i < k.n → bitsOf s (k.inB i) = bs.map b2f := by
    intro i
    by_cases hi : i < k.n
    · obtain ⟨a, ha⟩ := bits_exist (l := bitsOf s (k.inB i)) (by simpa [bitsOf] using hb i hi)
      exact ⟨a, fun _ => ha⟩
    · exact ⟨[], fun h => absurd h hi⟩
  choose bs hbs using ex
  have hbl : ∀ i < k.n, (bs i).length = k.w := fun i hi => by rw [← (hw.inB i hi).1]; simpa [bitsOf] using (congrArg List.length (hbs i hi)).symm
  set s1 := k.packIn s k.n with hs1'
  set s2 := k.routeAll r s1 k.cols with hs2'
  obtain ⟨r1, r2, r3, r4⟩ := k.route_inv hk hr s1 k.cols le_rfl
  -- the path carries the packet
  have carry : ∀ i < k.n, ∀ m ≤ k.cols, ∀ j < k.sub, val s2 (k.pk m (k.path r i m) j) = ((bnat (chunk (bs i) k.cap j) : ℕ) : ZMod p) := by
    intro i hi m
    induction m with
    | zero =>
      intro _ j hj
      rw [← k.packIn_pk hw s bs hbs k.n le_rfl i hi j hj]
      exact val_congr (r2 0 (by omega) (Or.inr rfl) i hi j hj)
    | succ m ih =>
      intro hm j hj
      rw [← ih (by omega) j hj, val_pos _ (by unfold pk; omega)]
      exact r4 m (by omega) _ (k.path_lt hk r hi m (by omega)) j hj
  -- the inverse of the path
  have surj : ∀ o < k.n, ∃ i < k.n, k.path r i k.cols = o := by
    let g : Fin k.n → Fin k.n := fun i => ⟨k.path r i k.cols, k.path_lt hk r i.2 _ le_rfl⟩
    have gi : Function.Injective g := fun x y e => Fin.ext (k.path_inj hk hr x.2 y.2 k.cols le_rfl (by simpa [g] using e))
    intro o ho
    obtain ⟨i, hi⟩ := (Finite.injective_iff_surjective.1 gi) ⟨o, ho⟩
    exact ⟨i, i.2, congrArg Fin.val hi⟩
  have ex' : ∀ o, ∃ i, o < k.n → i < k.n ∧ k.path r i k.cols = o := by
    intro o
    by_cases ho : o < k.n
    · obtain ⟨i, a, b⟩ := surj o ho; exact ⟨i, fun _ => ⟨a, b⟩⟩
    · exact ⟨0, fun h => absurd h ho⟩
  choose q hq using ex'
  have outv : ∀ o < k.lines, ∀ j < k.sub, val s2 (k.pk k.cols o j) = ((bnat (chunk (bs (q o)) k.cap j) : ℕ) : ZMod p) := by
    intro o ho j hj
    obtain ⟨a, b⟩ := hq o (by omega)
    have := carry (q o) a k.cols le_rfl j hj
    rw [b] at this; exact this
  have outb := k.unpack_bits hw hp s2 (fun o => bs (q o)) (fun o ho => hbl _ (hq o (by omega)).1) outv k.lines le_rfl
  -- variables above `base` and inputs stay
  have hi2 : ∀ x, k.base ≤ x → k.assign r s x = s2 x := fun x hx => k.unpack_ne _ _ _ fun i hi h => by
    have := ((hw.outB i hi).2.2 x h).2; omega
  have pkA : ∀ c i j, val (k.assign r s) (k.pk c i j) = val s2 (k.pk c i j) := fun c i j => val_congr (hi2 _ (by unfold pk; omega))
  have inA : ∀ i < k.n, bitsOf (k.assign r s) (k.inB i) = bitsOf s (k.inB i) := fun i hi => List.map_congr_left fun x hx => val_congr (by
    have hx' := (hw.inB i hi).2 x hx
    show k.unpack s2 k.lines x = s x
    rw [k.unpack_ne _ _ _ fun a ha h => hw.outIn a ha i hi x h hx, hs2', r1 x hx', hs1', k.packIn_low s k.n x hx'])
  refine ⟨?_, inA, fun i hi hl => ?_⟩
  swap
  · have e : q (k.path r i k.cols) = i := k.path_inj hk hr (hq _ (by omega)).1 hi k.cols le_rfl (hq _ (by omega)).2
    have := outb _ hl
    rw [e] at this
    rw [hbs i hi]
    exact this
  rw [k.sat_iff]
  refine ⟨fun i hi => ?_, fun c hc i hi => ?_⟩
  · rw [packs, sat_append]
    refine ⟨(multi_iff _ _ (bs i) ((inA i hi).trans (hbs i hi)) _ _ _).2 fun j hj => ?_, ?_⟩
    · rw [hbl i hi, ← hsub] at hj
      rw [pkA]; exact carry i hi 0 (by omega) j hj
    · split
      · rename_i hl
        refine (multi_iff _ _ (bs (q i)) (outb i hl) _ _ _).2 fun j hj => ?_
        rw [hbl _ (hq i hi).1, ← hsub] at hj
        refine (pkA k.cols i j).trans (outv i hl j hj)
      · rename_i hl
        rw [sat_map]
        intro j hj
        have hj := List.mem_range.1 hj
        simp only [Constraint.Holds, eval_const, eval_var, one_mul, pkA]
        have := carry i hi k.cols le_rfl j hj
        rw [hkeep i hi (by omega)] at this
        rw [this]; exact carry i hi 0 (by omega) j hj
  · have key : ∀ j < k.sub, val s2 (k.pk (c + 1) (k.dest r c i) j) = val s2 (k.pk c i j) := fun j hj => by
      rw [val_pos _ (by unfold pk; omega)]
      exact r4 c hc i hi j hj
    unfold edge
    split
    · rename_i h1
      have k0 := key 0 (by omega)
      simp only [sat_cons, Constraint.Holds, eval_sub, eval_var, eval_const, sat_nil, and_true, pkA]
      unfold dest at k0
      split at k0
      · rw [k0]; ring
      · rw [k0]; ring
    · rename_i h1
      have hsw : val (k.assign r s) (k.sw c i) = if r c i then 1 else 0 := by
        rw [val_pos _ (by unfold sw; omega), hi2 _ (by unfold sw; omega)]
        exact r3 (by omega) c hc i hi
      rw [sat_cons, boolean_iff, eval_var, sat_map, hsw]
      refine ⟨by split; exact Or.inr rfl; exact Or.inl rfl, fun j hj => ?_⟩
      have kj := key j (List.mem_range.1 hj)
      simp only [Constraint.Holds, eval_sub, eval_var, pkA, hsw]
      unfold dest at kj
      split at kj
      · rename_i hh; rw [if_pos hh, kj]; ring
      · rename_i hh; rw [if_neg hh, kj]; ring

end Benes

/-- The hypotheses are met: both switches of the example, two subpackets, crossing. -/
example : let s : Asg (ZMod 11) := fun x => if x ∈ [2, 3, 4] then 1 else 0
    Sat ((bEx 1).assign (fun _ _ => true) s) (bEx 1).gates ∧ bitsOf ((bEx 1).assign (fun _ _ => true) s) ((bEx 1).outB 0) = [1, 1] := by
  intro s
  have hwf : (bEx 1).WF := by
    refine ⟨by decide, by decide, by decide, by decide, by decide, by decide, by decide, fun i hi j hj hij => ?_⟩
    have hi : i < 2 := hi
    have hj : j < 2 := hj
    simp only [bEx, List.mem_cons, List.not_mem_nil, or_false]
    omega
  obtain ⟨h1, -, h3⟩ := (bEx 1).complete (p := 11) (bEx_topology 1) hwf (by decide) (r := fun _ _ => true) (fun _ _ _ _ => rfl)
    (fun i h1 h2 => by have a : i < 2 := h1; have b : 2 ≤ i := h2; omega) s (by unfold IsBit; decide +kernel)
  exact ⟨h1, (h3 1 (by decide) (by decide)).trans (by decide +kernel)⟩

end Routing
end R1cs
end Verif
