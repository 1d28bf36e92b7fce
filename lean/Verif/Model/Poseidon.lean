import Verif.Core.Grid
import Verif.Core.Primality
import Verif.Model.Circuit

/-!
# Model of the Poseidon components

`components/hashes/poseidon/plonk/poseidon.hpp` (15 columns) and
`components/systems/snark/plonk/flexible/poseidon.hpp` (any multiple of three columns). The matrix `mds` and the round
constants `rc` are parameters; the matrices of `poseidon_constants.hpp` are given at the end.
-/

namespace Verif
namespace Poseidon
variable {F : Type*} [Field F]

/-- `rounds_amount`, poseidon.hpp:60, flexible/poseidon.hpp:65. -/
def rounds : ℕ := 55

/-- The constraint of output `j` (poseidon.hpp:262-356, flexible/poseidon.hpp:264-281):
`out - (in₁^7 * mds[j][0] + in₂^7 * mds[j][1] + in₃^7 * mds[j][2] + round_constant[r][j])`. -/
def roundC (mds rc : ℕ → ℕ → F) (i0 i1 i2 out : Expr F) (r j : ℕ) : Expr F :=
  out - (i0 ^ 7 * .const (mds j 0) + i1 ^ 7 * .const (mds j 1) + i2 ^ 7 * .const (mds j 2) + .const (rc r j))

/-! ### Fifteen columns -/

/-- The gate of rounds `z .. z + 4` (poseidon.hpp:262-360): round `z + k` reads columns `3k, 3k+1, 3k+2` and gives the
next three columns, the last round the first three columns of the next row. -/
def gate (c : Cols) (mds rc : ℕ → ℕ → F) (z : ℕ) : List (Expr F) :=
  (List.range 5).flatMap fun (k : ℕ) => (List.range 3).map fun (j : ℕ) =>
    roundC mds rc (c.wv ((3 * k : ℕ) : ℤ)) (c.wv ((3 * k + 1 : ℕ) : ℤ)) (c.wv ((3 * k + 2 : ℕ) : ℤ))
      (if k < 4 then c.wv ((3 * k + 3 + j : ℕ) : ℤ) else c.wv ((j : ℕ) : ℤ) 1) (z + k) j

/-- `generate_circuit` (poseidon.hpp:386-407), copies 380-382. -/
def circuit (c : Cols) (mds rc : ℕ → ℕ → F) (x : ℕ → Var) (srow : ℤ) : List (Op F) :=
  ((List.range (rounds / 5)).map fun (i : ℕ) => .gate (gate c mds rc (5 * i)) [srow + (i : ℤ)]) ++
  (List.range 3).map fun (i : ℕ) => .copy (c.wa (i : ℤ) srow) (x i)

/-- poseidon.hpp:102-104. -/
def rows : ℕ := rounds / 5 + 1

/-- poseidon.hpp:121-123. -/
def result (c : Cols) (srow : ℤ) (j : ℕ) : Var := c.wa (j : ℤ) (srow + rows - 1)

/-- One round as computed in `generate_assignments` (poseidon.hpp:186-191). -/
def next (mds rc : ℕ → ℕ → F) (r : ℕ) (s : ℕ → F) : ℕ → F :=
  fun j => s 0 ^ 7 * mds j 0 + s 1 ^ 7 * mds j 1 + s 2 ^ 7 * mds j 2 + rc r j

/-- Writes of one row (poseidon.hpp:186-236): five rounds, the last of which goes to the next row. Returns the state. -/
def rowWrites (c : Cols) (mds rc : ℕ → ℕ → F) (srow : ℤ) (i : ℕ) (s : ℕ → F) : (ℕ → F) × List (Write F) :=
  (List.range 5).foldl (fun acc (k : ℕ) =>
    let s' := next mds rc (5 * i + k) acc.1
    (s', acc.2 ++ (List.range 3).map fun (j : ℕ) =>
      if k < 4 then ⟨.witness, c.w ((3 * k + 3 + j : ℕ) : ℤ), srow + (i : ℤ), s' j⟩
      else ⟨.witness, c.w ((j : ℕ) : ℤ), srow + (i : ℤ) + 1, s' j⟩)) (s, [])

/-- `generate_assignments` (poseidon.hpp:172-237). -/
def writes (c : Cols) (mds rc : ℕ → ℕ → F) (x : ℕ → Var) (srow : ℤ) (t : Table F) : List (Write F) :=
  ((List.range (rows - 1)).foldl (fun acc (i : ℕ) =>
    let r := rowWrites c mds rc srow i acc.1
    (r.1, acc.2 ++ r.2))
    ((fun j => (x j).value t), (List.range 3).map fun (j : ℕ) => ⟨.witness, c.w ((j : ℕ) : ℤ), srow, (x j).value t⟩)).2

/-- The table after `generate_assignments`. -/
def assign (c : Cols) (mds rc : ℕ → ℕ → F) (x : ℕ → Var) (srow : ℤ) (t : Table F) : Table F :=
  writeAll (writes c mds rc x srow t) t

/-! ### Any multiple of three columns -/

namespace Flex

/-- flexible/poseidon.hpp:112-118. -/
def rows (w : ℕ) : ℕ :=
  let blocks := rounds + 1
  let cap := w / 3
  if blocks % cap = 0 then blocks / cap else blocks / cap + 1

/-- flexible/poseidon.hpp:136-145. -/
def result (c : Cols) (w : ℕ) (srow : ℤ) (j : ℕ) : Var :=
  let blocks := rounds + 1
  let cap := w / 3
  let last := (if blocks % cap = 0 then cap * 3 else blocks % cap * 3) - 1
  c.wa ((last - (2 - j) : ℕ) : ℤ) (srow + rows w - 1)

/-- The three constraints of a round (flexible/poseidon.hpp:249-284). -/
def three (c : Cols) (w : ℕ) (mds rc : ℕ → ℕ → F) (col r : ℕ) : List (Expr F) :=
  (List.range 3).map fun (j : ℕ) =>
    roundC mds rc (c.wv ((col : ℕ) : ℤ)) (c.wv ((col + 1 : ℕ) : ℤ)) (c.wv ((col + 2 : ℕ) : ℤ))
      (if col + 5 < w then c.wv ((col + 3 + j : ℕ) : ℤ) else c.wv ((j : ℕ) : ℤ) 1) r j

/-- One turn of the loop (flexible/poseidon.hpp:247-292): `start_column`, the gates added so far and the constraints of
the current gate. -/
def step (c : Cols) (w : ℕ) (mds rc : ℕ → ℕ → F) (st : ℕ × List (List (Expr F)) × List (Expr F)) (r : ℕ) :
    ℕ × List (List (Expr F)) × List (Expr F) :=
  let cur := st.2.2 ++ three c w mds rc st.1 r
  if w < st.1 + 5 then (0, st.2.1 ++ [cur], []) else (st.1 + 3, st.2.1, cur)

/-- The gates added by `generate_gates` in order (flexible/poseidon.hpp:242-296). -/
def gates (c : Cols) (w : ℕ) (mds rc : ℕ → ℕ → F) : List (List (Expr F)) :=
  let st := (List.range rounds).foldl (step c w mds rc) (0, [], [])
  if st.2.2 = [] then st.2.1 else st.2.1 ++ [st.2.2]

/-- Copies (flexible/poseidon.hpp:313-315). -/
def copies (c : Cols) (x : ℕ → Var) (srow : ℤ) : List (Op F) :=
  (List.range 3).map fun (i : ℕ) => .copy (c.wa (i : ℤ) srow) (x i)

/-- The obligations which `generate_circuit` is meant to record: gate `i` on row `srow + i`. -/
def circuit (c : Cols) (w : ℕ) (mds rc : ℕ → ℕ → F) (x : ℕ → Var) (srow : ℤ) : List (Op F) :=
  (List.range (gates c w mds rc).length).map (fun (i : ℕ) => Op.gate ((gates c w mds rc).getD i []) [srow + (i : ℤ)]) ++
  copies c x srow

/-- One turn of the assignment loop (flexible/poseidon.hpp:208-224): row, column, state, writes. -/
def wstep (c : Cols) (w : ℕ) (mds rc : ℕ → ℕ → F) (srow : ℤ) (st : ℕ × ℕ × (ℕ → F) × List (Write F)) (i : ℕ) :
    ℕ × ℕ × (ℕ → F) × List (Write F) :=
  let s' := next mds rc i st.2.2.1
  let row := if w < st.2.1 + 3 + 3 then st.1 + 1 else st.1
  let col := if w < st.2.1 + 3 + 3 then 0 else st.2.1 + 3
  (row, col, s', st.2.2.2 ++ (List.range 3).map fun (j : ℕ) =>
    ⟨.witness, c.w ((col + j : ℕ) : ℤ), srow + (row : ℤ), s' j⟩)

/-- `generate_assignments` (flexible/poseidon.hpp:182-226). -/
def writes (c : Cols) (w : ℕ) (mds rc : ℕ → ℕ → F) (x : ℕ → Var) (srow : ℤ) (t : Table F) : List (Write F) :=
  ((List.range rounds).foldl (wstep c w mds rc srow)
    (0, 0, (fun j => (x j).value t),
      (List.range 3).map fun (j : ℕ) => ⟨.witness, c.w ((j : ℕ) : ℤ), srow, (x j).value t⟩)).2.2.2

/-- The table after `generate_assignments`. -/
def assign (c : Cols) (w : ℕ) (mds rc : ℕ → ℕ → F) (x : ℕ → Var) (srow : ℤ) (t : Table F) : Table F :=
  writeAll (writes c w mds rc x srow t) t

section selectors
variable {K L : Type*} [DecidableEq K] [DecidableEq L]

/-- `generate_gates` on the containers: the circuit and the selectors returned by `add_gate` (the overload taking a
list). -/
def addGates (gid : GArg F → K) (gs : List (List (Expr F))) (c : Circuit F K L) : Circuit F K L × List ℕ :=
  gs.foldl (fun acc g => let r := acc.1.addGate (gid (.many g)) g; (r.1, acc.2 ++ [r.2])) (c, [])

/-- `generate_circuit` as written (flexible/poseidon.hpp:319-336). Line 331 enables selector `i`, not
`selector_indices[i]`. -/
def generate (gid : GArg F → K) (c : Cols) (w : ℕ) (mds rc : ℕ → ℕ → F) (x : ℕ → Var) (srow : ℕ)
    (st : Circuit F K L × Asg F) : Circuit F K L × Asg F :=
  let r := addGates gid (gates c w mds rc) st.1
  let a := (List.range r.2.length).foldl (fun a i => a.enable i (srow + i)) st.2
  ((List.range 3).foldl (fun b (i : ℕ) => b.addCopy (c.wa (i : ℤ) srow) (x i)) r.1, a)
end selectors
end Flex

/-- poseidon_constants.hpp:49-61 (Pallas). -/
def pallasMds (i j : ℕ) : ℕ :=
  ([[0x1a9bd250757e29ef4959b9bef59b4e60e20a56307d6491e7b7ea1fac679c7903,
     0x384aa09faf3a48737e2d64f6a030aa242e6d5d455ae4a13696b48a7320c506cd,
     0x3d2b7b0209bc3080064d5ce4a7a03653f8346506bfa6d076061217be9e6cfed5],
    [0x9ee57c70bc351220b107983afcfabbea79868a4a8a5913e24b7aaf3b4bf3a42,
     0x20989996bc29a96d17684d3ad4c859813115267f35225d7e1e9a5b5436a2458f,
     0x14e39adb2e171ae232116419ee7f26d9191edde8a5632298347cdb74c3b2e69d],
    [0x174544357b687f65a9590c1df621818b5452d5d441597a94357f112316ef67cb,
     0x3ca9263dc1a19d17cfbf15b0166bb25f95dffc53212db207fcee35f02c2c4137,
     0x3cf1fbef75d4ab63b7a812f80b7b0373b2dc21d269ba7c4c4d6581d50aae114c]].getD i []).getD j 0

/-- poseidon_constants.hpp:240-258 (Vesta). -/
def vestaMds (i j : ℕ) : ℕ :=
  ([[0x3e28f7dd17f47a7e304a54d377dd7aeead6b92027d60baf300246cf023dd594e,
     0x30db06abb696fccb92b28ac214f4893d3fd84b3d4a9018754975e24477c32600,
     0x174110bc1b058c6016ff5e8152ab3ffb6e2e6c4d01e66aba302659c51b7f563a],
    [0x12d36fa83503146980c05a1d48bcd50d2e9d4390e353a158a0fe387e2b4aeb0c,
     0x2ab17c8eb369bea76e9f0c385e8bafc71536bedc8e06d06fd65c1670e94d9c55,
     0xcc915328165c13986af127e108b9e5d9a60c5dc92e3e7636b8c3da5b4a8537],
    [0x4d9a6d270696688eb4346153b380c613a3dcaf0fb5a1e8380409ae0a143d31b,
     0x2a805eee3317c8bae1f7d15abe4d27fee5fabcf9a3334d18b1932a33774c324,
     0x19b092e9c6dffd1eb1b6df2dbc00bb2283b9a787273dcbad9b8d89cd502b7bbd]].getD i []).getD j 0

end Poseidon
end Verif
