import Verif.Props.Sha256Calc
import Verif.Core.Paint
import Mathlib.FieldTheory.Finite.Basic
import Mathlib.Tactic.LinearCombination

/-!
# The circuit of `sha256_process`: what its gates say about the cells
-/

set_option linter.unusedSimpArgs false
set_option linter.unusedSectionVars false

namespace Verif
namespace Sha256

open Digits
open Sha256Spec (Word)

variable {p : ℕ} [Fact p.Prime] {c : Cols} {inp : In} {srow : ℤ} {t : Table (ZMod p)}

/-! ## The gates -/

/-- `sigma0Gate` and `sigma0Lookups` on the cells relative to the row of the gate. -/
def Sigma0OK (y : ℤ → ℤ → ZMod p) : Prop :=
  let k := fun (n : ℕ) => (n : ZMod p)
  y (-1) 0 - (y (-1) 1 + y (-1) 2 * k (2 ^ 3) + y (-1) 3 * k (2 ^ 7) + y (-1) 4 * k (2 ^ 18)) = 0 ∧
  (y (-1) 1 - k 7) * (y (-1) 1 - k 6) * (y (-1) 1 - k 5) * (y (-1) 1 - k 4) * (y (-1) 1 - k 3) * (y (-1) 1 - k 2) * (y (-1) 1 - k 1) * y (-1) 1 = 0 ∧
  y 0 5 + y 0 6 * k (2 ^ 16) + y 0 7 * k (2 ^ 32) + y 0 8 * k (2 ^ 48) - (y 0 2 * k (1 + 2 ^ 56 + 2 ^ 34) + y 0 3 * k (2 ^ 8 + 1 + 2 ^ 42) + y 0 4 * k (2 ^ 30 + 2 ^ 22 + 1) + y (-1) 7 * k (2 ^ 50 + 2 ^ 28)) = 0 ∧
  sparseTable (ZMod p) 4 [y (-1) 1, y (-1) 7] ∧
  firstColumn (ZMod p) [y (-1) 2 * k 1024] ∧
  sparseTable (ZMod p) 4 [y (-1) 2, y 0 2] ∧
  firstColumn (ZMod p) [y (-1) 3 * k 8] ∧
  sparseTable (ZMod p) 4 [y (-1) 3, y 0 3] ∧
  sparseTable (ZMod p) 4 [y (-1) 4, y 0 4] ∧
  reverse4Table (ZMod p) [y 1 1, y 0 5] ∧
  reverse4Table (ZMod p) [y 1 2, y 0 6] ∧
  reverse4Table (ZMod p) [y 1 3, y 0 7] ∧
  reverse4Table (ZMod p) [y 1 4, y 0 8]

theorem sat_Sigma0OK (rows : List ℤ) : Sat t ([.gate (sigma0Gate c) rows] ++ sigma0Lookups c rows) ↔
    ∀ row ∈ rows, Sigma0OK (fun r j => t .witness (c.w j) (row + r)) := by
  simp only [sigma0Gate, sigma0Lookups, sat_append, sat_cons, sat_nil, holds_gate, holds_lookup, and_true, ← forall₂_and]
  refine forall₂_congr fun row hr => ?_
  simp only [List.mem_cons, List.not_mem_nil, or_false, forall_eq_or_imp, forall_eq, List.map_cons, List.map_nil, kk,
    Expr.eval_add, Expr.eval_sub, Expr.eval_mul, Expr.eval_const, Expr.eval_var, Var.evalAt, Cols.eval_wv, and_assoc, if_true, Sigma0OK]

/-- `schedGate` and `sigma1Check` on the cells relative to the row of the gate. -/
def SchedOK (y : ℤ → ℤ → ZMod p) : Prop :=
  let k := fun (n : ℕ) => (n : ZMod p)
  y 0 0 + k (2 ^ 32) * y 1 0 - (y (-1) 0 + y (-1) 1 + y 0 1 + y 0 2 * k (2 ^ 8) + y 0 3 * k (2 ^ 16) + y 0 4 * k (2 ^ 24) + y 0 5 + y 0 6 * k (2 ^ 8) + y 0 7 * k (2 ^ 16) + y 0 8 * k (2 ^ 24)) = 0 ∧
  (y 1 0 - k 3) * (y 1 0 - k 2) * (y 1 0 - k 1) * y 1 0 = 0 ∧
  reverse4Table (ZMod p) [y 0 5, y 1 5] ∧
  reverse4Table (ZMod p) [y 0 6, y 1 6] ∧
  reverse4Table (ZMod p) [y 0 7, y 1 7] ∧
  reverse4Table (ZMod p) [y 0 8, y 1 8]

theorem sat_SchedOK (rows : List ℤ) : Sat t ([.gate (schedGate c) rows] ++ sigma1Check c rows) ↔
    ∀ row ∈ rows, SchedOK (fun r j => t .witness (c.w j) (row + r)) := by
  simp only [schedGate, sigma1Check, sat_append, sat_cons, sat_nil, holds_gate, holds_lookup, and_true, ← forall₂_and]
  refine forall₂_congr fun row hr => ?_
  simp only [List.mem_cons, List.not_mem_nil, or_false, forall_eq_or_imp, forall_eq, List.map_cons, List.map_nil, kk,
    Expr.eval_add, Expr.eval_sub, Expr.eval_mul, Expr.eval_const, Expr.eval_var, Var.evalAt, Cols.eval_wv, and_assoc, if_true, SchedOK]

/-- `sigma1Gate` and `sigma1Lookups` on the cells relative to the row of the gate. -/
def Sigma1OK (y : ℤ → ℤ → ZMod p) : Prop :=
  let k := fun (n : ℕ) => (n : ZMod p)
  y 0 0 - (y 0 1 + y 0 2 * k (2 ^ 10) + y 0 3 * k (2 ^ 17) + y 0 4 * k (2 ^ 19)) = 0 ∧
  (y 0 3 - k 3) * (y 0 3 - k 2) * (y 0 3 - k 1) * y 0 3 = 0 ∧
  y (-1) 5 + y (-1) 6 * k (2 ^ 16) + y (-1) 7 * k (2 ^ 32) + y (-1) 8 * k (2 ^ 48) - (y (-1) 2 * k (1 + 2 ^ 50 + 2 ^ 46) + y (-1) 3 * k (2 ^ 14 + 1 + 2 ^ 60) + y (-1) 4 * k (2 ^ 18 + 2 ^ 4 + 1) + y (-1) 1 * k (2 ^ 30 + 2 ^ 26)) = 0 ∧
  k 0 - y 0 8 + y 0 5 + y 0 6 * k (2 ^ 14) + y 0 7 * k (2 ^ 28) = 0 ∧
  firstColumn (ZMod p) [y 0 1 * k 16] ∧
  sparseTable (ZMod p) 4 [y 0 1, y (-1) 1] ∧
  firstColumn (ZMod p) [y 0 2 * k 128] ∧
  sparseTable (ZMod p) 4 [y 0 2, y (-1) 2] ∧
  firstColumn (ZMod p) [y 0 4 * k 2] ∧
  sparseTable (ZMod p) 4 [y 0 3, y (-1) 3] ∧
  sparseTable (ZMod p) 4 [y 0 4, y (-1) 4] ∧
  firstColumn (ZMod p) [y 0 5] ∧
  firstColumn (ZMod p) [y 0 6] ∧
  firstColumn (ZMod p) [y 0 7] ∧
  firstColumn (ZMod p) [y 0 7 * k (2 ^ 10)] ∧
  firstColumn (ZMod p) [y (-1) 0] ∧
  firstColumn (ZMod p) [y (-1) 0 * k (2 ^ 10)]

theorem sat_Sigma1OK (rows : List ℤ) : Sat t ([.gate (sigma1Gate c) rows] ++ sigma1Lookups c rows) ↔
    ∀ row ∈ rows, Sigma1OK (fun r j => t .witness (c.w j) (row + r)) := by
  simp only [sigma1Gate, sigma1Lookups, sat_append, sat_cons, sat_nil, holds_gate, holds_lookup, and_true, ← forall₂_and]
  refine forall₂_congr fun row hr => ?_
  simp only [List.mem_cons, List.not_mem_nil, or_false, forall_eq_or_imp, forall_eq, List.map_cons, List.map_nil, kk,
    Expr.eval_add, Expr.eval_sub, Expr.eval_mul, Expr.eval_const, Expr.eval_var, Var.evalAt, Cols.eval_wv, and_assoc, if_true, Sigma1OK]

/-- `bigSigma1Gate` and `bigSigma1Lookups` on the cells relative to the row of the gate. -/
def BigSigma1OK (y : ℤ → ℤ → ZMod p) : Prop :=
  let k := fun (n : ℕ) => (n : ZMod p)
  y (-1) 0 - (y (-1) 2 + y (-1) 3 * k (2 ^ 6) + y (-1) 4 * k (2 ^ 11) + y (-1) 5 * k (2 ^ 25)) = 0 ∧
  y 0 0 - (y (-1) 1 + y 0 2 * k (7 ^ 6) + y 0 3 * k (7 ^ 11) + y 0 4 * k (7 ^ 25)) = 0 ∧
  y 0 5 + y (-1) 6 * k (7 ^ 8) + y (-1) 7 * k (7 ^ 16) + y (-1) 8 * k (7 ^ 24) - (y 0 2 * k (7 ^ 27 + 7 ^ 13 + 1) + y 0 3 * k (7 ^ 5 + 1 + 7 ^ 18) + y 0 4 * k (7 ^ 19 + 7 ^ 14 + 1) + y (-1) 1 * k (7 ^ 26 + 7 ^ 21 + 7 ^ 7)) = 0 ∧
  firstColumn (ZMod p) [y (-1) 3 * k 256] ∧
  sparseTable (ZMod p) 7 [y (-1) 2, y (-1) 1] ∧
  firstColumn (ZMod p) [y (-1) 3 * k 512] ∧
  sparseTable (ZMod p) 7 [y (-1) 3, y 0 2] ∧
  firstColumn (ZMod p) [y (-1) 5 * k 128] ∧
  sparseTable (ZMod p) 7 [y (-1) 4, y 0 3] ∧
  sparseTable (ZMod p) 7 [y (-1) 5, y 0 4] ∧
  reverse7Table (ZMod p) [y 1 5, y 0 5] ∧
  reverse7Table (ZMod p) [y 1 6, y (-1) 6] ∧
  reverse7Table (ZMod p) [y 1 7, y (-1) 7] ∧
  reverse7Table (ZMod p) [y 1 8, y (-1) 8]

theorem sat_BigSigma1OK (rows : List ℤ) : Sat t ([.gate (bigSigma1Gate c) rows] ++ bigSigma1Lookups c rows) ↔
    ∀ row ∈ rows, BigSigma1OK (fun r j => t .witness (c.w j) (row + r)) := by
  simp only [bigSigma1Gate, bigSigma1Lookups, sat_append, sat_cons, sat_nil, holds_gate, holds_lookup, and_true, ← forall₂_and]
  refine forall₂_congr fun row hr => ?_
  simp only [List.mem_cons, List.not_mem_nil, or_false, forall_eq_or_imp, forall_eq, List.map_cons, List.map_nil, kk,
    Expr.eval_add, Expr.eval_sub, Expr.eval_mul, Expr.eval_const, Expr.eval_var, Var.evalAt, Cols.eval_wv, and_assoc, if_true, BigSigma1OK]

/-- `bigSigma0Gate` and `bigSigma0Lookups` on the cells relative to the row of the gate. -/
def BigSigma0OK (y : ℤ → ℤ → ZMod p) : Prop :=
  let k := fun (n : ℕ) => (n : ZMod p)
  y 1 0 - (y 1 2 + y 1 3 * k (2 ^ 2) + y 1 4 * k (2 ^ 13) + y 1 5 * k (2 ^ 22)) = 0 ∧
  y (-1) 0 - (y 0 2 + y 0 3 * k (2 ^ 4) + y 0 4 * k (2 ^ 26) + y 0 5 * k (2 ^ 44)) = 0 ∧
  (y 1 2 - k 3) * (y 1 2 - k 2) * (y 1 2 - k 1) * y 1 2 = 0 ∧
  y 0 0 + y 0 1 * k (2 ^ 16) + y 0 6 * k (2 ^ 32) + y 0 7 * k (2 ^ 48) - (y 0 2 * k (2 ^ 38 + 2 ^ 20 + 2 ^ 60) + y 0 3 * k (2 ^ 42 + 1 + 2 ^ 24) + y 0 4 * k (2 ^ 22 + 2 ^ 46 + 1) + y 0 5 * k (2 ^ 40 + 2 ^ 18 + 1)) = 0 ∧
  k 0 - y (-1) 2 + y 1 6 + y 1 7 * k (2 ^ 14) + y 1 8 * k (2 ^ 28) = 0 ∧
  firstColumn (ZMod p) [y 1 3 * k 8] ∧
  sparseTable (ZMod p) 4 [y 1 2, y 0 2] ∧
  firstColumn (ZMod p) [y 1 4 * k 32] ∧
  sparseTable (ZMod p) 4 [y 1 3, y 0 3] ∧
  firstColumn (ZMod p) [y 1 5 * k 16] ∧
  sparseTable (ZMod p) 4 [y 1 4, y 0 4] ∧
  sparseTable (ZMod p) 4 [y 1 5, y 0 5] ∧
  reverse4Table (ZMod p) [y (-1) 5, y 0 0] ∧
  reverse4Table (ZMod p) [y (-1) 6, y 0 1] ∧
  reverse4Table (ZMod p) [y (-1) 7, y 0 6] ∧
  reverse4Table (ZMod p) [y (-1) 8, y 0 7] ∧
  firstColumn (ZMod p) [y 1 6] ∧
  firstColumn (ZMod p) [y 1 7] ∧
  firstColumn (ZMod p) [y 1 8] ∧
  firstColumn (ZMod p) [y 1 8 * k (2 ^ 10)] ∧
  firstColumn (ZMod p) [y (-1) 3] ∧
  firstColumn (ZMod p) [y (-1) 3 * k (2 ^ 8)]

theorem sat_BigSigma0OK (rows : List ℤ) : Sat t ([.gate (bigSigma0Gate c) rows] ++ bigSigma0Lookups c rows) ↔
    ∀ row ∈ rows, BigSigma0OK (fun r j => t .witness (c.w j) (row + r)) := by
  simp only [bigSigma0Gate, bigSigma0Lookups, sat_append, sat_cons, sat_nil, holds_gate, holds_lookup, and_true, ← forall₂_and]
  refine forall₂_congr fun row hr => ?_
  simp only [List.mem_cons, List.not_mem_nil, or_false, forall_eq_or_imp, forall_eq, List.map_cons, List.map_nil, kk,
    Expr.eval_add, Expr.eval_sub, Expr.eval_mul, Expr.eval_const, Expr.eval_var, Var.evalAt, Cols.eval_wv, and_assoc, if_true, BigSigma0OK]

/-- `eGate` on the cells relative to the row of the gate. -/
def EOK (y : ℤ → ℤ → ZMod p) (κ : ZMod p) : Prop :=
  let k := fun (n : ℕ) => (n : ZMod p)
  y 1 4 - (y 0 2 + y (-1) 5 + y (-1) 6 * k (2 ^ 8) + y (-1) 7 * k (2 ^ 16) + y (-1) 8 * k (2 ^ 24) + y 0 5 + y 0 6 * k (2 ^ 8) + y 0 7 * k (2 ^ 16) + y 0 8 * k (2 ^ 24) + κ + y 0 3) = 0 ∧
  y 0 4 + k (2 ^ 32) * y (-1) 4 - (y 0 1 + y 1 4) = 0 ∧
  (y (-1) 4 - k 5) * (y (-1) 4 - k 4) * (y (-1) 4 - k 3) * (y (-1) 4 - k 2) * (y (-1) 4 - k 1) * y (-1) 4 = 0

theorem sat_EOK (rows : List ℤ) : Sat t ([.gate (eGate c) rows]) ↔
    ∀ row ∈ rows, EOK (fun r j => t .witness (c.w j) (row + r)) (t .constant (c.k 0) (row + 0)) := by
  simp only [eGate,  sat_append, sat_cons, sat_nil, holds_gate, holds_lookup, and_true, ← forall₂_and]
  refine forall₂_congr fun row hr => ?_
  simp only [List.mem_cons, List.not_mem_nil, or_false, forall_eq_or_imp, forall_eq, List.map_cons, List.map_nil, kk,
    Expr.eval_add, Expr.eval_sub, Expr.eval_mul, Expr.eval_const, Expr.eval_var, Var.evalAt, Cols.eval_wv, and_assoc, if_true, EOK]

/-- `aGate` on the cells relative to the row of the gate. -/
def AOK (y : ℤ → ℤ → ZMod p) : Prop :=
  let k := fun (n : ℕ) => (n : ZMod p)
  y 1 2 + k (2 ^ 32) * y 1 3 - (y 0 4 + y 1 5 + y 1 6 * k (2 ^ 8) + y 1 7 * k (2 ^ 16) + y 1 8 * k (2 ^ 24) + y 0 5 + y 0 6 * k (2 ^ 8) + y 0 7 * k (2 ^ 16) + y 0 8 * k (2 ^ 24)) = 0 ∧
  (y 1 3 - k 6) * (y 1 3 - k 5) * (y 1 3 - k 4) * (y 1 3 - k 3) * (y 1 3 - k 2) * (y 1 3 - k 1) * y 1 3 = 0

theorem sat_AOK (rows : List ℤ) : Sat t ([.gate (aGate c) rows]) ↔
    ∀ row ∈ rows, AOK (fun r j => t .witness (c.w j) (row + r)) := by
  simp only [aGate,  sat_append, sat_cons, sat_nil, holds_gate, holds_lookup, and_true, ← forall₂_and]
  refine forall₂_congr fun row hr => ?_
  simp only [List.mem_cons, List.not_mem_nil, or_false, forall_eq_or_imp, forall_eq, List.map_cons, List.map_nil, kk,
    Expr.eval_add, Expr.eval_sub, Expr.eval_mul, Expr.eval_const, Expr.eval_var, Var.evalAt, Cols.eval_wv, and_assoc, if_true, AOK]

/-- `majGate` and `majLookups` on the cells relative to the row of the gate. -/
def MajOK (y : ℤ → ℤ → ZMod p) : Prop :=
  let k := fun (n : ℕ) => (n : ZMod p)
  y 0 0 + y 0 1 * k (2 ^ 16) + y 0 2 * k (2 ^ 32) + y 0 3 * k (2 ^ 48) - (y 1 0 + y 1 1 + y 1 4) = 0 ∧
  majTable (ZMod p) p [y 0 5, y 0 0] ∧
  majTable (ZMod p) p [y 0 6, y 0 1] ∧
  majTable (ZMod p) p [y 0 7, y 0 2] ∧
  majTable (ZMod p) p [y 0 8, y 0 3]

theorem sat_MajOK (rows : List ℤ) : Sat t ([.gate (majGate c) rows] ++ majLookups p c rows) ↔
    ∀ row ∈ rows, MajOK (fun r j => t .witness (c.w j) (row + r)) := by
  simp only [majGate, majLookups, sat_append, sat_cons, sat_nil, holds_gate, holds_lookup, and_true, ← forall₂_and]
  refine forall₂_congr fun row hr => ?_
  simp only [List.mem_cons, List.not_mem_nil, or_false, forall_eq_or_imp, forall_eq, List.map_cons, List.map_nil, kk,
    Expr.eval_add, Expr.eval_sub, Expr.eval_mul, Expr.eval_const, Expr.eval_var, Var.evalAt, Cols.eval_wv, and_assoc, if_true, MajOK]

/-- `chGate` and `chLookups` on the cells relative to the row of the gate. -/
def ChOK (y : ℤ → ℤ → ZMod p) : Prop :=
  let k := fun (n : ℕ) => (n : ZMod p)
  y 0 0 + y 0 1 * k (7 ^ 8) + y 0 2 * k (7 ^ 16) + y 0 3 * k (7 ^ 24) - (y (-1) 0 + k 2 * y (-1) 1 + k 3 * y 1 0) = 0 ∧
  k 0 - y 1 4 + y (-1) 6 + y (-1) 7 * k (2 ^ 14) + y (-1) 8 * k (2 ^ 28) = 0 ∧
  chTable (ZMod p) p [y 1 5, y 0 0] ∧
  chTable (ZMod p) p [y 1 6, y 0 1] ∧
  chTable (ZMod p) p [y 1 7, y 0 2] ∧
  chTable (ZMod p) p [y 1 8, y 0 3] ∧
  firstColumn (ZMod p) [y (-1) 6] ∧
  firstColumn (ZMod p) [y (-1) 7] ∧
  firstColumn (ZMod p) [y (-1) 8] ∧
  firstColumn (ZMod p) [y 0 4] ∧
  firstColumn (ZMod p) [y 0 4 * k (2 ^ 9)]

theorem sat_ChOK (rows : List ℤ) : Sat t ([.gate (chGate c) rows] ++ chLookups p c rows) ↔
    ∀ row ∈ rows, ChOK (fun r j => t .witness (c.w j) (row + r)) := by
  simp only [chGate, chLookups, sat_append, sat_cons, sat_nil, holds_gate, holds_lookup, and_true, ← forall₂_and]
  refine forall₂_congr fun row hr => ?_
  simp only [List.mem_cons, List.not_mem_nil, or_false, forall_eq_or_imp, forall_eq, List.map_cons, List.map_nil, kk,
    Expr.eval_add, Expr.eval_sub, Expr.eval_mul, Expr.eval_const, Expr.eval_var, Var.evalAt, Cols.eval_wv, and_assoc, if_true, ChOK]

/-- `outGate` on the cells relative to the row of the gate. -/
def OutOK (y : ℤ → ℤ → ZMod p) : Prop :=
  let k := fun (n : ℕ) => (n : ZMod p)
  y 1 0 + k (2 ^ 32) * y 1 4 - (y 0 0 + y 0 4) = 0 ∧
  y 1 1 + k (2 ^ 32) * y 1 5 - (y 0 1 + y 0 5) = 0 ∧
  y 1 2 + k (2 ^ 32) * y 1 6 - (y 0 2 + y 0 6) = 0 ∧
  y 1 3 + k (2 ^ 32) * y 1 7 - (y 0 3 + y 0 7) = 0 ∧
  y 1 4 * (y 1 4 - k 1) = 0 ∧
  y 1 5 * (y 1 5 - k 1) = 0 ∧
  y 1 6 * (y 1 6 - k 1) = 0 ∧
  y 1 7 * (y 1 7 - k 1) = 0

theorem sat_OutOK (rows : List ℤ) : Sat t ([.gate (outGate c) rows]) ↔
    ∀ row ∈ rows, OutOK (fun r j => t .witness (c.w j) (row + r)) := by
  simp only [outGate,  sat_append, sat_cons, sat_nil, holds_gate, holds_lookup, and_true, ← forall₂_and]
  refine forall₂_congr fun row hr => ?_
  simp only [List.mem_cons, List.not_mem_nil, or_false, forall_eq_or_imp, forall_eq, List.map_cons, List.map_nil, kk,
    Expr.eval_add, Expr.eval_sub, Expr.eval_mul, Expr.eval_const, Expr.eval_var, Var.evalAt, Cols.eval_wv, and_assoc, if_true, OutOK]

/-- `limbGate` and `limbLookups` on the cells relative to the row of the gate. -/
def LimbOK (y : ℤ → ℤ → ZMod p) : Prop :=
  let k := fun (n : ℕ) => (n : ZMod p)
  k 0 - y 0 3 + y 0 0 + y 0 1 * k (2 ^ 14) + y 0 2 * k (2 ^ 28) = 0 ∧
  k 0 - y 0 7 + y 0 4 + y 0 5 * k (2 ^ 14) + y 0 6 * k (2 ^ 28) = 0 ∧
  firstColumn (ZMod p) [y 0 0] ∧
  firstColumn (ZMod p) [y 0 1] ∧
  firstColumn (ZMod p) [y 0 2] ∧
  firstColumn (ZMod p) [y 0 2 * k (2 ^ 10)] ∧
  firstColumn (ZMod p) [y 0 4] ∧
  firstColumn (ZMod p) [y 0 5] ∧
  firstColumn (ZMod p) [y 0 6] ∧
  firstColumn (ZMod p) [y 0 6 * k (2 ^ 10)]

theorem sat_LimbOK (rows : List ℤ) : Sat t ([.gate (limbGate c) rows] ++ limbLookups c rows) ↔
    ∀ row ∈ rows, LimbOK (fun r j => t .witness (c.w j) (row + r)) := by
  simp only [limbGate, limbLookups, sat_append, sat_cons, sat_nil, holds_gate, holds_lookup, and_true, ← forall₂_and]
  refine forall₂_congr fun row hr => ?_
  simp only [List.mem_cons, List.not_mem_nil, or_false, forall_eq_or_imp, forall_eq, List.map_cons, List.map_nil, kk,
    Expr.eval_add, Expr.eval_sub, Expr.eval_mul, Expr.eval_const, Expr.eval_var, Var.evalAt, Cols.eval_wv, and_assoc, if_true, LimbOK]


/-! ## The blocks -/

/-- The cells of a block of rows. -/
def cells (t : Table (ZMod p)) (c : Cols) (base : ℤ) (m j : ℤ) : ZMod p := t .witness (c.w j) (base + m)

/-- The five rows of a step of the schedule. -/
def SchedBlock (x : ℤ → ℤ → ZMod p) : Prop :=
  Sigma0OK (fun r j => x (1 + r) j) ∧ SchedOK (fun r j => x (2 + r) j) ∧ Sigma1OK fun r j => x (4 + r) j

/-- The eight rows of a round with constant `κ`. -/
def RoundBlock (x : ℤ → ℤ → ZMod p) (κ : ZMod p) : Prop :=
  BigSigma1OK (fun r j => x (1 + r) j) ∧ BigSigma0OK (fun r j => x (6 + r) j) ∧ EOK (fun r j => x (3 + r) j) κ ∧
    AOK (fun r j => x (4 + r) j) ∧ MajOK (fun r j => x (4 + r) j) ∧ ChOK fun r j => x (2 + r) j

/-- The eight rows of the output. -/
def OutBlock (x : ℤ → ℤ → ZMod p) : Prop :=
  OutOK (fun r j => x (0 + r) j) ∧ OutOK (fun r j => x (2 + r) j) ∧ ∀ i < 4, LimbOK fun r j => x (4 + (i : ℕ) + r) j

theorem forall_rows {b e : ℤ} {s N : ℕ} {P : ℤ → Prop} (hN : ((e - b) / (s : ℤ) + 1).toNat = N) :
    (∀ row ∈ rowsBetween b e s, P row) ↔ ∀ n : ℕ, n < N → P (b + (s : ℤ) * (n : ℤ)) := by
  simp only [rowsBetween, hN, List.mem_map, List.mem_range, forall_exists_index, and_imp, forall_apply_eq_imp_iff₂]

theorem cells_off (base a m : ℤ) : (fun r j => t .witness (c.w j) (base + a + m + r)) = fun r j => cells t c (base + m) (a + r) j := by
  funext r j; unfold cells; congr 1; ring

theorem sat_sched : Sat t (schedOps c srow) ↔ ∀ n : ℕ, n < 48 → SchedBlock (cells t c (srow + 2 + 5 * (n : ℤ))) := by
  unfold schedOps
  simp only [sat_append]
  have h1 := sat_Sigma0OK (t := t) (c := c) (rowsBetween (srow + 2 + 1) (srow + 2 + 239) 5)
  have h2 := sat_SchedOK (t := t) (c := c) (rowsBetween (srow + 2 + 2) (srow + 2 + 239) 5)
  have h3 := sat_Sigma1OK (t := t) (c := c) (rowsBetween (srow + 2 + 4) (srow + 2 + 239) 5)
  rw [forall_rows (N := 48) (by rw [show srow + 2 + 239 - (srow + 2 + 1) = 238 by ring]; rfl)] at h1
  rw [forall_rows (N := 48) (by rw [show srow + 2 + 239 - (srow + 2 + 2) = 237 by ring]; rfl)] at h2
  rw [forall_rows (N := 48) (by rw [show srow + 2 + 239 - (srow + 2 + 4) = 235 by ring]; rfl)] at h3
  simp only [sat_append, cells_off, Nat.cast_ofNat] at h1 h2 h3
  unfold SchedBlock
  simp only [forall₂_and]
  rw [← h1, ← h2, ← h3]
  simp only [and_assoc]

theorem sat_const : (Sat t ((List.range 64).map fun (i : ℕ) => Op.constant (c.k 0) (srow + 242 + 3 + 8 * (i : ℤ)) ((roundConstant.getD i 0 : ℕ) : ZMod p))) ↔
    ∀ n : ℕ, n < 64 → t .constant (c.k 0) (srow + 245 + 8 * (n : ℤ)) = kc p n := by
  unfold Sat
  simp only [List.mem_map, List.mem_range, forall_exists_index, and_imp, forall_apply_eq_imp_iff₂, holds_constant, kc]
  refine forall₂_congr fun n _ => ?_
  rw [show srow + 242 + 3 = srow + 245 by ring]

theorem sat_round : Sat t (roundOps p c srow) ↔ ∀ n : ℕ, n < 64 → t .constant (c.k 0) (srow + 245 + 8 * (n : ℤ)) = kc p n ∧
    RoundBlock (cells t c (srow + 242 + 8 * (n : ℤ))) (kc p n) := by
  unfold roundOps
  have h0 := sat_const (t := t) (c := c) (srow := srow)
  have h1 := sat_BigSigma1OK (t := t) (c := c) (rowsBetween (srow + 242 + 1) (srow + 242 + 511) 8)
  have h2 := sat_BigSigma0OK (t := t) (c := c) (rowsBetween (srow + 242 + 6) (srow + 242 + 511) 8)
  have h3 := sat_EOK (t := t) (c := c) (rowsBetween (srow + 242 + 3) (srow + 242 + 511) 8)
  have h4 := sat_AOK (t := t) (c := c) (rowsBetween (srow + 242 + 4) (srow + 242 + 511) 8)
  have h5 := sat_MajOK (t := t) (c := c) (rowsBetween (srow + 242 + 4) (srow + 242 + 511) 8)
  have h6 := sat_ChOK (t := t) (c := c) (rowsBetween (srow + 242 + 2) (srow + 242 + 511) 8)
  rw [forall_rows (N := 64) (by rw [show srow + 242 + 511 - (srow + 242 + 1) = 510 by ring]; rfl)] at h1
  rw [forall_rows (N := 64) (by rw [show srow + 242 + 511 - (srow + 242 + 6) = 505 by ring]; rfl)] at h2
  rw [forall_rows (N := 64) (by rw [show srow + 242 + 511 - (srow + 242 + 3) = 508 by ring]; rfl)] at h3
  rw [forall_rows (N := 64) (by rw [show srow + 242 + 511 - (srow + 242 + 4) = 507 by ring]; rfl)] at h4
  rw [forall_rows (N := 64) (by rw [show srow + 242 + 511 - (srow + 242 + 4) = 507 by ring]; rfl)] at h5
  rw [forall_rows (N := 64) (by rw [show srow + 242 + 511 - (srow + 242 + 2) = 509 by ring]; rfl)] at h6
  simp only [sat_append, sat_cons, sat_nil, and_true, cells_off, Nat.cast_ofNat, add_zero] at h1 h2 h3 h4 h5 h6
  simp only [sat_append, sat_cons, sat_nil, and_true]
  have e : ∀ n : ℕ, srow + 242 + 3 + 8 * (n : ℤ) = srow + 245 + 8 * (n : ℤ) := fun n => by ring
  simp only [e] at h3
  constructor
  · rintro ⟨⟨⟨⟨⟨⟨⟨⟨k0, a1⟩, a2⟩, b1⟩, b2⟩, e1, f1, g1⟩, g2⟩, d1⟩, d2⟩ n hn
    have k1 := h0.1 k0 n hn
    have k3 := h3.1 e1 n hn
    rw [k1] at k3
    exact ⟨k1, h1.1 ⟨a1, a2⟩ n hn, h2.1 ⟨b1, b2⟩ n hn, k3, h4.1 f1 n hn, h5.1 ⟨g1, g2⟩ n hn, h6.1 ⟨d1, d2⟩ n hn⟩
  · intro h
    have k0 := h0.2 fun n hn => (h n hn).1
    have a := h1.2 fun n hn => (h n hn).2.1
    have b := h2.2 fun n hn => (h n hn).2.2.1
    have e1 := h3.2 fun n hn => by rw [(h n hn).1]; exact (h n hn).2.2.2.1
    have f1 := h4.2 fun n hn => (h n hn).2.2.2.2.1
    have g := h5.2 fun n hn => (h n hn).2.2.2.2.2.1
    have d := h6.2 fun n hn => (h n hn).2.2.2.2.2.2
    exact ⟨⟨⟨⟨⟨⟨⟨⟨k0, a.1⟩, a.2⟩, b.1⟩, b.2⟩, e1, f1, g.1⟩, g.2⟩, d.1⟩, d.2⟩

theorem sat_out : Sat t (outOps c srow) ↔ OutBlock (cells t c (srow + 754)) := by
  unfold outOps
  have h1 := sat_OutOK (t := t) (c := c) (rowsBetween (srow + 754) (srow + 754 + 2) 2)
  have h2 := sat_LimbOK (t := t) (c := c) (rowsBetween (srow + 754 + 4) (srow + 754 + 7) 1)
  rw [forall_rows (N := 2) (by rw [show srow + 754 + 2 - (srow + 754) = 2 by ring]; rfl)] at h1
  rw [forall_rows (N := 4) (by rw [show srow + 754 + 7 - (srow + 754 + 4) = 3 by ring]; rfl)] at h2
  simp only [sat_append, sat_cons, sat_nil, and_true] at h1 h2
  simp only [sat_append, sat_cons, sat_nil, and_true, and_assoc]
  rw [h1, h2]
  unfold OutBlock
  have e0 : (fun r j => t .witness (c.w j) (srow + 754 + ((2 : ℕ) : ℤ) * ((0 : ℕ) : ℤ) + r)) = fun r j => cells t c (srow + 754) (0 + r) j := by
    funext r j; unfold cells; congr 1; push_cast; ring
  have e1 : (fun r j => t .witness (c.w j) (srow + 754 + ((2 : ℕ) : ℤ) * ((1 : ℕ) : ℤ) + r)) = fun r j => cells t c (srow + 754) (2 + r) j := by
    funext r j; unfold cells; congr 1; push_cast; ring
  have e2 : ∀ n : ℕ, (fun r j => t .witness (c.w j) (srow + 754 + 4 + ((1 : ℕ) : ℤ) * (n : ℤ) + r)) = fun r j => cells t c (srow + 754) (4 + (n : ℤ) + r) j := by
    intro n; funext r j; unfold cells; congr 1; push_cast; ring
  simp only [e2]
  constructor
  · rintro ⟨h, h'⟩
    have a := h 0 (by omega)
    have b := h 1 (by omega)
    rw [e0] at a; rw [e1] at b
    exact ⟨a, b, h'⟩
  · rintro ⟨a, b, h'⟩
    refine ⟨fun n hn => ?_, h'⟩
    interval_cases n
    · rw [e0]; exact a
    · rw [e1]; exact b

/-- The circuit, block by block. -/
theorem sat_iff : Sat t (circuit p c inp srow) ↔
    (∀ n : ℕ, n < 48 → SchedBlock (cells t c (srow + 2 + 5 * (n : ℤ)))) ∧
    (∀ n : ℕ, n < 64 → t .constant (c.k 0) (srow + 245 + 8 * (n : ℤ)) = kc p n ∧
      RoundBlock (cells t c (srow + 242 + 8 * (n : ℤ))) (kc p n)) ∧
    OutBlock (cells t c (srow + 754)) ∧
    Sat t (schedCopies c inp srow) ∧ Sat t (roundCopies c srow) ∧ Sat t (outCopies c inp srow) := by
  unfold circuit
  simp only [sat_append, and_assoc]
  rw [sat_sched, sat_round, sat_out]

/-! ## Copy constraints -/

theorem sat_schedCopies : Sat t (schedCopies c inp srow) ↔
    (∀ i < 15, t .witness (c.w 0) (srow + 2 + 5 * ((i : ℕ) : ℤ)) = (inp.words (i + 1)).value t) ∧
    (∀ i < 7, t .witness (c.w 0) (srow + 2 + 5 * ((i : ℕ) : ℤ) + 1) = (inp.words (i + 9)).value t) ∧
    (∀ i < 16, t .witness (c.w 1) (srow + 2 + 5 * ((i : ℕ) : ℤ) + 1) = (inp.words i).value t) ∧
    (∀ i < 2, t .witness (c.w 0) (srow + 2 + 5 * ((i : ℕ) : ℤ) + 4) = (inp.words (i + 14)).value t) ∧
    (∀ r : ℕ, r < 48 →
      (2 ≤ r → t .witness (c.w 0) (srow + 2 + 5 * (r : ℤ) + 4) = t .witness (c.w 0) (srow + 2 + 5 * ((r : ℤ) - 2) + 2)) ∧
      (7 ≤ r → t .witness (c.w 0) (srow + 2 + 5 * (r : ℤ) + 1) = t .witness (c.w 0) (srow + 2 + 5 * ((r : ℤ) - 7) + 2)) ∧
      (15 ≤ r → t .witness (c.w 0) (srow + 2 + 5 * (r : ℤ)) = t .witness (c.w 0) (srow + 2 + 5 * ((r : ℤ) - 15) + 2)) ∧
      (16 ≤ r → t .witness (c.w 1) (srow + 2 + 5 * (r : ℤ) + 1) = t .witness (c.w 0) (srow + 2 + 5 * ((r : ℤ) - 16) + 2)) ∧
      t .witness (c.w 0) (srow + 2 + 5 * (r : ℤ) + 2) = t .witness (c.w 8) (srow + 2 + 5 * (r : ℤ) + 4)) := by
  unfold schedCopies
  simp only [sat_append, and_assoc]
  refine and_congr ?_ (and_congr ?_ (and_congr ?_ (and_congr ?_ ?_)))
  · simp only [Sat, List.mem_map, List.mem_range, forall_exists_index, and_imp, forall_apply_eq_imp_iff₂, holds_copy, Cols.value_wa]
  · simp only [Sat, List.mem_map, List.mem_range, forall_exists_index, and_imp, forall_apply_eq_imp_iff₂, holds_copy, Cols.value_wa]
  · simp only [Sat, List.mem_map, List.mem_range, forall_exists_index, and_imp, forall_apply_eq_imp_iff₂, holds_copy, Cols.value_wa]
  · simp only [Sat, List.mem_map, List.mem_range, forall_exists_index, and_imp, forall_apply_eq_imp_iff₂, holds_copy, Cols.value_wa]
  · have e : ∀ (P : Prop) [Decidable P] (o : Op (ZMod p)), Sat t (if P then [o] else []) ↔ (P → o.Holds t) := by
      intro P _ o
      by_cases h : P <;> simp [h, Sat]
    have e2 : ∀ (f : ℕ → List (Op (ZMod p))) (n : ℕ), Sat t ((List.range n).flatMap f) ↔ ∀ r : ℕ, r < n → Sat t (f r) := by
      intro f n
      simp only [Sat, List.mem_flatMap, List.mem_range, forall_exists_index, and_imp]
      exact ⟨fun h r hr o ho => h o r hr ho, fun h o r hr ho => h r hr o ho⟩
    rw [e2]
    refine forall₂_congr fun r hr => ?_
    simp only [sat_append, sat_cons, sat_nil, e, holds_copy, Cols.value_wa, and_true, and_assoc]

theorem sat_roundCopies : Sat t (roundCopies c srow) ↔ ∀ r : ℕ, r < 63 →
      t .witness (c.w 0) (srow + 242 + 8 * ((r : ℤ) + 1)) = t .witness (c.w 4) (srow + 242 + 8 * (r : ℤ) + 3) ∧
      t .witness (c.w 0) (srow + 242 + 8 * ((r : ℤ) + 1) + 7) = t .witness (c.w 2) (srow + 242 + 8 * (r : ℤ) + 5) ∧
      t .witness (c.w 1) (srow + 242 + 8 * ((r : ℤ) + 1) + 5) = t .witness (c.w 0) (srow + 242 + 8 * (r : ℤ) + 5) ∧
      t .witness (c.w 4) (srow + 242 + 8 * ((r : ℤ) + 1) + 5) = t .witness (c.w 1) (srow + 242 + 8 * (r : ℤ) + 5) ∧
      t .witness (c.w 1) (srow + 242 + 8 * ((r : ℤ) + 1) + 1) = t .witness (c.w 0) (srow + 242 + 8 * (r : ℤ) + 1) ∧
      t .witness (c.w 0) (srow + 242 + 8 * ((r : ℤ) + 1) + 3) = t .witness (c.w 1) (srow + 242 + 8 * (r : ℤ) + 1) := by
  have e2 : ∀ (f : ℕ → List (Op (ZMod p))) (n : ℕ), Sat t ((List.range n).flatMap f) ↔ ∀ r : ℕ, r < n → Sat t (f r) := by
    intro f n
    simp only [Sat, List.mem_flatMap, List.mem_range, forall_exists_index, and_imp]
    exact ⟨fun h r hr o ho => h o r hr ho, fun h o r hr ho => h r hr o ho⟩
  unfold roundCopies
  simp only [e2, sat_cons, sat_nil, holds_copy, Cols.value_wa, and_true]

theorem sat_outCopies : Sat t (outCopies c inp srow) ↔
    (t .witness (c.w 0) (srow + 754 - 1) = t .witness (c.w 5) (srow + 754) ∧ t .witness (c.w 0) (srow + 754 - 9) = t .witness (c.w 6) (srow + 754) ∧
     t .witness (c.w 0) (srow + 754 - 17) = t .witness (c.w 7) (srow + 754) ∧ t .witness (c.w 0) (srow + 754 - 8) = t .witness (c.w 5) (srow + 754 + 2) ∧
     t .witness (c.w 0) (srow + 754 - 16) = t .witness (c.w 6) (srow + 754 + 2) ∧ t .witness (c.w 0) (srow + 754 - 24) = t .witness (c.w 7) (srow + 754 + 2)) ∧
    (∀ i : ℕ, i < 4 → t .witness (c.w (i : ℤ)) (srow + 754) = (inp.state i).value t ∧
      t .witness (c.w (i : ℤ)) (srow + 754 + 2) = (inp.state (i + 4)).value t) ∧
    (t .witness (c.w 4) (srow + 754) = t .witness (c.w 3) (srow + 754 + 4) ∧ t .witness (c.w 5) (srow + 754) = t .witness (c.w 7) (srow + 754 + 4) ∧
     t .witness (c.w 6) (srow + 754) = t .witness (c.w 3) (srow + 754 + 5) ∧ t .witness (c.w 7) (srow + 754) = t .witness (c.w 7) (srow + 754 + 5) ∧
     t .witness (c.w 4) (srow + 754 + 2) = t .witness (c.w 3) (srow + 754 + 6) ∧ t .witness (c.w 5) (srow + 754 + 2) = t .witness (c.w 7) (srow + 754 + 6) ∧
     t .witness (c.w 6) (srow + 754 + 2) = t .witness (c.w 3) (srow + 754 + 7) ∧ t .witness (c.w 7) (srow + 754 + 2) = t .witness (c.w 7) (srow + 754 + 7)) := by
  have e2 : ∀ (f : ℕ → List (Op (ZMod p))) (n : ℕ), Sat t ((List.range n).flatMap f) ↔ ∀ r : ℕ, r < n → Sat t (f r) := by
    intro f n
    simp only [Sat, List.mem_flatMap, List.mem_range, forall_exists_index, and_imp]
    exact ⟨fun h r hr o ho => h o r hr ho, fun h o r hr ho => h r hr o ho⟩
  unfold outCopies
  simp only [sat_append, e2, sat_cons, sat_nil, holds_copy, Cols.value_wa, and_true, and_assoc]

end Sha256
end Verif
