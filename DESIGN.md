# Design

Formal model of NilFoundation/zkllvm-blueprint (C++ header library building PLONK circuits) in Lean 4 + Mathlib.
Paths below are relative to `/repo/include/nil/blueprint/`.

## Trusted base

* Lean 4.33.0 kernel. Axioms: only `propext`, `Classical.choice`, `Quot.sound` (Lean's standard ones). No `sorry`, `native_decide`, `bv_decide`, no added axioms.
* The correspondence between the Lean definitions and the C++ text. Each definition cites file and lines; there is no mechanical extraction.
* Mathlib's definitions used in specifications (`Field`, `ZMod`, `Nat.testBit`, `WeierstrassCurve.Affine.Point`, ...).

## What is modelled

* **Values**: elements of an arbitrary Mathlib `Field F`; where the code converts a field element to an integer the field is `ZMod p`, `p` prime, and the integer is `ZMod.val`.
* **Constraints**: deep embedding `Expr F` of polynomial expressions over variables `(index, rotation, relative, column kind)`, evaluated on a table at a row.
* **Tables**: total functions `column -> row (Int) -> F`; never-written cells hold 0. (Vector sizes and resizing are modelled separately, in the assignment-table model.) Rows wrapping at the end of the padded table is not modelled: rotated rows are integers.
* **Components**: `generate_circuit` is a list of ops (place gate on rows, copy constraint, write constant, lookup); `generate_assignments` is a list of cell writes performed in program order. *Soundness* quantifies over every table meeting the ops, *completeness* is about the table the writes produce.
* **Core**: circuit/assignment containers as state machines.

## What is not modelled

* crypto3 (the proof system, field implementation, curve library), except the evaluation of a constraint at a row.
* R1CS components other than those listed below (pairings, weierstrass elements, set commitments, delegated ra1cs), the kimchi verifier components that combine the ones listed below (batch verification, prepare_batch, index terms), statistics/export/printing code, C++ template and type-erasure plumbing.
* Probability: gate ids are evaluations at random points; the circuit theorems take the id as a parameter that is faithful on the gates of the history, the id itself is modelled in `Model/GateId.lean` for every draw of random values.
* Machine integer overflow of `size_t`/`uint32_t` counters, except where stated.
* `BOOST_ASSERT`s are preconditions of theorems (they vanish in release builds), stated as hypotheses.

## Properties: approach

* **C01 Satisfiability check agrees with the recorded constraints** - Deep-embedded circuit state machine (gates list, selector columns, copy list) executing building ops; `isSatisfied` modelled as the checker's nested loops; proved equivalent to the conjunction of the recorded obligations by induction over the op history.
* **C02 Gate registration reuses a selector for an equal gate and never shares it between different ones** - Registration state machine with two maps and one counter; invariant by induction on the request history. The gate identity hash (random evaluation) is modelled as an arbitrary injective key: collisions are out of scope.
* **C03 Assignment table cells behave like independent variables** - Columns as lists with resize-on-access; refinement to a total function `cell -> value`.
* **C04 Enabling a selector on a range touches exactly the arithmetic progression of rows** - The `for (r=first; r<=last; r+=step)` loop by well-founded recursion; set of touched rows characterised.
* **C05 Copy constraints are dropped only when trivial or private** - Filter semantics over the op history.
* **C06 Component column indexing is total and cyclic** - `W(i)` with 64-bit unsigned wrap-around, list indexing.
* **C07 Field addition component is sound and complete** - Gate/copy ops of generate_circuit, cell writes of generate_assignments; soundness and completeness over any field.
* **C08 Field subtraction component is sound and complete** - as C07
* **C09 Field multiplication component is sound and complete** - as C07
* **C10 Field division component is sound and complete** - as C07
* **C11 Division-or-zero component returns the quotient or zero** - as C07
* **C12 Multiplication by a constant uses the constant it stored** - as C07; the code reads constant column 0 in the gate but writes column C(0): the full statement is refuted with a witness, the theorem for C(0)=0 is kept as `_partial`.
* **C13 Logical AND / OR flag components compute boolean connectives of zero-ness** - as C07, each arrangement (witness count) separately.
* **C14 Linear and quadratic interpolation components evaluate the interpolating polynomial** - as C07; spec stated with polynomial interpolation.
* **C15 Equality flag component decides equality** - as C07
* **C16 Boolean operation components compute their truth tables** - as C07
* **C17 Range check accepts exactly the values that fit in the requested number of bits** - Rows by induction; spec is `val < 2^b` in ZMod p.
* **C18 Bit decomposition outputs the unique binary expansion** - bit_builder gate model, induction over gate instances; spec is Nat.testBit.
* **C19 Bit composition outputs the integer with the given bits** - as C18
* **C20 Composition inverts decomposition** - Pure list functions `calculate`; induction.
* **C21 Unchecked comparison accepts only correctly ordered inputs** - range_check theorem + order relation on ZMod p values.
* **C22 Checked comparison enforces range and order** - Chunk sums by induction; code allows one more bit for odd widths: full statement refuted, order part kept.
* **C23 Comparison flag returns the truth value of the comparison** - Chunk-by-chunk comparison automaton, induction over chunks.
* **C24 Division with remainder returns the Euclidean quotient and remainder** - Refuted with a concrete table (remainder equal to divisor); the weaker guarantee the constraints do give is kept as `_partial`.
* **C25 Exponentiation component computes integer powers** - Double-and-add rows by induction; uniqueness of exponent needs 2^padded <= p.
* **C26 Square root component outputs a square root when one exists** - Refuted with a concrete table over ZMod 7; completeness side kept.
* **C27 Bit shift by a constant multiplies or divides by a power of two** - composition of C18 and C19.
* **C28 Flexible swap component swaps on a boolean control** - as C07
* **C29 Array addition / multiplication components are element-wise** - block layout by induction.
* **C30 Constant power component computes x^k** - Refuted (initial accumulator unconstrained; wrong output column); conditional theorem kept.
* **C31 Power-factor component evaluates a polynomial at a point** - Horner evaluation by induction over rows.
* **C32 FRI linear interpolation is the value of the line through (s,y0),(-s,y1)** - as C07
* **C33 FRI array swap permutes each pair by the control bit** - block layout.
* **C34 Unified point addition implements the group law** - Mathlib's `WeierstrassCurve.Affine.Point` group as the independent spec; the two side conditions (no abscissa 0, no 2-torsion) are shown necessary and checked for Pallas and Vesta by quadratic reciprocity and a modular power evaluated in the kernel.
* **C35 State selector encodes an index one-hot and detects options** - Finite sums over options.
* **C36 EVM word chunking is lossless** - Nat digits.
* **C37 EVM ISZERO gate decides zero-ness** - as C07
* **C38 EVM ADD/SUB gate computes addition modulo 2^256** - Carry chain over integers, then lifted to ZMod p.
* **C39 EVM MUL gate computes multiplication modulo 2^256** - 64-bit limb product identity over integers, lifted.
* **C40 EVM DIV gate computes the integer quotient** - Refuted: constraints only force remainder != divisor and only modulo 2^256; partial kept.
* **C41 EVM state transition constraints enforce the declared transition** - Case split on the transition kind.
* **C42 Gate relocation preserves meaning** - Structural induction on expressions.
* **C43 Batched component requests are answered with their own results** - `Model/Batch.lean`: the batch maps, the result storage, the packing loop with its fill-up loop, the copy constraints and the variable replacement. An invariant over request histories (unique keys, disjoint fresh result slots, stored values are the component's values) gives sharing and independence; packing gives pairwise disjoint cells and exactly one instance per request; soundness and completeness are then stated for any component which is itself sound/complete on one row. The order of the `std::map` is an arbitrary comparison. Not modelled: `type_erasure`, the choice of the component width (C45), hashing of variables.
* **C44 Constant batching gives each constant its own preserved cell** - `Model/ConstBatch.lean`: storage, the used-cell scan (out-of-range accesses are `none`), the placement loop and the variable replacement. The scan's test `rotation >= start_row` is meant for absolute rows but is also applied to relative offsets: refuted for gates with offset 0; proved for copy constraints and for the other offsets.
* **C45 Manifest parameters describe sets of column amounts consistently** - Denotational semantics of parameters; each operator checked; deviations refuted with witnesses.
* **C46 Zone packing assigns every zone to a valid column block within twice the optimum** - Greedy + binary search model with fuel-free recursion; FFD argument.
* **C47 A stretched component reports enough rows** - Refuted with three unit zones on two agents.
* **C48 Non-native chopping and gluing are inverse** - Nat div/mod round trip.
* **C49 Non-native Ed25519 addition, subtraction and multiplication agree with field arithmetic** - `Model/Ed25519.lean`: gates, copies, range component and assignments. Soundness by lifting the native-field equations to integers (every side is below the native modulus or below `2^k` times it) and CRT; completeness by computing the carries over the integers; tables of a dishonest prover are built explicitly. Primes by Pratt certificates checked in the kernel (`Core/Primality.lean`).
* **C50 Connectedness check merges exactly the cells linked by constraints** - Union-find as equivalence closure.
* **C51 Gate identity ignores the order and the way constraints are written** - `gate_id` modelled (two evaluation points, sort, weighted sum); sorted permutations are equal.
* **C52 Lookup gates on different tables are never merged** - refuted: a zero tuple collides across tables for every draw; the statement for non-zero tuples is kept as `_partial`.
* **C53 Stretched components keep the constraints of the component they stretch** - Layout of a stretched component as a cell renaming; satisfaction transported along it; three refutations, the general theorem under the conditions they leave.
* **C54 Manifest parameters report satisfiability, maximum, iteration and removal truthfully** - Denotational semantics as for C45; each part refuted for some ranges and proved for the rest.
* **C55 Merged manifests never admit too few columns** - Denotational semantics; nine combinations of kinds.
* **C56 Programs compiled component by component** - `Model/Program.lean`: instructions, the obligations and writes of each, and the whole call history; `Props/Program.lean`: obligations rendered as calls (`checker_iff` links the satisfiability check to `Sat`), the table of a history is the fold of its writes, soundness by strong induction on instructions for arbitrary writes, completeness by induction over the table of the first n instructions.
* **C57 The Poseidon component computes the Poseidon permutation** - `Model/Poseidon.lean`, `Props/Poseidon.lean`. Specification: 55-fold composition of a matrix-vector product of seventh powers plus constants. The 15-column component is shown to be the width-15 case of the flexible one. Bijectivity: x^7 has an inverse exponent modulo p-1, the determinant is non-zero modulo p (kernel computation), finite injective maps are bijective.
* **C58 The flexible Poseidon component for any width and any place in a circuit** - Loop invariants for the gate-building and the assignment loop for every width 3*cap; `generate` follows the code on the circuit container, `intended` is what it should do; equal when the selectors are aligned, refuted otherwise.
* **C59 The permutation argument verifier** - `Model/PermVerifier.lean`, `Props/PermVerifier.lean`. Specification: products over Finset.range. The gates are shown equivalent to one recurrence over rows (even and odd rows carry different challenges), the rest is induction on the row. m = 1 is refuted in both directions.
* **C60 f3_loop** - `Core/Trace.lean`, `Model/F3Loop.lean`, `Props/F3Loop.lean`. Specification: a Finset sum. The loops over rows and columns are shown to visit exactly the positions below 4m, `start_j` the first position that is 3 modulo 4 (for every row and width), every selector the recurrence at its position; then induction. The exact cases in which the honest table is rejected are part of the theorem.
* **C61 f1_loop** - `Model/F1Loop.lean`, `Props/F1Loop.lean`. Specification: a Finset product. For every width, row and column the selector the code computes is shown to point at the gate for that column with the rotations that find beta and gamma in the first column (`sel_gate`, `rot_ok`, including the gates of the last row, which look up instead of down); the gate is the recurrence at that position; then induction. Not modelled: the floating point `ceil(3.0*n/(w-1))` of line 50 is taken to be the integer ceiling.
* **C62 gate_component** - `Model/GateComponent.lean`, `Props/GateComponent.lean`. Specification: a Finset sum of powers of theta. The set of enabled selectors, written out with the three values `r` takes, is shown to be exactly the first gate, the step at every even position up to 2d, and one output gate on the last row (`mem_enabled`, all five cases of rows and extra row); each gate is the Horner step at its position; then induction. Not modelled: the floating point ceiling of line 58 is the integer ceiling; degree 0, excluded by the assert of line 57.
* **C63 basic_constraints_verifier** - `Core/Seq.lean`, `Model/GateVerifier.lean`, `Props/Blocks.lean`, `Props/GateVerifier.lean`. Specification: a double Finset sum. Composition of the proved components (multiplication, gate_component): `seq_complete` shows that calls on consecutive rows, each complete and confined to its rows and inputs, are complete together. The loop that builds the final vector is shown, by an invariant over (j, sum, vector), to place gate j at the sum of the sizes before it.
* **C64 lookup_verifier** - `Model/LookupVerifier.lean`, `Props/LookupVerifier.lean`, `Props/LookupComplete.lean`. Specification: `Vals` over plain functions (products and sums over ranges). Composition of gate_component, multiplication, f1_loop, f3_loop and the two final rows with `Core/Seq.lean`. `verifier_complete` keeps as a hypothesis that the last column is zero on the row before f3_loop (that row belongs to a multiplication, which leaves the cell unassigned).
* **C65 expression evaluation** - `Model/ExprEval.lean` models the walk and the two entry points on top of the batch (C43) and constant batch (C44) models; the three batched components are multiplication, addition and subtraction. `eval_sound`: any list of calls, any table satisfying the finalised gates and copy constraints. `eval_complete`: the finalised table satisfies them if each result was computed from the values inputs have at finalisation. `eval_flow`: circuit calls followed by assignment calls. Not modelled: exponents that are not positive (asserted), a mapping without an entry (throws).
* **C66 final_polynomial_check** - `Model/FinalPoly.lean`, `Props/FinalPoly.lean`. Specification: `polyVal` as a sum of coefficients times powers. The loop is shown to be a list of evaluations (C65), each output copied to the batched constant zero; `check_sound` allows arbitrary evaluations before and after, `check_complete` is for the component on its own.
* **C67 fri_cosets** - `Model/FriCosets.lean`, `Props/FriCosets.lean`, `Props/FriCosetsComplete.lean`. Specification: `IsCoset`, in terms of powers and the canonical integer only. The gates are read block by block and row by row (`gates_iff`), every row becomes a run over a list of bit pairs, and `core` shows that exactly `tb` bits that decompose `x` and `-1` with non-negative sign are the canonical bits. Completeness reads back the three assignment loops.
* **C68 endo_scalar** - `Model/EndoScalar.lean`, `Props/EndoScalar.lean`. Specification: `spec`, a signed sum over the base-4 digits of the integer. `circuit_unpack` turns the circuit into equations with digits; `endo_accepts` is the exact content of a satisfying table (induction over the eight rows), the honest run is related to it by `st_eq`.
* **C69 bool_scalar_multiplication** - `Model/BoolScalarMul.lean`, `Props/BoolScalarMul.lean`. Specification: `Spec`, by cases on the bit. Soundness by unfolding the gate and factoring `k(k-1)`; completeness by reading the written cells back.
* **C70 complete_addition** - `Core/Prime25519.lean` (primality certificate), `Core/Edwards.lean` (addition law over any field), `Model/EdCurve.lean`, `Props/EdProgram.lean`, `Props/EdCurve.lean`. The calls of the component are a program over registers; soundness and completeness of the single operations (C49) are lifted to programs by induction, with the frame of each call. Specification: `Edwards.addX`, `Edwards.addY` over `ZMod (2^255-19)`. `complete` (d nonsquare, -1 square) by modular powers checked in the kernel. The library's `T + R` (272) is modelled by the addition law; lines 273-275 only restate that the neutral point is (0, 1).
* **C71 doubling** - same modules and `Props/EdDouble.lean`. `dblWith_sat` gives the table for any ordinate with the right lowest and highest limb; it serves both completeness and the refutation.
* **C72 flexible_x_index** - Model/XIndex.lean, Props/XIndex.lean. Gate, constants (written by generate_assignments, listed as fixed cells), copies and writes for every width. `circuit_iff` restates the constraints per cell, `chain_sound` follows the chain over the rows, `chain_bits` gives the power of omega. The BOOST_ASSERT on x is the hypothesis of the completeness theorem.
* **C73 flexible_colinear_checks** - Model/Colinear.lean, Props/Colinear.lean. Gate and writes (with the padding that reads the cells before it) for every width from 9. Specification: a line through two points. Widths below 9 divide by zero in get_rows_amount and are excluded.
* **C74, C75, C76 plonk_flexible_verifier** - `Model/Verifier.lean`, `Props/Verifier.lean`. The circuit is modelled by recursion over the loops of `generate_circuit`, with the models of Poseidon (C58), constant power (C30), index (C72), colinearity (C73) and swap (C43; its place is a parameter). Specification: `absorb` (iterated compression), `Opens` (root reached from a leaf along bits). Soundness by induction over the loops. For the exact condition (C76) tables are built part by part: `Do p E t0 row row' ops` says that the constraints can be met from `row` on without touching cells in use and that they depend on cells below `row'` only; it composes. Existence of the table is shown, not that `generate_assignments` finds it (the assignment of the whole component is not modelled). Assumed: nonempty batches, `1 <= r <= size + 1` (the code indexes and subtracts without checks), inputs in public columns, swaps placed past the component on disjoint cells.
* **C77, C78 variable_base_scalar_mul** - `Model/VarBaseMul.lean`, `Props/PastaOrder.lean`, `Props/VarBaseStep.lean`, `VarBaseFacts.lean`, `VarBaseMul.lean`, `VarBaseSound.lean`, `VarBaseBuild.lean`, `VarBaseComplete.lean`, `VarBaseThms.lean`, `VarBaseForge.lean`, `VarBaseNeutral.lean`. The step `P -> 2P +- T` is tied to Mathlib's group of the curve; the multiples met on the way are bounded by induction, and the exceptional cases (a multiple equal to +-T, 0) are excluded by arithmetic with the group order. The order of the generators of both curves is computed by a checked double-and-add. Everything is for points of the order of the group; that the curve group is cyclic of prime order (Hasse) is not proved, hence the hypothesis on the point. The `crypto3` point arithmetic of the assignment is modelled by the sum of `unified_addition`.
* **C79 decomposition** - `Model/Decomposition.lean`, `Props/Decomposition.lean`. Specification `words` by division. Soundness under the missing range check of the sixteen limbs, exact condition of acceptance, exact domain of the honest prover.
* **C80 sha256 calculate** - `Core/Sha256Spec.lean` (FIPS 180-4), `Model/Sha256.lean`, `Props/Sha256Calc.lean`. The sparse sums are numbers in base 4 or 7 whose digits count bits of rotated words (`*_combine`); `topDigits_val` recovers the digits; the bit functions follow digit by digit; schedule and rounds by induction. An access out of bounds would give `none`.
* **C81 sha256 circuit** - `Model/Sha256.lean` (gates, lookups, copy constraints, assignments), `Props/Sha256Gates.lean` (what satisfaction means, cell by cell, `sat_iff`), `Props/Sha256Complete.lean` (`sha256_complete` for the honest table; `forged_sat` and `sha256_any_output`: rounds are invertible, and the cells that feed message and state into the rounds are free, so every output is reachable). `Props/Sha256Sound.lean` inverts the lookups: `schedule_sound` (the schedule cells are forced, word 0 must be assumed to be a word because no lookup covers it), `sha256_sound_partial` (with the constraints of `Missing` the result is forced) and `missing_honest` (the honest table satisfies `Missing`). `tools/check_sha_tables.py` compares the modelled lookup tables with the ones computed by a transcription of `lookup_library.hpp`; it is not part of the proof.
* **C82 reduction** - `Model/Reduction.lean`, `Props/Reduction.lean`. The specification is `number` (the eight words in base 2^64) and its remainder modulo `L`. Soundness under the intended widths: the two sums of the second gate give the equation modulo the field order and modulo 2^69, so it holds over the integers by the bounds. The 512-bit integers of `generate_assignments` are natural numbers.
* **C83 scalar range** - `Model/ScalarRange.lean`, `Props/ScalarRange.lean`. The integer type of the assignment is outside the repository; its width is a parameter of the model (`n`), and the theorems about the honest table take 253, the width of the group order. The specification is `(k.value t).val < L` and the base-2^22 digits.
* **C84 r1cs conjunction and disjunction** - `Core/R1cs.lean` models the r1cs blueprint: variables, linear combinations as lists of terms, constraints `a * b = c`, and satisfaction. `Model/R1csBasic.lean` has the components, `Props/R1csBasic.lean` the proofs. The specification is `∃ i` / `∀ i` over the inputs.
* **C85 r1cs packing and comparison** - same files. The specification is the order of the canonical representatives (`ZMod.val`), proved by the bits of `2^n + B - A`.
* **C86 r1cs inner product and multiplexer** - `Props/R1csMux.lean`; the specification is a finite sum and `arr[index]`; induction over the accumulators and over the assignment loop.
* **C87 r1cs lookups of constants** - `Props/R1csMux.lean`; case analysis over the bits, constants arbitrary.
* **C88 strict bit decomposition** - `Model/R1csPack.lean`, `Props/R1csPack.lean`. All loops are modelled; the bit width is a parameter. The specification is `Nat.testBit` of the canonical representative.
* **C89 conditional copying** - same files. Chunks are lists cut as in the constructor of `multipacking_component`; the specification is equality of the lists of values.
* **C90 r1cs SHA-256 compression** - `Model/R1csSha256.lean` has all constraints and all assignments of the message schedule, the 64 rounds and the final sums with their variables; the assignment is executed step by step. `Props/R1csRun.lean`: every variable is written once, so at the end all equations of the assignment hold. The specification (`Core/Sha256Spec.lean`) is over `BitVec 32`; it is the one used for the PLONK component and `Core/Sha256Hash.lean` checks it on the standard's example. `Core/BlsScalar.lean` proves that the order of the scalar field of BLS12-381 is prime, so that the theorems are instantiated at a field of the tests. Round constants and initial value are those of the standard (they come from another repository).
* **C91 r1cs SHA-256 hash** - `Props/R1csSha256Hash.lean`, by induction over the blocks. The specification is the padding of FIPS 180-4, 5.1.1, and the iteration over blocks.
* **C92 r1cs HMAC** - `Model/R1csHmac.lean` on top of the model of C91; the specification `Core/Hmac.lean` is RFC 2104 and is checked on a test case of RFC 4231. Keys longer than a block are excluded by an assertion in the constructor.
* **C93 r1cs Merkle tree read** - `Model/R1csMerkle.lean`: digest selector, path and the read component over an arbitrary hash component (`Law`: soundness, straight-line assignment, completeness), instantiated with the SHA-256 two-to-one component. The specification is the recursion `IsNode`/`node`. The prover's `merkle_proof::generate_assignments`, which fills the path from a native Merkle proof, is not modelled: the siblings are inputs.
* **C94 r1cs curve points** - `Model/R1csCurve.lean`; specification in `Core/Montgomery.lean`: Mathlib's group of points of the Weierstrass curve with coefficients `(0, A, 0, 1, 0)`, the twisted Edwards addition with its completeness, and the map between the two forms, proved to be a homomorphism away from the point of order two. `Core/Jubjub.lean` shows that Jubjub's parameters meet the conditions. The code's Montgomery addition assumes `B = 1`. `to_twisted_edwards` of the algebra library and the square root are external.
* **C95 r1cs conditional addition** - same model. The full statement is false.
* **C96 windowed multiplication** - `Model/R1csPedersen.lean`: tables, windows, the chain of Montgomery adders in a segment, the converters, the chain of twisted Edwards adders; constraints and assignment. Specification in `Core/Pedersen.lean` (the formula of the Zcash protocol). Base points are arguments (`get_base_points` hashes to the group); points are elements of Mathlib's group. The proof carries the multiplier of the current segment through the adders and bounds it, so that sums and differences are small nonzero multiples of a point of order r. Example on a curve over 523 elements with a subgroup of order 71.
* **C97 Pedersen padding** - same model (`padBit`, `padWindows`). The full statement is false; see below.
* **C98 Pedersen collisions** - the digits to base 16 are determined by the multiplier, the multiplier by the point, the point by its twisted Edwards form.
* **C99 Pedersen input bits** - `Props/R1csPedersenBits.lean`: the window lookup is a bilinear interpolation of the table; a polynomial of degree at most 5 gives a value of the first variable for which the other two can be solved. All other constraints of the multiplication are shown to be unaffected.
* **C100 voting** - `Model/R1csVoting.lean` on top of the Merkle tree read, over arbitrary hash components for blocks of any length (`AnyLaw`: soundness, locality of the constraints, straight-line assignment, completeness). The address needs no hypothesis (`sel_any`: if input, left and right digest are bits, a selector that is not a bit forces left = right). Example with a toy hash over the field of five elements.
* **C101 serial numbers** - same model. The full statement is false; see below.
* **C102 bytecode layout** - `Model/ZkevmBytecode.lean`, `Props/ZkevmBytecode.lean`: all constraints of the gate as one predicate per row (`sat_iff`), then induction along the rows of a contract. Spec: `horner`, `immediates`, a `Segment` of tags.
* **C103 opcode flags** - the push counter is followed through the rows as an integer; the spec `IsCode` is the EVM parse by recursion over the position.
* **C104 bytecode completeness** - `Props/ZkevmBytecodeRun.lean`: honest rows are chained (`Chained`), each adjacent pair meets the constraints; the dynamic table is the set of tuples at the rows of the component.
* **C105 lookup logic** - `Props/LookupLogic.lean`: one row, one lookup; both components through one theorem over the table.
* **C106 circuit proxy** - `Model/Proxy.lean` on top of the circuit container of C01: state machine with a prover id per command; one invariant (`GInv`) for gates and lookups, an owner list for copy constraints.
* **C107 provers' checks** - the six argument `is_satisfied` over index sets, `isSatisfied_eq_on` ties it to the check of C01; equivalence through the recorded obligations of C01. The table of which the selectors are read is a parameter, because the code reads those of the proxy object.
* **C108 proxies hand out** - same state machine with the counters and storages the proxy has of its own.
* **C109 assignment proxy** - refinement to the state machine of C01 with the prover ids forgotten.
* **C110 sha256 calculate** - `Model/Sha256Full.lean`; the spec is SHA-256 with padding on bit lists (`Core/Sha256Hash.lean`); the component hashes one full block and the fixed padding block.
* **C111 sha256 component** - the two decompositions (C79) and two calls of sha256_process composed over row frames (`chain`), then the packing gate. The states of the intermediate tables are related by `Sha256.Same`.
* **C112 double-and-add step** - `Model/EdMul.lean`; the group is `TEd.Point` of `Core/EdGroup.lean` (twisted Edwards curves form a group, proved there by explicit polynomial cofactors, `AddCommGroup`). The theorem composes C69, C70, C71 (`dbl_sound_copies`).
* **C113 variable base multiplication** - the prefix of the circuit with `m` steps holds `(k >> (252-m)) T` (`prefix_sound`, induction on `m`); completeness by the same induction over row frames (`prefix_complete`), using that the obligations of a part only concern its rows, inputs and constants (`*_stable`). Not modelled: `bits_amount < 253`, where `bits.output[i]` is read out of range.
* **C114, C115, C116 mocked components** - `Model/Mocked.lean`, `Props/Mocked.lean`. The specification is the relation `Exact` on integers (functional: `exact_unique`) and the representations `Pair`, `Signed`, `Triple`. The multiprecision types are modelled by their documented behaviour (modular wrap-around, unchecked sign and magnitude, bitwise and on two's complement).
* **C117, C118, C119, C120 extension fields in R1CS** - `Model/R1csExt.lean`, `Props/R1csExt.lean`. An element is a vector of variables or linear combinations; all towers are `F[W]/(W^n - beta)`. The specification `school n beta` is the product coefficient by coefficient, and `school_ring` ties it to any ring with `W^n = beta`. Cached values of linear combinations (`evaluate`) are not modelled separately: a linear combination has the value of its terms. Not modelled: the value types of the algebra library, whose products are taken to be products.
* **C121 exponentiation in extension fields** - `Model/R1csExp.lean`, `Props/R1csExp.lean`. Generic over sound multiplication and squaring gadgets; the specification is the power in `F[X]/(X^n - beta)`, whose coefficients are unique (`toRing_inj`). `find_wnaf` is a library function and modelled from its definition; `naf_value` states what is used of it. `generate_assignments` is not modelled.
* **C122 SHA-512 block calculation** - `Core/Sha512Spec.lean` (FIPS 180-4), `Model/Sha512.lean`, `Props/Sha512Calc.lean`. The split into chunks, the spread values, the reversed values and the sums are shown equal to the bit functions; the digest of `abc` is checked as a case.
* **C123 SHA-512 block completeness** - `Props/Sha512Gates.lean` (the gates as equations), `Props/Sha512Complete.lean`.
* **C124 SHA-512 block soundness** - `Props/Sha512Forge.lean`: the forged table.
* **C125 SHA-512 completeness** - `Model/Sha512Full.lean` (layout and gates read off the code mechanically), `Core/Sha512Hash.lean` (padding of FIPS 180-4, numbers from words), `Props/Sha512Pack.lean` (cells, equations, the string as one number), `Props/Sha512Full.lean`. The digest is stated with the string as a single number, independent of the shifts in the code.
* **C126 SHA-512 soundness** - `Props/Sha512Full.lean`: each limb is put into its first chunk, then both blocks are forged.
* **C127 SHA-512 word cutting** - `Props/Sha512Full.lean`.
* **C128 SHA-512 padding** - `Core/Sha512Hash.lean`, `Props/Sha512Full.lean`.
* **C129 combined inner product** - `Model/CombinedInnerProduct.lean`, `Props/CombinedInnerProduct.lean`. Induction over the rows; the specification is a Finset sum. `k`, the fields and the tables are arbitrary.
* **C130 forged combined inner product** - same files: the table is rebuilt with an arbitrary value in the first padding cell.
* **C131 knapsack coefficients** - `Model/R1csKnapsack.lean`, `Props/R1csKnapsack.lean`: invariant of the static vector over all sequences of calls. The seeded generator is a parameter.
* **C132 knapsack, field output** - same files; iff with a Finset sum as specification.
* **C133 knapsack, bit output** - same files; iff, restricted soundness, refutation, completeness.
* **C134 Merkle update, soundness** - `Model/R1csUpdate.lean`, `Props/R1csUpdate.lean`: both trees with the hash component a parameter with a law, by induction over the layers.
* **C135 Merkle update, completeness** - same files; frame argument for the whole assignment: no sibling is written. The general positive statement is missing.
* **C136 - C140 kimchi components, scalar side** - `Model/KimchiProg.lean` is a deep embedding: a component is a list of calls of the arithmetic components, each on the rows after the previous one, with constants, wires and outputs as in the code. `Props/KimchiProg.lean` proves a program logic once: triples `Tri` whose rules give soundness (every satisfying table) and completeness (the assignment satisfies, frame) together from the theorems on the arithmetic components; `Model/Kimchi.lean` has the components, `Props/Kimchi.lean` their triples, `Props/KimchiMain.lean` the statements on tables.
* **C141 rows** - `Props/KimchiRows.lean`, a second logic `Place` for row offsets; non-vacuity examples for C136 - C140 are at the end of the file.
* **C142 rpn_expression** - Model/KimchiFt (`rpnStep`, `rpnRun`, `rpnExpr` in the kimchi call framework), Props/KimchiFt (value machine `Tok.run`, expressions `Ex`, `toks_run` by induction over the expression, `rpnStep_tri` per token), Props/KimchiFtMain (tables, rows, examples).
* **C143 ft_eval** - same files: triples for the four parts, `ftAt` is the formula of the Rust verifier. Partial, see below.
* **C144 oracles_cip** - Model/OraclesCip on top of the combined inner product (C129); `wanted` is the list of the Rust verifier. Partial, see below.
* **C145 to_limbs** - Model/Limbs (`ToLimbs.circuit`, `assign`), Props/Limbs: soundness from the range checks (C17) and the carries of the comparison with the modulus; completeness by the frame of each call.
* **C146 from_limbs** - same files (`FromLimbs`).
* **C147 compare_with_const** - Model/KimchiCompare (every row is one `Step`, a call with an optional cell filled before), Props/KimchiCompare: `run_ok` for arbitrary fillings, `Cells` gives all cells in terms of the free ones. Partial, see below.
* **C148 digest** - same files. Partial, see below.
* **C149 kimchi_sponge, C150 transcripts, C151 random** - `Model/KimchiSponge.lean`, `Props/KimchiSponge.lean`. The objects of the code (counter, flag, state variables, last limbs) are functions from an action and a row to a list of component calls; the constraints are those of the called components (addition C01, poseidon, to_limbs C145, from_limbs C146). Soundness: a relation between the object and a value-level sponge is kept by every action, then the step-by-step sponge is shown equal to a description by blocks. Completeness: calls one below the other with settled operands; obligations of earlier calls read only earlier rows.
* **C152 to_group** - `Model/KimchiGroup.lean`, `Props/KimchiGroup.lean`. The 65 calls as a list; constraints are those of addition, subtraction, multiplication and division_or_zero (C01-C04); the call for a root multiplies `y(0,row)` by itself, the value written there is a parameter of the assignment. Specification: the Shallue-van de Woestijne candidates as formulas and the curve equation. Proof: values of all calls from the soundness of the parts; the product of the three right sides is a square (field identity), so one of them is (quadratic character).
* **C153 prepare_scalars, C154 map_fq/map_fr, C155 table_commitment** - `Model/KimchiPrep.lean`, `Props/KimchiPrep.lean`. prepare_scalars by induction on the list of scalars over the calls of C152's framework. map_fq and map_fr: the list of constraints is empty, so the claim is refuted. table_commitment: the two arrays as a buffer whose writes fail past the end; the multi scalar multiplication itself is not modelled.
* **C156 Benes, C157 AS-Waksman** - `Model/R1csRouting.lean`, `Props/R1csRouting.lean`. The topology comes from crypto3 and is a parameter: for Benes nothing is assumed for soundness but that edges end inside; for AS-Waksman that straight edges are injective and the second row of a switch has the edges of the first exchanged; the sharing of variables along straight edges, done by the constructor, is a hypothesis. Specification: a permutation of the packets' bits. Proof: column by column, each packet is found in the next; distinct packets make the map injective; with a shared switch bit the column is a product of disjoint exchanges. `Props/R1csRoutingComplete.lean`: the honest assignment of Benes, as writes in program order, is accepted for every routing whose two rows of a switch agree; `generate_assignments` of AS-Waksman is not modelled.
* **C158 prepare_scalars_inversion** - `Model/KimchiPrep.lean`, `Props/KimchiPrep.lean`, from C153.
* **C159 G1 in r1cs, C160 multi scalar multiplication** - `Core/Weierstrass.lean`, `Model/R1csWeier.lean`, `Props/R1csWeier.lean`. Specification: the group `WeierstrassCurve.Affine.Point` of Mathlib. The adder's fourth constraint forces the abscissas to differ, the doubler's slope constraint excludes points of order two because the point is not singular. Multiplication by induction over the doublings and the rounds; completeness through the straight-line assignment framework of `Props/R1csRun.lean`, the caller's variables allocated before the component's.
* **C161 final exponentiation, C162 result_is_one** - `Model/R1csFinalExp.lean`, `Props/R1csFinalExp.lean`, on top of C117-C121. The elements are arbitrary (their allocation is not modelled). Frobenius constants are library tables, modelled from their definition `nr^((q^m-1)/d)`. Specification: powers of a unit in `(ZMod q)[X]/(X^n - beta)`. The Frobenius map is the `q`-th power by the additivity of it in characteristic `q`; from `x^(q^n) = x` the base of the exponentiations has order dividing `q^2+1` or `q^2-q+1`, which is what the cyclotomic squarings need, and all intermediate powers too.
* **C163 precomputation of G2, C164 Miller loop, C165 points of G2** - `Model/R1csMiller.lean`, `Props/R1csMiller.lean`, on top of C117-C121. The components of Fqe and Fqk are parameters with a soundness hypothesis, discharged for Fp4 over Fp2. Specification: the group of the twist over any field `K` with `V^(2m) = beta` (Mathlib's group law), and the textbook loop `millerRef` with divisions, whose lines are those of the twist at `(px V^2, py V^3)`, times `V`. Proved by induction over the chain of steps: that the slopes are those of tangents and chords follows from the constraints and the group law; that the chain ends in the loop count from the digits. The assignment and the branches for constant points are not modelled; products of Miller loops see C166.
* **C166 products of Miller loops, C167 pairing checks** - `Model/R1csPairing.lean`, `Props/R1csPairing.lean`, on top of C161-C164. One model with a list of pairs in the numerator covers both components. Specification: the reference loop `millerRef` of C164 for each pair, and the pairing as its power with the exponent of C161, in any field `K` with `V^4 = beta`. Proved by induction over the steps with the invariant `f D = N_1 ... N_n` for all accumulators, so that no line need be non-zero; the ring of C161 is mapped to `K`. The hypotheses are met by two different pairs with equal pairings over the algebraic closure of the field with 13 elements (`pairAt_good`, `checkP_equal`).
* **C168 set commitment accumulator, C169 set membership component** - `Model/SetCommitment.lean`, `Props/SetCommitment.lean`. The hash is a parameter, the tree of the other library is the textbook one with zero digests as unset leaves, `ceil(log2)` is `Nat.clog 2`. C168 by an invariant over histories; binding by induction down the layers, with the two colliding blocks exhibited rather than an injective hash assumed (there is none). C169 is the composition of any lawful hash component with the authentication path of C93 and the two membership theorems; the example has three-bit digests over the field with five elements.
* **C170 fixed_base_multiplication, C171 EdDSA verification** - `Model/EdFixed.lean`, `Props/EdFixed.lean`. The circuit is the range component of C83 (`ScalarRange`) and eleven complete additions (`EdCurve`) of points in single rows. Soundness by induction over the additions in the group of the curve; completeness for *any* twelve points by induction with the frame of each step, of which both the honest table and the forged one are instances. The multiples of the base point are a parameter of the assignment. The files are written for an older interface of the sub-components and cannot be compiled as they are (`componentsar_ec_point {`, fixed_base_multiplication.hpp:79-80); the sub-components are taken to be the present ones.
* **C172 variable_base_endo_scalar_mul** - `Model/EndoMul.lean`, `Props/EndoMul.lean`. Multiplication (C09) and two unified additions (C34) for `2 (T + T')`, then 32 rows of two steps each. Soundness by induction over the 64 steps in the group of the curve, each step being chord and tangent (`VarBaseStep`) if the abscissa changes. `place_accepted` says that every sequence of points that satisfies the equations of the steps is accepted; the forged tables and the right one are instances. `phi T` is the point with abscissa `endo x`; that it is a multiple of `T` is not used. The concrete cases are on the curve `y^2 = x^3 + 3` over the field of seven elements. `honest_cells`: points, slopes, bits and output that `generate_assignments` leaves in the rows are those of the computation.
* **C173 ec_point** - `Model/EdPoint.lean`, `Props/EdPoint.lean`. Two range checks, five multiplications, two additions as a program (see C70) and four copy constraints between the results of the additions. `cells_spec` has the equation with arbitrary numbers in place of the constants; the curve and the case without constants are instances. The component has the old interface and its calls are taken to be the present sub-components. Missing for the full claim: other columns than the first ones, and the widths of chunks, which the circuit does not check.
* **C174 table generators of sha256** - `Model/ShaTables.lean`, `Props/ShaTables.lean`. State: the set and the loop variable of each thread; `Step` is one pass of any unfinished thread. `run_inv` says which pairs are there after any number of passes, `done_mem` and `covered` which are there in the end. `iter4_sub`, `iter7_sub`: the pairs of every word have the form of the specification (from the digit lemmas of C80/C81); `iter4_sup`, `iter7_sup`: a word below 2^30 for given digits. `table4_lookup` and `table7_lookup` connect this to `reverse4Table` and `reverse7Table` of C81, so these two tables are no longer only a description of the files. Trusted: mutual exclusion of the lock, `cached_pow` returns the power, files are the printed sets.
* **C175 zkEVM opcodes** - `Model/ZkevmOpcodes.lean`, `Props/ZkevmOpcodes.lean`. The `bimap` is a list with the rule of `insert`; `searches_inverse` is an induction over the insertions. The table of 149 pairs is evaluated once (`table_inserted`) and compared with the intervals of EVM bytes. The selector is the one of C35 with `get_opcodes_amount()` options. `names_evm` compares names and bytes with the runs of the EVM tables (`evmNames`). Missing for the full claim: it is false for rows.
* **C176 zkEVM stack** - `Model/ZkevmStack.lean`, `Props/ZkevmStack.lean`. The stack is a list; `assign` follows the pops and pushes of `generate_assignments` and keeps the words put in the rows (their cells are in C37-C40). `evm` is the specification of single opcodes, over numbers. `run_same` is an induction over the sequence. Missing for the full claim: it is false.

## Where the code disagrees with the claims

Each entry is proved as a theorem (name in brackets) over the model of the code as it is; the claim that survives is the `_partial` theorem or the exact acceptance condition listed in `MANIFEST.json`.

* mul_by_constant writes its constant to column C(0) but its gate reads constant column 0 [`mulByConstant_unsound`]. range_check does the same with zero [`rangeCheck_unsound_other_constant_column`]; everything built on range_check and bit_builder inherits it, hence the hypothesis "constant column 0" of C17 to C27.
* Lookup gate ids of a zero tuple collide across tables, so the second lookup is dropped [`lookup_dropped`]. One-constraint and list overloads of add_gate give the same gate two ids [`single_and_list_get_two_selectors`].
* constant_pow: initial accumulator free, wrong output cell when the digit count is a multiple of the digits per row, constructor assertion fails on powers of four [`constantPow_*`].
* bit_decomposition: the skipped generator's outputs overlap with fewer than nine columns [`bitDecomp_empty_wrong_narrow`].
* comparison_checked: the larger operand is never decomposed; odd sizes keep a spare bit [`comparisonChecked_refuted_*`]. comparison_flag: the first-chunk gate reads a free column for even widths [`comparisonFlag_refuted`].
* division_remainder: r = y and negative r are accepted [`divRem_refuted_*`].
* exponentiation: exponents alias modulo the field; sixth witness column hard-wired to table column 5 [`exponentiation_refuted_large`, `exponentiation_incomplete_layout`]. sqrt: the non-residue certificate is forgeable [`sqrt_refuted`].
* fri_array_swap leaves the control unconstrained [`friArraySwap_control_unchecked`].
* state_selector never calls generate_copy_constraints [`stateSelector_input_unlinked`].
* zkEVM opcodes do not range-check the 16-bit chunks [`iszero_refuted_unranged`]; DIV enforces only q != b, modulo 2^256 [`div_refuted_any`].
* Component stretcher: reported rows ignore the packing [`stretch_rows_refuted`]; inner generate_circuit gets unconverted inputs [`stretch_refuted_input`]; constants both gate-read and copy-constrained go astray [`stretch_refuted_const`]; free-constant scan out of bounds [`stretch_scan_oob`].
* Connectedness check ignores the column of a constant [`zones_refuted`].
* Non-native policy: signed integers come back non-positive [`signed_roundtrip_refuted`], 256-bit integers lose their top bit over 255-bit native integers [`uint256_roundtrip_refuted`]; Pallas scalars are read from raw storage [`pallasScalar_roundtrip_raw`].
* Constant batching overwrites constants read by gates at offset 0 [`gate_cell_refuted`] and writes out of range for offset -1 [`negative_rotation_undefined`].
* Non-native curve25519 arithmetic: the widths of the chunks are constrained nowhere in the components (the tests do not add lookups), which leaves three of four output limbs free [`add_undetermined`, `sub_undetermined`, `mul_undetermined`]; even with them the overflow flag is not tied to the lowest chunk, so unreduced results are accepted [`add_noncanonical`]; subtraction cannot be assigned when the low limbs borrow by more than `2^66 - 19` [`sub_refuted`]; addition and subtraction read table columns 0 to 3 instead of their own [`add_columns_refuted`].
* Manifests: misaligned ranges of equal step [`intersect_refuted_aligned`], non-empty ranges reported unsatisfiable [`isSat_refuted`, met by `pow_factor` for powers below six], wrong maximum [`maxValue_refuted`], subtraction losing an amount [`subtract_refuted`], inverted non-strict check of sets [`checkLoose_refuted`], dereferenced end iterator [`merge_oob`], `set_max_witness_amount` off by one [`setMax_refuted`].
* flexible Poseidon enables selector `i` (line 331) rather than the selector returned by add_gate: after one other gate, with 168 columns, no Poseidon constraint is enforced and any value passes for the hash [`Poseidon.Flex.flexPoseidon_refuted`]. Not modelled: the Pallas literals carry the suffix `_cppui_modular253` although some have 254 bits; what this does depends on the multiprecision library, which is not in the repository.
* permutation verifier with one permuted column: rows 0..m-1 hold theta1 and theta2 in turn, so with m = 1 theta2 is never copied and the first gate takes L0 for it; the gate for odd m also reads the row before the component [`PermVerifier.perm_one_unsound`, `PermVerifier.perm_one_incomplete`].
* f3_loop with a width of 8 or 12: line 233 pushes `constraint_2` where `constraint_` is meant, so sums in columns 7, 11 are not constrained: any value is accepted [`F3Loop.f3_unsound`], and the gate of the first column group is enabled on the first row too, where it reads the row before the component [`F3Loop.f3_bad_complete_iff`].
* f3_loop that fits on one row (4m <= width): the loop for the last row does not skip column 3 of row 0 (lines 354-357, 368-372, 387-395), so the honest table is rejected unless the last column is zero on the row before [`F3Loop.f3_complete_partial`].
* **C64 lookup_verifier (placeholder/lookup_argument_verifier.hpp)**: for widths 8, 12, ... the fourth output is not determined by the inputs (`LookupVerifier.verifier_unsound`: any `v * L0` is accepted), because the cell with the sum of f3_loop is not constrained. For other widths the honest proof relies on the last column being zero on the row before f3_loop, which nothing enforces or assigns.
* **C65 expression evaluation**: `expression_evaluation_component` passes `generate_assignment_call` where `add_input_to_batch` expects `called_from_generate_circuit`. So `generate_circuit` computes the values and `generate_assignments` never does. `assign_nothing`: after assignment calls alone, no result has a value and the storage is all zeros; `assign_incomplete`: a copy constraint of x0 x1 x2 then fails. `stale_incomplete`: values computed while the circuit is generated are kept if the inputs change afterwards.
* **C67 fri_cosets**: the copy constraints for `omega` and for the zeros name constant column 0 (325, 336, 342-347) but the values are written to `C(0)` (515-516). With `C(0)` not 0, for every `omega'` there is an accepted table with the cosets of `omega'` (`cosets_any_omega`). `remaining_bits` (72, 102, 332, 494) and `rows_amount_internal` (87) subtract without a check and wrap when the transition row has room for more bits than are left; the theorems assume they do not.
* **C68 endo_scalar**: `n`, `a`, `b` of the first row (written as 0, 2, 2 at 237-239) are neither constants nor copy constrained (346-366 link only rows 1 to 7 and the last `n`). For every scalar and every value there is an accepted table with this value as output (`endo_unsound`). `rows_amount` is 8 whatever `scalar_size` is: with fewer than 128 bits the honest table is rejected (`endo_short_rejected`).
* **C71 doubling**: doubling.hpp:514-518 compares `W(3+i)` of the result rows of `t5` and `t10`; the results of addition are in `W(i)`. Limbs 1 and 2 are free: `dbl_unsound`.
* **C72 flexible_x_index**: three gaps. The sign bit is not constrained to be 0 or 1 (`-omega` is accepted for every honest x); `W(0)` of the first row is not constrained to 1, which makes both signs acceptable; rows_amount counts n blocks where n + 1 are needed, so when (w-1)/2 divides n the last block with the copy of x is missing and every x is accepted.
* **C73 flexible_colinear_checks**: the body of generate_copy_constraints is commented out and the gate skips block 0, so the component checks nothing about its inputs: rows of zeros satisfy it for every input. rows_amount is five times too large. The placeholder verifier uses the component, so FRI folding is not checked there.
* **C76 plonk_flexible_verifier**: the verdict depends on one challenge and the Merkle openings only. `merkle_tree_positions` are arbitrary bits, colinearity is not checked, the first root is absorbed but never opened, the evaluations and the final polynomial are not inputs of any constraint: `verifier_accepts_iff`.
* **C77 variable_base_scalar_mul**: (1) `generate_copy_constraints` never copies the input point `T` into columns W0, W1: the base point of the 255 steps is free (`pallas_base_free`). (2) the loop 818-821 that chains the chunks of `aux` stops one pair short, W14 of row 100 is not copied to W6 of row 101: the range check is void and on Vesta the scalar may be decomposed as `b + p` (`vesta_alias`). (3) for the neutral point every output is accepted (`pallas_neutral_any`), even with the missing copies. (4) line 802-803 addresses the constant column by `component.W(0)`, not `component.C(0)`.
* **C78 variable_base_scalar_mul**: on Vesta no table exists for the scalars `t_p - 1`, `t_p` and `(2^254 + 3 t_p - 1)/2`, which the special cases for -1, 0, 1 should have covered: the constants `shifted_*` of Vesta are those of another representation (`vesta_incomplete`).
* **C79 decomposition**: the limbs in the first and third row are not range checked, so the output words are arbitrary field elements with the right linear combination, for example the whole input as lowest word: `decomposition_unsound`. The source carries a comment that the copy constraints `might not be sufficient`.
* **C81 sha256 circuit**: (a) the cells holding d, h and the message word of a round (W1, W2, W3 at row 3) are in no copy constraint, and the cells of round 0 are not tied to the input state, so the output does not depend on the message at all; `sha256_any_output` gives an accepted table for every output. (b) the Sigma1 gate looks up `e1 * 256` where `e0 * 256` is needed (line 915), so chunk 0 of e is bounded by 2^14 instead of 2^6. (c) the Ch gate bounds the last limb of the new e by 2^14, not 2^4. (d) the sums of the last step have a carry bit but no range check. (e) the final a and e are not tied to the last round.
* **C82 reduction**: (a) none of the limbs of the remainder, the quotient and `v` is range checked, so every output is accepted for every input. (b) With range checks the remainder would still only be bounded by 2^253, not by `L` (the code has a comment saying this is to be done, 220-224; `s_r` only compares the limb sum with its maximum), so for example `2^255 - 6 L` is accepted for `2^255`. (c) The mask at 233-235 is built with `+` binding tighter than `&`; `dMask_eq` shows that the value is nevertheless the low 73 bits.
* **C83 scalar range**: the component checks nothing. No limb is range checked and there are no lookups; every scalar is accepted by a table that has the scalar in the lowest limb. The must-fail tests pass only because the honest assignment computes `k + d` modulo 2^253. With 22-bit checks on the limbs the highest limbs would still reach 2^264, so the check would still accept everything.
* **C85 r1cs comparison**: the component relies on both inputs having `n` bits and does not check it; with an input out of range it accepts a wrong order (`comparison_needs_bound`). This is the documented libsnark convention and is recorded as a precondition.
* **C88 field_to_bits_strict**: the result of the comparison with the modulus is never constrained (the last product is computed and dropped), and the table for a zero bit of the modulus is inverted (`{0, 1}` maps `equal` to 0 and `greater` to 1, contrary to the comment). The component accepts both decompositions of every element below `2^n - p`.
* **C91 sha256_hash_component**: for a message length of 448 modulo 512 the padding length is reduced to 0 (`hash_io.hpp:146-147`), the bit 1 is not appended and the message is hashed in one block less than the standard requires. The result is not SHA-256 of the message (`hash_counterexample`: 448 zero bits).
* **C92 hmac_component**: inherits the padding error of C91: for messages of a length of 448 modulo 512 the output is not HMAC (`hmac_counterexample`: empty key, 448 zero bits).
* **C93 merkle_tree_check_read_component, merkle_proof_validate**: the computed root and the root are compared in chunks of `FieldType::number_bits` bits packed into field elements (`check_read.hpp:131`, `validate.hpp:125`). Chunks of that size do not fit: digests that differ by the modulus in a chunk are equal. `read_wrong_root`: an accepted read whose root is not the root of the path. `check_update.hpp` uses `value_bits - 1`.
* **C95 element_g1_conditional_addition** (`twisted_edwards/element_g1.hpp:316-431`, marked `TODO: fixme`): the gates and the assignment of the addition are commented out, so that the result is not constrained at all and not assigned. `condAdd_result_free`.
* **C97 pad_input** (`fixed_base_mul_zcash.hpp:214-230`): the padding bits are fresh variables whose value is set to 0 in the constructor and which occur in no constraint that fixes them. If the input length is not a multiple of 3, a prover can choose them and gets different hashes of the same input, all accepted. `padding_unconstrained`. The hash of 256-bit digests (256 mod 3 = 1) is concerned.
* **C99 pedersen** (`pedersen.hpp:209-211` has a TODO, `fixed_base_mul_zcash.hpp:261-294`): nothing makes the input variables bits, and every window has accepted inputs outside of {0, 1} with the same point (`input_not_bits`). In the voting component the secret key is hashed twice, at different offsets of the windows, and its variables are constrained nowhere: a prover can keep the public key and change the serial number.
* **C101 encrypted_input_voting** (`encrypted_input_voting.hpp:95`): computed and given serial number are compared in chunks of `number_bits` bits packed into field elements, so that a serial number and the serial number plus the modulus are both accepted: `vote_other_sn`, `double_vote`. The digest of `pedersen` has `value_bits` bits and is itself only determined modulo p (C88).
* **C102 bytecode** (`bytecode.hpp:473-491`): a header with length l directly followed by another header is accepted for every l (`empty_contract_any_length`). The lookup of the hash into a Keccak table is commented out and the copy constraints to the inputs are a TODO, so that hash and bytes are only tied through the prover.
* **C103 bytecode** (`bytecode.hpp:473-491`): nothing bounds the push counter from below. After any opcode row the prover may declare the following bytes data, the counter running through 0, -1, -2, ... (`flags_not_forced`: `STOP ADD` with `ADD` declared data). Conversely a contract with a byte outside of the opcode table at an instruction position, such as 0x0c, has no accepted table, though such contracts exist on chain (`undefined_first_byte_rejected`).
* **C104 bytecode** (`bytecode.hpp:412-514`): the first row need not be a header; a byte row with any index, value and hash that belongs to no contract is accepted and enters the dynamic table (`orphan_byte`).
* **C104 bytecode_table_tester** (`bytecode.hpp:766`): enables `selector_above` where `selector_aside` is meant; the columns beside the table are never looked up (`tester_aside_unchecked`).
* **zkevm_opcodes** (`lookup_library.hpp`): `get_columns_number` is 1 and `get_rows_number` 256 although the table has three columns and 150 rows (not a claim, seen while modelling).
* **C106 circuit_proxy::add_copy_constraint** (`circuit_proxy.hpp:204-209`): when the shared circuit drops a constraint (equal variables, private input) the proxy records the last constraint of the circuit instead, possibly one of another prover (`used_copies_of_other`).
* **C107 is_satisfied on proxies** (`satisfiability_check.hpp:118-121`, `146-149`): the selector column is read by a call qualified with the base class, hence from the table inside the proxy object, which has no rows. No gate and no lookup gate is ever checked: `proxyCheck_iff`, `proxyCheck_ignores_gates`. `load_dynamic_lookup` (line 80-82) reads the same way.
* **C108 circuit_proxy, assignment_proxy** (`circuit.hpp:178-182`, `assignment.hpp:577-590`): `get_dynamic_lookup_table_selector`, `register_dynamic_table`, `reserve_dynamic_table`, `define_dynamic_table`, the `add_gate`/`add_lookup_gate` overloads with a selector, and all batching functions are not overridden, so they work on the proxy object. A dynamic table gets a selector that already belongs to a gate (`dynSelector_collides`); batched constants of two provers get the same variable, and finishing the constants of one prover redirects the copy constraints of the other to its cell (`constants_collide`).
* **C109 enable_selector** (`assignment_proxy.hpp:139-146`): the version for ranges does not raise the allocated rows to the end of the range as the one it overrides does (`enableRange_alloc_differs`).
* **C111 sha256** (`sha256.hpp:383-391`): `generate_copy_constraints` is empty. The row of eight words that the packing gate reads is connected to nothing, so every pair of outputs is accepted for every message: `hash_any_output`. The findings about sha256_process and decomposition apply as well. `generate_assignments` (lines 276-306) reads constants that only `generate_circuit` writes, so it must be called after it.
* **C110 sha256::calculate**: inputs of more than 128 bits are hashed modulo 2^128 without an error.
* **C112, C113 result columns** (`variable_base_multiplication_per_bit.hpp:149`, `variable_base_multiplication.hpp:152`): the `result_type` constructors make an instance in the table columns 0 to 8, so for a component in other columns the results (and the connections between the steps) are cells of someone else. The theorems assume `FirstCols`.
* **C113 number of steps** (`variable_base_multiplication.hpp:253, 302`): the loop always uses 253 bits, whatever `bits_amount` is, and takes the bits in the order of `output`, whatever the mode is: `mul_254`, `mul_lsb`. With fewer bits it reads past the end of `output`.
* **C112, C113 doubling**: the missing copy constraints of `doubling.hpp` (C71) make the step and the multiplication unsound: `bit_unsound`, `mul_unsound` give `(0, 1 + 2^66)`, not on the curve, for `k = 0`.
* **C115 sign of 256 bit operands** (`mocked_components.hpp:521-526`): `sign * top * 2^128 + bottom` adds the bottom half of negative numbers; `-1 + 0 = 1`. The operand is read correctly if and only if it is non-negative or its bottom half is zero (`tripleInt_iff`).
* **C115 negative 256 bit results** (`mocked_components.hpp:528-533`): the masks act on two's complement while the sign is returned separately; `0 - 1` comes out as `-(2^256 - 1)`.
* **C115 signed comparisons** (`mocked_components.hpp:563-581`): `int_type` is the unsigned modular type, so negative numbers compare as large ones. The tests do not notice because they multiply an unsigned random number by `-1`.
* **C116 mocked results** (`mocked_components.hpp:285-288` and siblings, `mocked_component_base.hpp:153-163`): result variables are the table columns 0, 1, 2 whatever `W(i)` are; `generate_circuit` adds no constraint.
* **C120 sparse multiplication in Fp6** (`element_fp6_2over3.hpp:313-388`): `v0` is a fresh element (`v0.reset(new underlying_element_type(bp))`) that occurs in one equation only, together with `result.data[1]`; the latter is therefore unconstrained. The two zero coefficients of `B` are only asserted, not constrained.
* **C118 name of the assignment function** (`element_fp4.hpp:396`): `element_fp4_direct_mul` has `generate_r1cs_witness` where every user of the alias `element_fp4_mul` calls `generate_assignments`; the model takes its body. The tests of these files are commented out (`test/CMakeLists.txt:191-199`).
* **C121 division by the base** (`exponentiation.hpp:145-151`): the subtraction step constrains `next * elt = cur`; for `elt = 0` the next value is free, so `0^3` can be anything.
* **C121 exponent 0** (`exponentiation.hpp:110-111`): `intermediate` has length 0 and `intermediate[0]` is written.
* **C123 constant column** (`sha512_process.hpp:393`): the gate of `e` reads `var(component.W(0), 0, true, constant)`, the constant column with the number of the first witness column; the round constants are written to `component.C(0)`.
* **C124 dropped constraint** (`sha512_process.hpp:288-298`): `constraint_3` of the Sigma0 gate is computed and not added to the gate.
* **C124 missing links** (`sha512_process.hpp:880-940`): no copy ties the derived words of the schedule, the schedule words of the rounds, the new `a` and `e`, the spread initial state or the final working variables to the cells that use them; chunks have no range lookups; the output carries are free.
* **C125 raw column numbers** (`sha512.hpp:186-197, 207-216`): the variables given to `sha512_process` in `generate_circuit` name witness columns 0, 2, 4, 6 and constant column 0 by number; `generate_assignments` uses the columns of the component.
* **C127 free cells** (`sha512.hpp:644`, `736-917`): the cell of the padding bit is not constrained to be one and the chunks are not range checked.
* **C128 bit order** (`sha512.hpp:290-296`): the limbs are laid out from the least significant bit of each word and the one after the message is bit 60 counted from there, while FIPS 180-4 counts from the most significant bit; the length 1276 is the only part in the order of the standard.
* **C130 padding pairs** (`combined_inner_product.hpp:185-206`): only the cells of the first `k` pairs are copied from inputs; the gate of the last row adds the remaining up to four pairs, which nothing forces to zero. For `k` not divisible by 5 and `xi` not 0 every output is accepted.
* **C133 second digest** (`knapsack.hpp:207-230`): the digest has as many bits as the modulus and is only compared modulo `p`; the bits of hash + `p` are accepted too when they fit.
* **C131 lengths** (`knapsack.hpp:144-160`): with dimension 1, as in the code, appending zero bits does not change the hash, so `get_hash` on inputs of variable length is not injective for trivial reasons.
* **C135 siblings not copied** (`check_update.hpp:192-197`): if the address bit is 0 the node is on the left, and the code copies the left digest of the previous path to the next one, which the propagator overwrites at once. The sibling, which the constraints (160-168) require to be equal, is on the right and is never copied.
* **C134 members** (`check_update.hpp:166-168`, `193-196`): `left_digests`, `right_digests` are not members of `merkle_proof` (`prove.hpp:53`); the template cannot be instantiated as it is. Modelled with `path[i][0]`, `path[i][1]`.
* **C139 element_powers with n = 1** (`element_powers.hpp:83-85`): `if (n > 0) output[1] = ...` writes past the end of an array of one element; the condition should be `n > 1`. The model has no element 1 in that case.
* **C138 b_poly_coefficients rows** (`b_poly_coefficients.hpp:71`): `rows_amount` is 2^n, one more than the multiplications made; a row stays empty (harmless, C141).
* **C143 ft_eval** (oracles_scalar/ft_eval.hpp:231-236, and the same in generate_assignments): `var ft_eval0 = sub(ft_eval0, public_eval[0])` inside the `if` declares a new variable that is initialised from itself; the outer `ft_eval0` does not change. The evaluation of the public input is not in the result (`ft_wrong`), and an indeterminate variable is read.
* **C144 oracles_cip** (oracles_scalar/oracles_cip.hpp:147-155): all chunks of a challenge polynomial are written to `es[k][i]`, so only the last one is combined, and `cip_size` has one place for each polynomial (`oracles_cip_wrong`, `oracles_cip_ignores`). The generic selector is there only if `ec_arithmetic_gates` is set, the Poseidon selector only with `poseidon_gate`; the Rust verifier always has both.
* **C147 compare_with_const** (kimchi/detail/compare.hpp:335-362, 96-216): `generate_copy_constraints` is never called, so bits are not bits and inverses not inverses; `compare_any_output`. Even with them, `inv_check` is the flag that the decomposition is *not* the value, which a prover can always make true (`compare_one_always`). For value 0, `c = 0 - value = 0` has N bits and so has `2^N - k - 1`, so the output is 0 though 0 is less than the constant (`compare_zero_wrong`).
* **C148 digest** (kimchi/detail/transcript_fq.hpp:253-286): inherits C147: `digest_any`, `digest_large_wrong`.
* **C149 kimchi_sponge** (sponge.hpp:129-146): `init_assignment`/`init_circuit` set the state but not `state_count`, `state_absorbed`: an object used before goes on with the old counter (`reinit_stale`). All callers use new objects.
* **C152 to_group** (to_group.hpp:242-246, 270-273): the comment `// copy constraint` stands where y*y should be copied to the right side of the curve; there is none, so y is free (`toGroup_forged`, `toGroup_any`). (to_group.hpp:413-435): nullifier 2 looks at nullifier 1 only, which is 0 also when candidate 0 was taken; with all three candidates on the curve the result is the sum of candidates 0 and 2, off the curve for t = 0 (`toGroup_zero_off_curve`). (to_group.hpp:332-352): `result_type` ignores `start_row_index` (`toGroup_result_free`). A right side equal to 1 with root -1 is taken for `no root`.
* **C154 map_fq, map_fr** (map_fq.hpp:93-104, 117-122; map_fr.hpp:97-108, 121-126): `generate_copy_constraints` is empty and not called (`map_not_binding`).
* **C155 table_commitment** (table_commitment.hpp:145): the bound of the loop is `commitments.size()`, the number of parts, not the number of columns (`table_out_of_bounds`); `result_type` leaves `output` unset (117-123).
* **C156 Benes, C157 AS-Waksman** (benes.hpp:157-165, 177-183; as_waksman.hpp:191-204): each packet only has to be one of its two neighbours in the next column; nothing requires that every packet of the next column has a source. With equal input packets, an output packet is free (`benes_forged`, `Asw.two_forged`). AS-Waksman's own test (as_waksman.hpp:301-306, both branches of the random choice are zero) routes equal packets.
* **C158 prepare_scalars_inversion** (prepare_scalars_inversion.hpp:157-171): constants and operations are those of prepare_scalars (`inversion_wrong`, `inversion_iff_partial`).
* **C162 result_is_one** (final_exponentiation.hpp:171-183, 305-313): nothing forces the flag to be 1 when the result is 1 (`finalExp4_flag_forged`). Harmless where the caller requires the flag to be 1, wrong for a caller that uses its negation.
* **C161 mnt6** (final_exponentiation.hpp:278-292): `exponentiation_component<...> >` has a closing bracket too many; an instantiation would not compile. The model is of what is meant.
* **C163 addition step** (precomputation.hpp:383-421): no constraint says that `RX - QX` is invertible. If the current multiple equals the summand, `gamma` is free and so is the rest of the precomputation (`addStep_forged`). Needs a point of small order; the components check no order.
* **C164 Miller loop over Fp6** (miller_loop.hpp:343, curves/detail/r1cs/mnt4.hpp:71): `element_fp6_2over3_mul_by_2345` (C120) leaves half of each product free, hence the result of the Miller loop is not determined by the points (`miller6_forged`).
* **C165 points of G2** (element_g2.hpp:138-141): `pair_curve_type::a` and `b` are coefficients of the curve of G1, not of the twist (`g2_coeff_a`, `g2_coeff_b` exist in pairing/detail). If it compiles at all (the constants are elements of Fq), it rejects all points of the twist but those with one abscissa (`g2WellFormed_rejects`).
* **C167 pairing checks** (pairing_checks.hpp:69-86, 117-137): the output can be 0 although the pairings are equal, since the flag of the final exponentiation is only bound in one direction (C162, `checkE4_flag_forged`). A user that asserts output 1 is safe, one that asserts output 0 is not.
* **C168 set_commitment_accumulator** (systems/snark/set_commitment.hpp:75-83): `add` does not compare the number of entries with `max_entries`; the entry after the last leaf is in the set and has a proof that does not lead to the commitment (`capacity_unchecked`).
* **C169 set_commitment_component** (set_commitment_component.hpp:70-71): for `max_entries = 1` the hash of the element is tied to the root whatever `check_successful` is, so that a non-member cannot be assigned (`depth_zero_ignores_flag`); for every other size it can.
* **set_membership_proof_variable** (set_membership_proof_variable.hpp:96-97): `as_r1cs_variable_assignment` passes three arguments to a constructor with two parameters and cannot be instantiated (read, not proved).
* **C170 fixed_base_multiplication** (fixed_base_multiplication.hpp:230-276): the gates and copy constraints of the component are empty, so that neither the first point nor the eleven others are tied to `k_chunks` (which are computed and not used); for every scalar every point is an accepted output (`fixed_forged`).
* **C170 fixed_base_multiplication** (fixed_base_multiplication.hpp:227, 260): the assignment writes one more row than the circuit counts (197-224), hence the two return different cells; those of the circuit are the row of the last point (`circuit_result_wrong`).
* **C171 eddsa verification** (verification.hpp:246-288): the verification equation does not bind `s`: every signature with `s` below the order is accepted (`verify_forged`, `forged_signature`).
* **C172 variable_base_endo_scalar_mul** (variable_base_endo_scalar_mul_15_wires.hpp:183-196 against 358-360, 374-375): the counter is tied to `constant(0)[start_row + 1]`, which holds `endo`; zero is in `constant(0)[start_row]`. The assigned table is rejected for every input (`honest_rejected`).
* **C172 variable_base_endo_scalar_mul** (variable_base_endo_scalar_mul_15_wires.hpp:298-316): both constraints for the next point vanish at `R = -P`, whatever is added. A prover that goes back and forth gets the output `2 (T + phi T)` for every scalar (`endo_forged_any`).
* **C172 variable_base_endo_scalar_mul** (variable_base_endo_scalar_mul_15_wires.hpp:352-357): the copies of the base tie the rows to each other and none of them to `params.T` (`free_base`).
* **C173 ec_point** (ec_point.hpp:125-129 against 168-212): 1, a and d are written to the constant column by `generate_assignments` only; `generate_circuit` reads the column and leaves it as it is. With zeros there the circuit accepts every pair `(x, 0)` (`point_forged`). Other components write their constants in `generate_circuit`.
* **C174 table generators of sha256** (sha_table_generators.hpp:207-208): `static_assert` lets pass 6 threads, with which the last words are not visited (`example` after `table7_lookup`); the tables are complete all the same because every pair comes from a word below 2^30.
* **C175 zkEVM opcodes** (zkevm_circuit.hpp:314, 325-327, 355-356 and 165-172): the selector is made with `get_opcodes_amount()` = 149 options, its options are numbered by `get_opcode_value`, which goes up to 255. Opcodes with bytes from 149 on (SWAP6 to SELFDESTRUCT) run into `BOOST_ASSERT(option < options_amount)` when they are implemented, and no accepted row has their byte (`unselectable`). The bytes 0x0c to 0x0f and others that are no opcode are accepted (`stray_byte`).
* **C176 zkEVM stack** (add_sub.hpp:155-161, mul.hpp:198-200, div.hpp:298-300, iszero.hpp:97-98): the operations put their operands back on the stack (a comment says so); results are not pushed, so a sequence of opcodes is not an execution of a program.

Seen while reading and not modelled: several `get_manifest` functions keep the manifest of their first call in a function-local `static`; bit_builder and comparison manifests declare no constant although C(0) is used.
