{"id": "C01", "title": "Satisfiability check agrees with the recorded constraints", "statement": "After any sequence of circuit-building calls (adding gates, enabling selectors on rows, adding copy constraints), the satisfiability checker accepts a table exactly when every constraint of every added gate evaluates to zero on every row where that gate's selector was enabled and every retained copy constraint relates two equal cells.", "quantifier": "every sequence of building calls and every table content", "why_tests_cant": "A test exercises a fixed circuit and table; equivalence over all call histories and all tables is an induction over the history.", "anchors": ["include/nil/blueprint/utils/satisfiability_check.hpp is_satisfied", "include/nil/blueprint/blueprint/plonk/circuit.hpp add_gate add_copy_constraint", "include/nil/blueprint/blueprint/plonk/assignment.hpp enable_selector"]}
{"id": "C02", "title": "Gate registration reuses a selector for an equal gate and never shares it between different ones", "statement": "Registering a gate returns a selector index; registering the same gate again returns the same index and does not grow the circuit, and any two gates (arithmetic or lookup) or dynamic-table selectors with different identities ever returned by the same circuit have different selector indices.", "quantifier": "every history of add_gate / add_lookup_gate / dynamic-table selector requests", "why_tests_cant": "Needs an invariant over arbitrary call histories mixing three kinds of requests that share one counter.", "anchors": ["include/nil/blueprint/blueprint/plonk/circuit.hpp add_gate add_lookup_gate get_dynamic_lookup_table_selector next_selector_index"]}
{"id": "C03", "title": "Assignment table cells behave like independent variables", "statement": "Reading a witness, constant, public-input or selector cell returns the last value written to that cell, or zero if the cell lies below the column's size but was never written; writing one cell changes no other cell, and the number of allocated rows never decreases and always covers every written witness/constant row and every enabled selector row.", "quantifier": "every sequence of writes and selector enables, every cell", "why_tests_cant": "Column resizing on access and running maxima must be right for every order and every index.", "anchors": ["include/nil/blueprint/blueprint/plonk/assignment.hpp witness constant public_input selector enable_selector allocated_rows"]}
{"id": "C04", "title": "Enabling a selector on a range touches exactly the arithmetic progression of rows", "statement": "Enabling a selector from a first to a last row with a positive step sets exactly the rows first, first+step, ... not exceeding last and leaves every other row and selector unchanged; when last is before first nothing is enabled.", "quantifier": "all first/last/step values and table states", "why_tests_cant": "The loop boundary (inclusive end, step not dividing the length) must hold for every triple.", "anchors": ["include/nil/blueprint/blueprint/plonk/assignment.hpp enable_selector(range)"]}
{"id": "C05", "title": "Copy constraints are dropped only when trivial or private", "statement": "Adding a copy constraint records it unless both sides are the same variable or one side lives in the private storage; constraints already recorded are never changed, so among tables whose variables are all public a table satisfies the recorded list iff it satisfies every requested equality.", "quantifier": "every history of copy-constraint requests", "why_tests_cant": "Needs an induction over the history and over all tables.", "anchors": ["include/nil/blueprint/blueprint/plonk/circuit.hpp add_copy_constraint"]}
{"id": "C06", "title": "Component column indexing is total and cyclic", "statement": "For a component with n>0 witness columns, W(i) is defined for every index i from -n upward and W(i)=W(i mod n), so W(-1) is the last column, and distinct indices in 0..n-1 address distinct columns when the supplied columns are distinct.", "quantifier": "all column lists and all 32-bit indices not below -n", "why_tests_cant": "Quantifies over all layouts and signed indices, including the wrap through unsigned arithmetic.", "anchors": ["include/nil/blueprint/component.hpp plonk_component::W C PI"]}
{"id": "C07", "title": "Field addition component is sound and complete", "statement": "On any table satisfying the component's gate and copy constraints the output cell equals x + y of the input cells; and the table produced by the component's assignment generator satisfies all of those constraints, for every input, without touching any cell outside its own row.", "quantifier": "all fields, inputs, column layouts, start rows and adversarial tables", "why_tests_cant": "The tests place the component once, on the honest table, for a handful of inputs; they never range over all tables a malicious prover could present nor over all column layouts.", "anchors": ["include/nil/blueprint/components/algebra/fields/plonk/addition.hpp generate_circuit generate_assignments result_type"]}
{"id": "C08", "title": "Field subtraction component is sound and complete", "statement": "On any table satisfying the component's gate and copy constraints the output cell equals x - y of the input cells; and the table produced by the component's assignment generator satisfies all of those constraints, for every input, without touching any cell outside its own row.", "quantifier": "all fields, inputs, column layouts, start rows and adversarial tables", "why_tests_cant": "The tests place the component once, on the honest table, for a handful of inputs; they never range over all tables a malicious prover could present nor over all column layouts.", "anchors": ["include/nil/blueprint/components/algebra/fields/plonk/subtraction.hpp generate_circuit generate_assignments result_type"]}
{"id": "C09", "title": "Field multiplication component is sound and complete", "statement": "On any table satisfying the component's gate and copy constraints the output cell equals x * y of the input cells; and the table produced by the component's assignment generator satisfies all of those constraints, for every input, without touching any cell outside its own row.", "quantifier": "all fields, inputs, column layouts, start rows and adversarial tables", "why_tests_cant": "The tests place the component once, on the honest table, for a handful of inputs; they never range over all tables a malicious prover could present nor over all column layouts.", "anchors": ["include/nil/blueprint/components/algebra/fields/plonk/multiplication.hpp generate_circuit generate_assignments result_type"]}
{"id": "C10", "title": "Field division component is sound and complete", "statement": "On any table satisfying the constraints the divisor is non-zero and output times divisor equals dividend; for every non-zero divisor the generated table satisfies the constraints; for a zero divisor no table does.", "quantifier": "all fields, inputs, layouts, tables", "why_tests_cant": "The tests place the component once, on the honest table, for a handful of inputs; they never range over all tables a malicious prover could present nor over all column layouts.", "anchors": ["include/nil/blueprint/components/algebra/fields/plonk/division.hpp"]}
{"id": "C11", "title": "Division-or-zero component returns the quotient or zero", "statement": "On any satisfying table the output is x/y when y is non-zero and 0 when y is zero; the generated table satisfies the constraints for every x and y.", "quantifier": "all fields, inputs, layouts, tables", "why_tests_cant": "The tests place the component once, on the honest table, for a handful of inputs; they never range over all tables a malicious prover could present nor over all column layouts.", "anchors": ["include/nil/blueprint/components/algebra/fields/plonk/division_or_zero.hpp"]}
{"id": "C12", "title": "Multiplication by a constant uses the constant it stored", "statement": "On any table satisfying the component's constraints and holding the constant written by circuit generation, the output equals constant times input - for every choice of constant column the component is given.", "quantifier": "all constants, inputs, column layouts", "why_tests_cant": "The tests place the component once, on the honest table, for a handful of inputs; they never range over all tables a malicious prover could present nor over all column layouts. All tests use constant column 0, where the bug is invisible.", "anchors": ["include/nil/blueprint/components/algebra/fields/plonk/multiplication_by_constant.hpp"]}
{"id": "C13", "title": "Logical AND / OR flag components compute boolean connectives of zero-ness", "statement": "On any satisfying table the AND flag output is 1 if both inputs are non-zero and 0 otherwise, and the OR flag output is 1 if at least one input is non-zero and 0 otherwise; generated tables satisfy the constraints for all inputs, in every supported row/column arrangement.", "quantifier": "all fields, inputs, layouts (1, 2 or 3 row arrangements), tables", "why_tests_cant": "The tests place the component once, on the honest table, for a handful of inputs; they never range over all tables a malicious prover could present nor over all column layouts.", "anchors": ["include/nil/blueprint/components/algebra/fields/plonk/logic_and_flag.hpp", "include/nil/blueprint/components/algebra/fields/plonk/logic_or_flag.hpp"]}
{"id": "C14", "title": "Linear and quadratic interpolation components evaluate the interpolating polynomial", "statement": "On any satisfying table with pairwise distinct nodes the output is the value at x of the unique polynomial of degree at most 1 (2) through the given points; generated tables satisfy the constraints.", "quantifier": "all fields, nodes, values, points, tables", "why_tests_cant": "The tests place the component once, on the honest table, for a handful of inputs; they never range over all tables a malicious prover could present nor over all column layouts.", "anchors": ["include/nil/blueprint/components/algebra/fields/plonk/linear_interpolation.hpp", "include/nil/blueprint/components/algebra/fields/plonk/quadratic_interpolation.hpp"]}
{"id": "C15", "title": "Equality flag component decides equality", "statement": "On any satisfying table the output is 1 iff the inputs are equal (or unequal, in the inequality variant) and 0 otherwise; the generated table always satisfies the constraints.", "quantifier": "all fields, inputs, variants, layouts, tables", "why_tests_cant": "The tests place the component once, on the honest table, for a handful of inputs; they never range over all tables a malicious prover could present nor over all column layouts.", "anchors": ["include/nil/blueprint/components/algebra/fields/plonk/non_native/equality_flag.hpp"]}
{"id": "C16", "title": "Boolean operation components compute their truth tables", "statement": "When the inputs are 0/1, any table satisfying a not/and/or/xor/nand/nor/select component's constraint has the truth-table value in the output cell and the generated table satisfies the constraint; for select this extends to arbitrary field data inputs.", "quantifier": "all fields, boolean inputs, layouts, tables", "why_tests_cant": "The tests place the component once, on the honest table, for a handful of inputs; they never range over all tables a malicious prover could present nor over all column layouts.", "anchors": ["include/nil/blueprint/components/algebra/fields/plonk/non_native/logic_ops.hpp", "include/nil/blueprint/components/algebra/fields/plonk/non_native/detail/boolean_op_component.hpp"]}
{"id": "C17", "title": "Range check accepts exactly the values that fit in the requested number of bits", "statement": "For bit width b with 2^b below the field characteristic, some table with the given input satisfies the range-check constraints iff the input, as an integer, is below 2^b; the honest generated table satisfies them whenever the input is in range.", "quantifier": "all widths b, witness counts, inputs, start rows, tables", "why_tests_cant": "The tests place the component once, on the honest table, for a handful of inputs; they never range over all tables a malicious prover could present nor over all column layouts. Width and layout interact through padding and odd-bit handling.", "anchors": ["include/nil/blueprint/components/algebra/fields/plonk/range_check.hpp"]}
{"id": "C18", "title": "Bit decomposition outputs the unique binary expansion", "statement": "For width b below the field's modulus bit length, any satisfying table has input below 2^b and output cells equal to the input's bits in the requested bit order; the generated table satisfies the constraints for every input below 2^b.", "quantifier": "all widths, bit orders, witness counts, inputs, tables", "why_tests_cant": "The tests place the component once, on the honest table, for a handful of inputs; they never range over all tables a malicious prover could present nor over all column layouts.", "anchors": ["include/nil/blueprint/components/algebra/fields/plonk/non_native/bit_decomposition.hpp", "include/nil/blueprint/components/algebra/fields/plonk/non_native/detail/bit_builder_component.hpp"]}
{"id": "C19", "title": "Bit composition outputs the integer with the given bits", "statement": "Any satisfying table's output is the number whose bits (in the requested order) are the inputs, with inputs forced boolean when bit checking is requested; the generated table satisfies the constraints for boolean inputs.", "quantifier": "all widths, bit orders, witness counts, inputs, tables", "why_tests_cant": "The tests place the component once, on the honest table, for a handful of inputs; they never range over all tables a malicious prover could present nor over all column layouts.", "anchors": ["include/nil/blueprint/components/algebra/fields/plonk/non_native/bit_composition.hpp", "include/nil/blueprint/components/algebra/fields/plonk/non_native/detail/bit_builder_component.hpp"]}
{"id": "C20", "title": "Composition inverts decomposition", "statement": "Decomposing a number below 2^b into bits and composing the bits in the same order gives the number back, and composing any b bits then decomposing gives the bits back.", "quantifier": "all widths, orders, numbers, bit vectors", "why_tests_cant": "Round trip over all widths and values.", "anchors": ["include/nil/blueprint/components/algebra/fields/plonk/non_native/bit_decomposition.hpp calculate", "include/nil/blueprint/components/algebra/fields/plonk/non_native/bit_composition.hpp calculate"]}
{"id": "C21", "title": "Unchecked comparison accepts only correctly ordered inputs", "statement": "For inputs known to be below 2^b, a satisfying table exists iff the inputs stand in the requested order relation (<, <=, >, >=).", "quantifier": "all widths, modes, witness counts, inputs below 2^b, tables", "why_tests_cant": "The tests place the component once, on the honest table, for a handful of inputs; they never range over all tables a malicious prover could present nor over all column layouts.", "anchors": ["include/nil/blueprint/components/algebra/fields/plonk/non_native/comparison_unchecked.hpp"]}
{"id": "C22", "title": "Checked comparison enforces range and order", "statement": "Any satisfying table has both inputs below 2^b and in the requested order relation.", "quantifier": "all widths, modes, witness counts, inputs, tables", "why_tests_cant": "The tests place the component once, on the honest table, for a handful of inputs; they never range over all tables a malicious prover could present nor over all column layouts.", "anchors": ["include/nil/blueprint/components/algebra/fields/plonk/non_native/comparison_checked.hpp"]}
{"id": "C23", "title": "Comparison flag returns the truth value of the comparison", "statement": "Any satisfying table has both inputs below 2^b and output cell 1 if they stand in the requested relation and 0 otherwise.", "quantifier": "all widths, modes, witness counts, inputs, tables", "why_tests_cant": "The tests place the component once, on the honest table, for a handful of inputs; they never range over all tables a malicious prover could present nor over all column layouts.", "anchors": ["include/nil/blueprint/components/algebra/fields/plonk/non_native/comparison_flag.hpp"]}
{"id": "C24", "title": "Division with remainder returns the Euclidean quotient and remainder", "statement": "For inputs below 2^b with non-zero divisor, every satisfying table has quotient = floor(x/y) and remainder = x mod y.", "quantifier": "all widths, inputs, tables", "why_tests_cant": "The tests place the component once, on the honest table, for a handful of inputs; they never range over all tables a malicious prover could present nor over all column layouts.", "anchors": ["include/nil/blueprint/components/algebra/fields/plonk/non_native/division_remainder.hpp"]}
{"id": "C25", "title": "Exponentiation component computes integer powers", "statement": "Any satisfying table's output is base^e, e being the exponent input as an integer; the generated table satisfies the constraints for every base and every exponent below the supported bound.", "quantifier": "all bases, exponents, exponent sizes, witness counts, tables", "why_tests_cant": "The tests place the component once, on the honest table, for a handful of inputs; they never range over all tables a malicious prover could present nor over all column layouts.", "anchors": ["include/nil/blueprint/components/algebra/fields/plonk/exponentiation.hpp"]}
{"id": "C26", "title": "Square root component outputs a square root when one exists", "statement": "Any satisfying table's output x satisfies x^2 = y when y is a quadratic residue or zero, and is -1 otherwise.", "quantifier": "all odd prime fields, inputs, tables", "why_tests_cant": "The tests place the component once, on the honest table, for a handful of inputs; they never range over all tables a malicious prover could present nor over all column layouts.", "anchors": ["include/nil/blueprint/components/algebra/fields/plonk/sqrt.hpp"]}
{"id": "C27", "title": "Bit shift by a constant multiplies or divides by a power of two", "statement": "Any satisfying table's output is x*2^s mod 2^b (left) or floor(x/2^s) (right) for inputs below 2^b; the generated table satisfies the constraints.", "quantifier": "all widths, shifts, modes, inputs, tables", "why_tests_cant": "The tests place the component once, on the honest table, for a handful of inputs; they never range over all tables a malicious prover could present nor over all column layouts.", "anchors": ["include/nil/blueprint/components/algebra/fields/plonk/bit_shift_constant.hpp"]}
{"id": "C28", "title": "Flexible swap component swaps on a boolean control", "statement": "On any satisfying table the control bit is boolean and the outputs are the inputs in order when it is 0 and exchanged when it is 1; the generated table satisfies the constraints for boolean control.", "quantifier": "all fields, inputs, layouts, tables", "why_tests_cant": "The tests place the component once, on the honest table, for a handful of inputs; they never range over all tables a malicious prover could present nor over all column layouts.", "anchors": ["include/nil/blueprint/components/systems/snark/plonk/flexible/swap.hpp"]}
{"id": "C29", "title": "Array addition / multiplication components are element-wise", "statement": "For arrays of any length and any admissible number of columns, on any satisfying table output i equals input a_i combined with input b_i, every i included; generated tables satisfy the constraints.", "quantifier": "all lengths, column counts, inputs, tables", "why_tests_cant": "The tests place the component once, on the honest table, for a handful of inputs; they never range over all tables a malicious prover could present nor over all column layouts. Packing several elements per row has boundary cases in length and width.", "anchors": ["include/nil/blueprint/components/systems/snark/plonk/flexible/additions.hpp", "include/nil/blueprint/components/systems/snark/plonk/flexible/multiplications.hpp"]}
{"id": "C30", "title": "Constant power component computes x^k", "statement": "For every constant exponent k>=1, any satisfying table's output equals x^k and the generated table satisfies the constraints with that output.", "quantifier": "all exponents, widths, inputs, tables", "why_tests_cant": "The tests place the component once, on the honest table, for a handful of inputs; they never range over all tables a malicious prover could present nor over all column layouts.", "anchors": ["include/nil/blueprint/components/systems/snark/plonk/flexible/constant_pow.hpp"]}
{"id": "C31", "title": "Power-factor component evaluates a polynomial at a point", "statement": "For every number of coefficients and column count, on any satisfying table the output is the evaluation of the coefficient list at the point (Horner order), and generated tables satisfy the constraints.", "quantifier": "all coefficient counts, widths, inputs, tables", "why_tests_cant": "The tests place the component once, on the honest table, for a handful of inputs; they never range over all tables a malicious prover could present nor over all column layouts.", "anchors": ["include/nil/blueprint/components/systems/snark/plonk/flexible/pow_factor.hpp"]}
{"id": "C32", "title": "FRI linear interpolation is the value of the line through (s,y0),(-s,y1)", "statement": "On any satisfying table with s non-zero the output is the value at alpha of the affine function taking y0 at s and y1 at -s.", "quantifier": "all fields of odd characteristic, inputs, tables", "why_tests_cant": "The tests place the component once, on the honest table, for a handful of inputs; they never range over all tables a malicious prover could present nor over all column layouts.", "anchors": ["include/nil/blueprint/components/systems/snark/plonk/placeholder/fri_lin_inter.hpp"]}
{"id": "C33", "title": "FRI array swap permutes each pair by the control bit", "statement": "For arrays of any even length, any admissible column count and boolean control t, on any satisfying table each output pair is the input pair, exchanged iff t is 1; output has exactly the array's length and order.", "quantifier": "all lengths, widths, inputs, tables", "why_tests_cant": "The tests place the component once, on the honest table, for a handful of inputs; they never range over all tables a malicious prover could present nor over all column layouts.", "anchors": ["include/nil/blueprint/components/systems/snark/plonk/placeholder/fri_array_swap.hpp"]}
{"id": "C34", "title": "Unified point addition implements the group law", "statement": "For points of a short Weierstrass curve y^2=x^3+b without points of x-coordinate 0 and without 2-torsion, encoded with (0,0) as the neutral element, any satisfying table's output encodes the sum of the inputs in the curve's group, for all coincidences (equal, opposite, neutral); the generated table satisfies the constraints.", "quantifier": "all fields, all pairs of points, tables", "why_tests_cant": "The tests place the component once, on the honest table, for a handful of inputs; they never range over all tables a malicious prover could present nor over all column layouts. The exceptional cases of the group law are exactly where sampled tests miss.", "anchors": ["include/nil/blueprint/components/algebra/curves/pasta/plonk/unified_addition.hpp"]}
{"id": "C35", "title": "State selector encodes an index one-hot and detects options", "statement": "Any satisfying row of the state selector has index equal to a unique option k below the number of options, and the detection expression for option j is non-zero exactly when j = k.", "quantifier": "all numbers of options, rows, fields of sufficient characteristic", "why_tests_cant": "The tests place the component once, on the honest table, for a handful of inputs; they never range over all tables a malicious prover could present nor over all column layouts.", "anchors": ["include/nil/blueprint/zkevm/state_selector.hpp generate_constraints option_constraint"]}
{"id": "C36", "title": "EVM word chunking is lossless", "statement": "Splitting a 256-bit word into 16 chunks of 16 bits gives chunks below 2^16 whose base-2^16 recombination is the word; splitting a 64-bit value into 4 chunks likewise.", "quantifier": "all words", "why_tests_cant": "2^256 values.", "anchors": ["include/nil/blueprint/zkevm/zkevm_word.hpp zkevm_word_to_field_element chunk_64_to_16"]}
{"id": "C37", "title": "EVM ISZERO gate decides zero-ness", "statement": "With 16-bit chunks, any satisfying row has result 1 iff the word is 0 and 0 otherwise; the generated row satisfies the gate for every word.", "quantifier": "all words, rows", "why_tests_cant": "The tests place the component once, on the honest table, for a handful of inputs; they never range over all tables a malicious prover could present nor over all column layouts.", "anchors": ["include/nil/blueprint/zkevm/operations/iszero.hpp"]}
{"id": "C38", "title": "EVM ADD/SUB gate computes addition modulo 2^256", "statement": "With 16-bit chunks, any rows satisfying the ADD (SUB) constraints have r = a+b mod 2^256 (r + b = a mod 2^256 in the SUB arrangement); generated rows satisfy them for all words.", "quantifier": "all word pairs, carries, rows", "why_tests_cant": "The tests place the component once, on the honest table, for a handful of inputs; they never range over all tables a malicious prover could present nor over all column layouts.", "anchors": ["include/nil/blueprint/zkevm/operations/add_sub.hpp"]}
{"id": "C39", "title": "EVM MUL gate computes multiplication modulo 2^256", "statement": "With 16-bit chunks, any rows satisfying the MUL constraints have r = a*b mod 2^256; generated rows satisfy them for all words.", "quantifier": "all word pairs, carries, rows", "why_tests_cant": "The tests place the component once, on the honest table, for a handful of inputs; they never range over all tables a malicious prover could present nor over all column layouts.", "anchors": ["include/nil/blueprint/zkevm/operations/mul.hpp"]}
{"id": "C40", "title": "EVM DIV gate computes the integer quotient", "statement": "With 16-bit chunks, any rows satisfying the DIV constraints have r = floor(a/b) when b is non-zero and r = 0 when b is zero.", "quantifier": "all word pairs, rows", "why_tests_cant": "The tests place the component once, on the honest table, for a handful of inputs; they never range over all tables a malicious prover could present nor over all column layouts.", "anchors": ["include/nil/blueprint/zkevm/operations/div.hpp"]}
{"id": "C41", "title": "EVM state transition constraints enforce the declared transition", "statement": "For any declared transition (same value, delta, new value, default, any) of pc, stack size, memory size and gas, consecutive rows satisfy the generated constraints iff each component of the next state is what the declaration says.", "quantifier": "all transitions, states", "why_tests_cant": "The tests place the component once, on the honest table, for a handful of inputs; they never range over all tables a malicious prover could present nor over all column layouts.", "anchors": ["include/nil/blueprint/zkevm/state.hpp generate_transition_constraints handle_transition"]}
{"id": "C42", "title": "Gate relocation preserves meaning", "statement": "Renaming the variables of a constraint and evaluating it gives the original constraint evaluated on the renamed table, for every constraint expression.", "quantifier": "all constraint expressions, renamings, tables", "why_tests_cant": "Structural induction over expressions.", "anchors": ["include/nil/blueprint/utils/gate_mover.hpp"]}
{"id": "C43", "title": "Batched component requests are answered with their own results", "statement": "Every request put in a batch gets result variables which, after finalisation, are mapped to the output cells of a component instance whose inputs are the requested ones; equal requests share one instance; unused slots of the last row repeat a real request, so batch gates hold on every generated row.", "quantifier": "all request sequences, all component shapes and batch widths", "why_tests_cant": "Needs induction over the request history with arbitrary packing width.", "anchors": ["include/nil/blueprint/component_batch.hpp add_input finalize_batch"]}
{"id": "C44", "title": "Constant batching gives each constant its own preserved cell", "statement": "After finalising batched constants, each distinct batched constant is stored in its own cell of the constant column, equal constants share a cell, and no constant cell that an existing copy constraint or enabled gate reads is overwritten.", "quantifier": "all circuits, constant sequences, start rows", "why_tests_cant": "The used-cell scan quantifies over gates, rotations and rows.", "anchors": ["include/nil/blueprint/blueprint/plonk/assignment.hpp finalize_constant_batches add_batch_constant_variable"]}
{"id": "C45", "title": "Manifest parameters describe sets of column amounts consistently", "statement": "For single-value, range and set witness-amount parameters, intersection denotes exactly the intersection of the denoted sets, and the strict check accepts exactly the denoted amounts.", "quantifier": "all parameters and amounts", "why_tests_cant": "Ranges with steps intersect through the Chinese remainder theorem; sampled steps do not cover it.", "anchors": ["include/nil/blueprint/manifest.hpp manifest_range_param manifest_set_param manifest_single_value_param intersect check_manifest"]}
{"id": "C46", "title": "Zone packing assigns every zone to a valid column block within twice the optimum", "statement": "For a non-empty list of zones with distinct ids, not all of size zero, and at least one agent, the packing assigns each zone to an agent index below the number of agents and no agent's total exceeds 2L-1, L being the larger of the biggest zone and the rounded-up average.", "quantifier": "all zone lists and agent counts", "why_tests_cant": "Termination/success of the threshold search must hold for all inputs.", "anchors": ["include/nil/blueprint/detail/huang_lu.hpp"]}
{"id": "C47", "title": "A stretched component reports enough rows", "statement": "The number of rows a stretched component reports is at least the number of rows it writes, so the next component placed after it does not overlap it.", "quantifier": "all components and stretch factors", "why_tests_cant": "Depends on packing for arbitrary zone structures.", "anchors": ["include/nil/blueprint/component_stretcher.hpp compute_remapping rows_amount", "include/nil/blueprint/detail/huang_lu.hpp"]}
{"id": "C48", "title": "Non-native chopping and gluing are inverse", "statement": "For each supported non-native field, splitting a value into limbs and recombining returns the value, for every value.", "quantifier": "all values of each non-native field", "why_tests_cant": "2^255 values.", "anchors": ["include/nil/blueprint/basic_non_native_policy.hpp chop_non_native glue_non_native"]}
{"id": "C49", "title": "Non-native Ed25519 addition, subtraction and multiplication agree with field arithmetic", "statement": "Given limbs and intermediate chunks in their declared ranges, any satisfying table has output limbs congruent to the field operation of the inputs modulo 2^255-19; without those ranges being enforced elsewhere the constraints alone do not determine the output.", "quantifier": "all limb values, tables", "why_tests_cant": "The tests place the component once, on the honest table, for a handful of inputs; they never range over all tables a malicious prover could present nor over all column layouts.", "anchors": ["include/nil/blueprint/components/algebra/fields/plonk/non_native/addition.hpp", "include/nil/blueprint/components/algebra/fields/plonk/non_native/subtraction.hpp", "include/nil/blueprint/components/algebra/fields/plonk/non_native/multiplication.hpp", "include/nil/blueprint/components/algebra/fields/plonk/non_native/range.hpp"]}
{"id": "C50", "title": "Connectedness check merges exactly the cells linked by constraints", "statement": "Two cells end up in the same zone iff they are linked by a chain of constraints (copy constraints or enabled gates); the strong check succeeds iff every output and input cell are in one zone.", "quantifier": "all circuits", "why_tests_cant": "Union-find correctness over all merge orders.", "anchors": ["include/nil/blueprint/utils/connectedness_check.hpp"]}
{"id": "C51", "title": "Gate identity ignores the order and the way constraints are written", "statement": "Registering a list of constraints that, as a multiset of polynomials, equals a list registered before returns the selector of the earlier gate and adds no gate, regardless of the order of the constraints, of how each expression is written, and of the random evaluation points drawn at start-up.", "quantifier": "every pair of constraint lists, every history in between, every draw of random values", "why_tests_cant": "Tests fix a few gates and one draw of random values; the claim is about every permutation, every rewriting and every draw.", "anchors": ["include/nil/blueprint/gate_id.hpp gate_id", "include/nil/blueprint/blueprint/plonk/circuit.hpp add_gate"]}
{"id": "C52", "title": "Lookup gates on different tables are never merged", "statement": "Registering a lookup gate that asks for a tuple in one table never returns the selector of a lookup gate that asks for a tuple in a different table, so every recorded lookup obligation is checked against its own table.", "quantifier": "every pair of lookup gates, every draw of random values", "why_tests_cant": "Identity is an evaluation at random points; a test samples some gates and one draw, and misses degenerate tuples on which all draws collide.", "anchors": ["include/nil/blueprint/gate_id.hpp lookup_gate_id", "include/nil/blueprint/blueprint/plonk/circuit.hpp add_lookup_gate"]}
{"id": "C53", "title": "Stretching a component preserves its meaning", "statement": "A table satisfies the circuit of a stretched component exactly when the cells read back through the row and column layout satisfy the component's own gates and copy constraints (inputs included), and laying out a satisfying assignment of the component satisfies the stretched circuit.", "quantifier": "all components (gates over previous/current/next row, selectors, copy constraints, constants), stretch factors, packings and tables", "why_tests_cant": "Tests stretch a handful of components whose inputs are public inputs; the layout depends on arbitrary zone structure and the inputs may be any variables.", "anchors": ["include/nil/blueprint/component_stretcher.hpp generate_zones, compute_remapping, move_var, move_gate_var, move_circuit, move_assignment, generate_circuit"]}
{"id": "C54", "title": "Manifest parameters report satisfiability, maximum, iteration and removal truthfully", "statement": "A witness-amount parameter is reported satisfiable exactly when some amount is allowed, its reported maximum is the largest allowed amount, iterating over it visits exactly the allowed amounts in increasing order, and removing a set of amounts leaves exactly the allowed amounts outside that set.", "quantifier": "all parameters with a positive step and all removed sets", "why_tests_cant": "Boundaries depend on the remainders of start and finish modulo the step; a few sampled ranges cannot settle them.", "anchors": ["include/nil/blueprint/manifest.hpp is_satisfiable subtract max_value_if_sat manifest_param_iterator"]}
{"id": "C55", "title": "Merged manifests never admit too few columns", "statement": "An amount that is large enough for the merge of two manifests is large enough for each of them, the non-strict check accepts exactly the amounts that are at least one allowed amount, and a merged manifest requires constants exactly when one of its parts does.", "quantifier": "all pairs of parameters and all amounts", "why_tests_cant": "Nine combinations of parameter kinds with arbitrary bounds and steps.", "anchors": ["include/nil/blueprint/manifest.hpp merge_with check_manifest_param check_manifest"]}
{"id": "C56", "title": "A program compiled component by component is accepted exactly with its values", "statement": "Take a straight-line program of field additions, subtractions, multiplications and divisions whose operands are public inputs or earlier results, compiled by placing one component per instruction. If the satisfiability check accepts the resulting circuit with some assignment, whatever was written to it, every result cell holds the value of the program on the public inputs and no divisor is zero; and for every program and inputs with no zero divisor, the calls made by a client yield an assignment which the check accepts.", "quantifier": "all programs, all column layouts, all inputs, all assignments (for soundness)", "why_tests_cant": "Tests run single components with an honest assignment; composition over arbitrary programs and dishonest assignments is unbounded.", "anchors": ["include/nil/blueprint/blueprint/plonk/circuit.hpp add_gate add_copy_constraint", "include/nil/blueprint/blueprint/plonk/assignment.hpp enable_selector witness", "include/nil/blueprint/utils/satisfiability_check.hpp is_satisfied", "include/nil/blueprint/components/algebra/fields/plonk/addition.hpp", "include/nil/blueprint/components/algebra/fields/plonk/division.hpp"]}
{"id": "C57", "title": "The Poseidon component computes the Poseidon permutation", "statement": "In every table meeting the obligations of the 15-column Poseidon component, the three result cells hold 55 full rounds (x^7, matrix, round constants) applied to the three inputs; the honest assignment meets the obligations and leaves other rows alone; with the matrices of the code the map is a bijection of the state space over both Pasta base fields.", "quantifier": "all tables, all inputs, all round constants and matrices (bijectivity: the matrices of the code), all column layouts and start rows", "why_tests_cant": "Tests hash a few states with honest assignments; soundness is about all assignments, bijectivity about all of a space of size 2^765.", "anchors": ["include/nil/blueprint/components/hashes/poseidon/plonk/poseidon.hpp generate_circuit generate_assignments generate_gates", "include/nil/blueprint/components/hashes/poseidon/plonk/poseidon_constants.hpp"]}
{"id": "C58", "title": "The flexible Poseidon component computes the permutation for any width and any place in a circuit", "statement": "For every positive multiple of three columns, any table accepted by the satisfiability check after generate_circuit of the flexible Poseidon component holds the Poseidon permutation of the inputs in the result cells, whatever else the circuit contains; honest assignments are accepted.", "quantifier": "all widths divisible by three, all tables, inputs, constants, all histories of other gates before and after", "why_tests_cant": "Tests place the component first in an otherwise empty circuit, where the selector mistake is invisible; the set of widths and surrounding circuits is unbounded.", "anchors": ["include/nil/blueprint/components/systems/snark/plonk/flexible/poseidon.hpp generate_circuit generate_gates generate_assignments get_rows_amount result_type"]}
{"id": "C59", "title": "The permutation argument verifier outputs the three terms of the permutation argument", "statement": "In every table meeting the obligations of the permutation verifier for m permuted columns, the result cells hold L0(1-V), (1-q_last-q_pad)(V(zeta y) prod(f_i + theta1 S_sigma_i + theta2) - V(y) prod(f_i + theta1 S_e_i + theta2)) and q_last(V^2 - V) of the inputs; the honest assignment meets the obligations and changes nothing else.", "quantifier": "all m >= 1, all fields, all tables, inputs, column layouts, start rows", "why_tests_cant": "Tests use m = 3 or so with honest assignments; soundness speaks of all assignments, and the alternating placement of the challenges must be right for every m.", "anchors": ["include/nil/blueprint/components/systems/snark/plonk/placeholder/permutation_argument_verifier.hpp generate_gates generate_copy_constraints generate_assignments generate_circuit result_type"]}
{"id": "C60", "title": "f3_loop computes the alpha-weighted sum of the lookup argument", "statement": "In every table meeting the obligations of f3_loop for m summands, the result cell holds sum_i alpha_i (s_i - t_i) of the inputs; the honest assignment meets the obligations whatever the rest of the table holds, and changes nothing else.", "quantifier": "all widths in 4..15 and beyond, all m >= 1, all fields, tables, inputs, column layouts, start rows", "why_tests_cant": "Tests try a few widths and sizes with honest assignments on an otherwise empty table; the gate pattern depends on the width modulo 4 and the selectors on the row modulo 4.", "anchors": ["include/nil/blueprint/components/systems/snark/plonk/placeholder/detail/f3_loop.hpp generate_gates generate_circuit generate_copy_constraints generate_assignments result_type"]}
{"id": "C61", "title": "f1_loop computes the product of the lookup argument", "statement": "In every table meeting the obligations of f1_loop for m factors, the result cell holds prod_i ((1+beta) gamma + s_i + beta t_i) of the inputs; the honest assignment meets the obligations whatever the rest of the table holds, and changes nothing outside the component's rows.", "quantifier": "all widths >= 4, all m >= 1, all fields, tables, inputs, column layouts, start rows", "why_tests_cant": "Tests try a few widths and sizes with honest assignments; the gates depend on the width modulo 3, the row modulo 2 or 3 and on whether a row is the last one, and soundness quantifies over dishonest tables.", "anchors": ["include/nil/blueprint/components/systems/snark/plonk/placeholder/detail/f1_loop.hpp generate_gates generate_circuit generate_copy_constraints generate_assignments result_type"]}
{"id": "C62", "title": "gate_component combines the constraints of a gate with powers of theta", "statement": "In every table meeting the obligations of gate_component of degree d, the output cell holds q (C_0 + theta C_1 + ... + theta^d C_d) of the inputs; the honest assignment meets the obligations whatever the rest of the table holds, and changes nothing outside the component's rows.", "quantifier": "all widths >= 3, all degrees >= 1, all fields, tables, inputs, column layouts, start rows", "why_tests_cant": "Tests run honest assignments for a few widths and degrees; whether an extra row is needed, which selector is used for the output and which columns hold partial sums all depend on the width, the degree and the row parity, and soundness quantifies over dishonest tables.", "anchors": ["include/nil/blueprint/components/systems/snark/plonk/placeholder/detail/gate_component.hpp generate_gates generate_circuit generate_copy_constraints generate_assignments result_type rows_amount_internal"]}
{"id": "C63", "title": "The gate argument verifier combines all constraints of all gates", "statement": "In every table meeting the obligations of basic_constraints_verifier for gates with sz_0, ..., sz_{n-1} constraints, the result cell holds the sum over all constraints, numbered through over the gates, of theta^number times the constraint times the selector of its gate. With the constants written by circuit generation in place the honest assignment meets the obligations and changes nothing outside the component's rows.", "quantifier": "all widths >= 3, all numbers of gates >= 1, all sizes >= 1, all fields, tables, inputs, column layouts, start rows", "why_tests_cant": "Tests use a handful of size lists with honest assignments; the vector handed to the final gate is built by a loop that must place every gate at the right offset for every list of sizes, and the calls sit on rows that depend on all sizes before them.", "anchors": ["include/nil/blueprint/components/systems/snark/plonk/placeholder/gate_argument_verifier.hpp generate_circuit generate_assignments generate_assignments_constant result_type rows_amount_internal"]}
{"id": "C64", "title": "The lookup argument verifier computes the four terms of the lookup argument", "statement": "In every table meeting the obligations of lookup_verifier the four result cells hold F0 = L0 (1 - V_L), F1 = q_last (V_L^2 - V_L), F2 = (1 - (q_last + q_blind)) (V_L(shifted) h - V_L g), and F3 = L0 times the sum over consecutive sorted columns of alpha_i (first entry of column i+1 - last usable entry of column i), where g is the product over all lookup inputs of (1+beta)(gamma + input) times the product over all table options of ((1+beta) gamma + value + beta value'), h the product over sorted columns, and inputs and values are compressed with powers of theta starting from the table number and masked. With the constants in place the honest assignment meets the obligations and changes nothing else.", "quantifier": "all widths >= 4, all numbers of tables, options, columns, gates, constraints and input sizes >= 1, all fields, tables, inputs, column layouts, start rows", "why_tests_cant": "The tests run a single width and parameter set with honest assignments; row positions of eight families of sub-components and the packing of inputs depend on every size, and what a dishonest assignment can put into a result cell is never tried.", "anchors": ["include/nil/blueprint/components/systems/snark/plonk/placeholder/lookup_argument_verifier.hpp generate_circuit generate_assignments generate_assignments_constant result_type rows_amount_internal"]}
{"id": "C65", "title": "Expression evaluation through batches computes the value of the expression", "statement": "The expression evaluation component walks a constraint (terms with coefficients, powers by square and multiply, sums, differences, products), asks the batches of the table for products, sums and differences and for constants, and returns one variable. After the batches and the constants have been finalised, in every table in which the batch gates hold on their rows and all copy constraints hold, the returned variable has the value of the expression in the mapped variables, for every list of evaluations in any order and with shared sub-requests. When the results were computed from the values the inputs have at finalisation, the finalised table satisfies all gates and copy constraints. Repeating an evaluation in generate_assignments after generate_circuit returns the same variable and changes nothing.", "quantifier": "all fields, expressions with positive exponents, variable mappings, lists of calls, tables, widths >= 3, orders of the batches", "why_tests_cant": "tests evaluate a few random expressions one at a time with honest witnesses; they do not cover sharing between several evaluations, malicious tables, or the order of calls", "anchors": ["include/nil/blueprint/components/systems/snark/plonk/placeholder/detail/expression_evaluation_component.hpp:71-144", "include/nil/blueprint/components/systems/snark/plonk/placeholder/detail/expression_evaluation_component.hpp:255-289", "include/nil/blueprint/blueprint/plonk/assignment.hpp:186-220"]}
{"id": "C66", "title": "The final polynomial check fixes the values of the polynomial at every point and its negative", "statement": "After final_polynomial_check and both finalisations of the batches, every table in which the batch gates and all copy constraints hold has, for every point s, values[2i] = p(s) and values[2i+1] = p(-s), where p has the given coefficients, highest power first; this holds with any evaluations through the same batches before and after. If the values are right and the inputs are cells assigned before generate_circuit, the finalised table satisfies all gates and copy constraints. generate_assignments after generate_circuit changes nothing.", "quantifier": "all fields, degrees, numbers of points, input variables, tables, widths >= 3, other evaluations sharing the batches", "why_tests_cant": "the tests use honest values and a few degrees; that no other values can be put in, also when other components share the batches, is a statement about all tables", "anchors": ["include/nil/blueprint/components/systems/snark/plonk/verifier/final_polynomial_check.hpp:157-181", "include/nil/blueprint/components/systems/snark/plonk/verifier/final_polynomial_check.hpp:189-228", "include/nil/blueprint/components/systems/snark/plonk/verifier/final_polynomial_check.hpp:231-276"]}
{"id": "C67", "title": "The FRI coset generator returns the cosets of the canonical integer of the challenge", "statement": "In every table that satisfies fri_cosets, output number k (0 <= k < n) is (s_k, -s_k, b_k) with s_0 = omega^(x mod 2^n), s_(k+1) = s_k^2 and b_k bit n-1-k of x, where x is the canonical integer of the input: the second decomposition x + p is never accepted. For every field element the generated table satisfies the component, and the component writes only its own rows.", "quantifier": "all odd primes, widths that are multiples of nine, n with n + bits of the transition row <= bits of the modulus, omega, inputs, start rows, tables", "why_tests_cant": "the tests run the honest prover on a few widths and n; uniqueness of the decomposition is a statement about all witness values, and the row layout (blocks, transition row, padding) differs for every (width, n, field) combination", "anchors": ["include/nil/blueprint/components/systems/snark/plonk/placeholder/fri_cosets.hpp:78-89", "include/nil/blueprint/components/systems/snark/plonk/placeholder/fri_cosets.hpp:177-189", "include/nil/blueprint/components/systems/snark/plonk/placeholder/fri_cosets.hpp:233-309", "include/nil/blueprint/components/systems/snark/plonk/placeholder/fri_cosets.hpp:311-348", "include/nil/blueprint/components/systems/snark/plonk/placeholder/fri_cosets.hpp:350-506", "include/nil/blueprint/components/systems/snark/plonk/placeholder/fri_cosets.hpp:508-517"]}
{"id": "C68", "title": "The endomorphism scalar component outputs the scalar of the challenge", "statement": "In every table that satisfies endo_scalar the input is below 2^128 and the output is endo_r * a + b, where a and b are 2^65 plus the signed base-4 digits of the input (digits 3, 2 count +1, -1 in a; digits 1, 0 count +1, -1 in b). For every challenge of scalar_size bits the generated table satisfies the component.", "quantifier": "all prime fields of at least 2^128 elements, values of endo_r, inputs, start rows, tables, scalar sizes that are multiples of 16", "why_tests_cant": "the tests run the honest prover on a few challenges of 128 bits; whether another output is accepted for the same challenge is a statement about all witness values, and other scalar sizes are never tried", "anchors": ["include/nil/blueprint/components/algebra/curves/pasta/plonk/endo_scalar.hpp:114-116", "include/nil/blueprint/components/algebra/curves/pasta/plonk/endo_scalar.hpp:136-141", "include/nil/blueprint/components/algebra/curves/pasta/plonk/endo_scalar.hpp:178-195", "include/nil/blueprint/components/algebra/curves/pasta/plonk/endo_scalar.hpp:197-273", "include/nil/blueprint/components/algebra/curves/pasta/plonk/endo_scalar.hpp:276-343", "include/nil/blueprint/components/algebra/curves/pasta/plonk/endo_scalar.hpp:346-366"]}
{"id": "C69", "title": "Multiplication of a point by a bit returns the point or the neutral point", "statement": "In every table that satisfies bool_scalar_multiplication the scalar is 0 or 1; for 1 the output limbs are the limbs of the input point, for 0 they are the limbs of (0, 1). For every bit and every point the generated table satisfies the component and only its two rows change; no table with another scalar is accepted.", "quantifier": "all fields, column choices, start rows, inputs, tables", "why_tests_cant": "the test runs the honest prover with a handful of points and bits 0 and 1; that a prover cannot return anything else, nor use another scalar, is a statement about all witness tables", "anchors": ["include/nil/blueprint/components/algebra/curves/edwards/plonk/non_native/bool_scalar_multiplication.hpp:90-104", "include/nil/blueprint/components/algebra/curves/edwards/plonk/non_native/bool_scalar_multiplication.hpp:113-123", "include/nil/blueprint/components/algebra/curves/edwards/plonk/non_native/bool_scalar_multiplication.hpp:158-197", "include/nil/blueprint/components/algebra/curves/edwards/plonk/non_native/bool_scalar_multiplication.hpp:200-233", "include/nil/blueprint/components/algebra/curves/edwards/plonk/non_native/bool_scalar_multiplication.hpp:238-259", "include/nil/blueprint/components/algebra/curves/edwards/plonk/non_native/bool_scalar_multiplication.hpp:262-280"]}
{"id": "C70", "title": "Complete addition of Ed25519 points returns the sum", "statement": "In every table that satisfies complete_addition and keeps the chunks of its range checks within their widths, for two points of the curve given in limbs, the output is the sum of the points by the Edwards addition law (with no exceptional case: d is a nonsquare modulo 2^255-19). For every pair of reduced points the generated table satisfies the circuit, the widths hold and the output is the sum, reduced.", "quantifier": "all native fields of odd characteristic above 2^254, column choices, start rows, points of the curve (also equal, opposite, neutral), tables", "why_tests_cant": "tests add a few points with the honest prover; that twelve chained foreign-field operations and two copies pin down the sum, and that no pair of points is exceptional, concerns all points and all witness tables", "anchors": ["include/nil/blueprint/components/algebra/curves/edwards/plonk/non_native/complete_addition.hpp:97-103", "include/nil/blueprint/components/algebra/curves/edwards/plonk/non_native/complete_addition.hpp:118-131", "include/nil/blueprint/components/algebra/curves/edwards/plonk/non_native/complete_addition.hpp:133-154", "include/nil/blueprint/components/algebra/curves/edwards/plonk/non_native/complete_addition.hpp:181-391", "include/nil/blueprint/components/algebra/curves/edwards/plonk/non_native/complete_addition.hpp:393-531", "include/nil/blueprint/components/algebra/curves/edwards/plonk/non_native/complete_addition.hpp:534-567", "include/nil/blueprint/components/algebra/curves/edwards/plonk/non_native/complete_addition.hpp:570-612"]}
{"id": "C71", "title": "Doubling of an Ed25519 point returns the double", "statement": "In every table that satisfies doubling and keeps the chunks of its range checks within their widths, for a point of the curve given in limbs, the output is the double of the point. For every reduced point the generated table satisfies the circuit and holds the double.", "quantifier": "all native fields of odd characteristic above 2^254, column choices, start rows, points of the curve, tables", "why_tests_cant": "tests double a few points with the honest prover, which puts the right double there; which of the limbs are actually compared shows only for dishonest tables", "anchors": ["include/nil/blueprint/components/algebra/curves/edwards/plonk/non_native/doubling.hpp:102-108", "include/nil/blueprint/components/algebra/curves/edwards/plonk/non_native/doubling.hpp:113-124", "include/nil/blueprint/components/algebra/curves/edwards/plonk/non_native/doubling.hpp:126-147", "include/nil/blueprint/components/algebra/curves/edwards/plonk/non_native/doubling.hpp:178-347", "include/nil/blueprint/components/algebra/curves/edwards/plonk/non_native/doubling.hpp:351-478", "include/nil/blueprint/components/algebra/curves/edwards/plonk/non_native/doubling.hpp:480-519"]}
{"id": "C72", "title": "The sign bit of a coset point is determined", "statement": "In every table that satisfies flexible_x_index with bits b_0..b_(n-1) and omega of order 2^(n+1), the output b0 is 1 if x = omega^(sum of (1-b_i) 2^i) and 0 if x is the opposite; no other x and no other b0 are accepted. For every such x the generated table satisfies the circuit and has that output.", "quantifier": "all fields of odd characteristic, numbers of bits n >= 1, widths >= 3, column choices, start rows, bits, points, tables", "why_tests_cant": "the component is exercised with honest rows and one width; whether x and b0 are pinned down depends on the divisibility of n by the number of blocks of a row and on dishonest tables", "anchors": ["include/nil/blueprint/components/systems/snark/plonk/flexible/x_index.hpp:85-90", "include/nil/blueprint/components/systems/snark/plonk/flexible/x_index.hpp:114", "include/nil/blueprint/components/systems/snark/plonk/flexible/x_index.hpp:153-208", "include/nil/blueprint/components/systems/snark/plonk/flexible/x_index.hpp:211-234", "include/nil/blueprint/components/systems/snark/plonk/flexible/x_index.hpp:237-265", "include/nil/blueprint/components/systems/snark/plonk/flexible/x_index.hpp:287-304"]}
{"id": "C73", "title": "The folding steps are colinear", "statement": "In every table that satisfies flexible_colinear_checks, for every step q < r the line through (s, y_0) and (-s, y_1), with s = x^(2^q) or its opposite according to the sign bit, takes at alpha_q the value y of step q+1 selected by the next sign bit. For inputs with this property the generated table satisfies the circuit.", "quantifier": "all fields of odd characteristic, numbers of steps, widths >= 9, column choices, start rows, inputs, tables", "why_tests_cant": "honest rows satisfy the equations whether or not the circuit refers to the inputs; that no constraint mentions an input cell only shows for dishonest tables", "anchors": ["include/nil/blueprint/components/systems/snark/plonk/flexible/colinear_checks.hpp:86-91", "include/nil/blueprint/components/systems/snark/plonk/flexible/colinear_checks.hpp:96-105", "include/nil/blueprint/components/systems/snark/plonk/flexible/colinear_checks.hpp:164-240", "include/nil/blueprint/components/systems/snark/plonk/flexible/colinear_checks.hpp:243-279", "include/nil/blueprint/components/systems/snark/plonk/flexible/colinear_checks.hpp:282-310", "include/nil/blueprint/components/systems/snark/plonk/flexible/colinear_checks.hpp:313-333"]}
{"id": "C74", "title": "Challenges of the verifier are those of the transcript", "statement": "In every table that satisfies the circuit of plonk_flexible_verifier the challenge given as an input equals the Poseidon transcript of the verification key and the commitments (with the fixed pattern of zeros), every later challenge is the transcript extended by the roots absorbed so far, and the circuit ends exactly rows_amount rows after its start.", "quantifier": "all fields, Poseidon parameters, widths divisible by 3, numbers of rounds and queries, batch sizes, placements of swaps, input variables, tables", "why_tests_cant": "the tests run one proof with the honest prover; that the chain of hashes pins every challenge, and that the row count is exact for all parameters, is a statement about all tables and all parameters", "anchors": ["include/nil/blueprint/components/systems/snark/plonk/verifier/verifier.hpp:70-76", "include/nil/blueprint/components/systems/snark/plonk/verifier/verifier.hpp:94-124", "include/nil/blueprint/components/systems/snark/plonk/verifier/verifier.hpp:289-308", "include/nil/blueprint/components/systems/snark/plonk/verifier/verifier.hpp:345-348", "include/nil/blueprint/components/systems/snark/plonk/verifier/verifier.hpp:602-674"]}
{"id": "C75", "title": "Merkle openings of the verifier", "statement": "In every table that satisfies the circuit of plonk_flexible_verifier, for every query the position inputs are bits and every batch of initial values is opened at these bits under the verification key (first batch) or the commitment of the batch, and the values of FRI round j-1 are opened under the root of round j, for j = 1, ..., r-1.", "quantifier": "all fields, Poseidon parameters, parameters of the proof, placements of swaps, input variables, tables, queries, batches, rounds", "why_tests_cant": "a wrong offset into the siblings or values, or a missing copy of a root, shows only for dishonest inputs or other batch sizes than those of the test", "anchors": ["include/nil/blueprint/components/systems/snark/plonk/verifier/verifier.hpp:724-790"]}
{"id": "C76", "title": "The verifier accepts exactly the valid proofs", "statement": "For public inputs, an accepted table exists if and only if the proof is valid: challenge of the transcript, positions derived from the transcript, Merkle openings of all rounds, folding of the rounds, final polynomial, and the evaluations satisfy the constraints of the circuit.", "quantifier": "all fields, Poseidon parameters, parameters of the proof, public inputs", "why_tests_cant": "tests show that one honest proof is accepted; which dishonest ones are accepted as well cannot be tested", "anchors": ["include/nil/blueprint/components/systems/snark/plonk/verifier/verifier.hpp:581-794"]}
{"id": "C77", "title": "Variable base scalar multiplication pins the multiple", "statement": "In every table that satisfies the circuit of curve_element_variable_base_scalar_mul the output is the multiple of the input point T by the value of the shifted scalar: on Pallas the scalar b + 2^254 b_high is below the group order and the output is (2 scalar + 1 + 2^255) T; on Vesta the scalar b is below the group order and the output is (2 b + 1 + 2^255) T, with the three special scalars standing for -1, 0 and 1.", "quantifier": "all tables, placements of columns, start rows, input variables, points of the curve, scalars", "why_tests_cant": "the scalars are about 2^255 many, and soundness is about tables the assignment does not produce; the tests run the honest assignment on a handful of scalars", "anchors": ["include/nil/blueprint/components/algebra/curves/pasta/plonk/variable_base_scalar_mul.hpp:421-455", "include/nil/blueprint/components/algebra/curves/pasta/plonk/variable_base_scalar_mul.hpp:457-748", "include/nil/blueprint/components/algebra/curves/pasta/plonk/variable_base_scalar_mul.hpp:750-828"]}
{"id": "C78", "title": "Variable base scalar multiplication accepts every scalar", "statement": "For every point of the curve and every scalar below the group order the table produced by generate_assignments satisfies the circuit and its result cells hold the multiple of the point by the shifted scalar; no cell outside the 104 rows changes.", "quantifier": "all points, scalars below the order, placements of columns, start rows, inputs outside the rows of the component, previous contents of the table", "why_tests_cant": "the exceptional scalars are isolated values of 255 bits; random or small test scalars do not meet them", "anchors": ["include/nil/blueprint/components/algebra/curves/pasta/plonk/variable_base_scalar_mul.hpp:218-419", "include/nil/blueprint/components/algebra/curves/pasta/plonk/variable_base_scalar_mul.hpp:81-100"]}
{"id": "C79", "title": "The SHA-2 decomposition outputs the 32-bit words of its inputs", "statement": "In every table that satisfies the circuit of decomposition both inputs are below 2^128 and the eight outputs are the 32-bit words of the two inputs, most significant first; generate_assignments produces such a table for every pair of inputs below 2^128.", "quantifier": "all prime fields with more than 2^128 elements, columns, input variables, start rows, tables", "why_tests_cant": "tests run the honest prover; whether another split into words would be accepted is a statement about all tables", "anchors": ["include/nil/blueprint/components/hashes/sha2/plonk/decomposition.hpp:102-111", "include/nil/blueprint/components/hashes/sha2/plonk/decomposition.hpp:147-172", "include/nil/blueprint/components/hashes/sha2/plonk/decomposition.hpp:180-220", "include/nil/blueprint/components/hashes/sha2/plonk/decomposition.hpp:246-284", "include/nil/blueprint/components/hashes/sha2/plonk/decomposition.hpp:286-302"]}
{"id": "C80", "title": "sha256_process::calculate is the SHA-256 compression function", "statement": "For every hash state and message block of 32-bit words, calculate reads r_values only within bounds and returns the eight words of the FIPS 180-4 compression function.", "quantifier": "all states, all message blocks, all moduli of at least 7^32", "why_tests_cant": "there are 2^768 inputs; the sparse digit arithmetic and the field powers could go wrong for particular bit patterns only", "anchors": ["include/nil/blueprint/components/hashes/sha2/plonk/sha256_process.hpp:189-446", "include/nil/blueprint/components/hashes/sha2/plonk/detail/split_functions.hpp:45-171", "include/nil/blueprint/components/hashes/sha2/plonk/sha256_process.hpp:94-103"]}
{"id": "C81", "title": "sha256_process accepts exactly the SHA-256 compression of its inputs", "statement": "For every hash state and message block of 32-bit words, the table generate_assignments writes satisfies the circuit and holds the compressed state, and no table accepted by the circuit has any other output for those inputs.", "quantifier": "all states, message blocks, start rows, tables and primes of at least 7^32", "why_tests_cant": "completeness covers 2^768 inputs; the second half speaks about every table a dishonest prover may submit, which no test that runs the honest assignment can see", "anchors": ["include/nil/blueprint/components/hashes/sha2/plonk/sha256_process.hpp:473-1175", "include/nil/blueprint/components/hashes/sha2/plonk/sha256_process.hpp:1205-1301", "include/nil/blueprint/components/hashes/sha2/plonk/sha256_process.hpp:1305-1351", "include/nil/blueprint/components/hashes/sha2/plonk/sha256_process.hpp:1355-1858", "include/nil/blueprint/lookup_library.hpp:173-316", "include/nil/blueprint/components/hashes/sha2/plonk/detail/split_functions.hpp:45-171"]}
{"id": "C82", "title": "reduction outputs a 512-bit number modulo the ed25519 group order", "statement": "For eight 64-bit words the table generate_assignments writes satisfies the circuit and its output cell holds the 512-bit number modulo the group order L, and a table accepted by the circuit has no other output for those words.", "quantifier": "all words, start rows, column layouts, tables and fields of at least 2^253 elements", "why_tests_cant": "2^512 inputs; the second half is about every table a dishonest prover may submit; the correctness of the quotient argument rests on a bound on two moduli and not on any single run", "anchors": ["include/nil/blueprint/components/algebra/fields/plonk/non_native/reduction.hpp:92-105", "include/nil/blueprint/components/algebra/fields/plonk/non_native/reduction.hpp:136-246", "include/nil/blueprint/components/algebra/fields/plonk/non_native/reduction.hpp:259-328", "include/nil/blueprint/components/algebra/fields/plonk/non_native/reduction.hpp:334-376"]}
{"id": "C83", "title": "scalar_non_native_range accepts exactly the scalars below the ed25519 group order", "statement": "The table generate_assignments writes satisfies the circuit exactly when the scalar is below the group order L, its outputs are then the twelve base-2^22 digits of the scalar, and no table that the circuit accepts has a scalar of at least L or other outputs.", "quantifier": "all scalars, start rows, column layouts, tables and fields of more than 2^254 elements", "why_tests_cant": "the must-fail tests run the honest assignment, which writes a wrapped sum for a scalar that is too large; they cannot see that a table with the unwrapped sum is accepted", "anchors": ["include/nil/blueprint/components/algebra/curves/edwards/plonk/non_native/scalar_non_native_range.hpp:84-100", "include/nil/blueprint/components/algebra/curves/edwards/plonk/non_native/scalar_non_native_range.hpp:133-189", "include/nil/blueprint/components/algebra/curves/edwards/plonk/non_native/scalar_non_native_range.hpp:191-222", "include/nil/blueprint/components/algebra/curves/edwards/plonk/non_native/scalar_non_native_range.hpp:224-254", "test/non_native/plonk/scalar_non_native_range.cpp"]}
{"id": "C84", "title": "r1cs conjunction and disjunction compute AND and OR of any number of bits", "statement": "For boolean inputs, fewer than the characteristic, the r1cs conjunction (disjunction) forces its output to be the AND (OR) of the inputs, and its assignment satisfies the constraints for all inputs.", "quantifier": "all prime fields, numbers of inputs, variable numbers and assignments", "why_tests_cant": "a test runs through the bit patterns of a fixed small number of inputs and only with the honest inverse, so it cannot exclude an accepted wrong output", "anchors": ["include/nil/blueprint/components/boolean/r1cs/conjunction.hpp:50-105", "include/nil/blueprint/components/boolean/r1cs/disjunction.hpp:50-105"]}
{"id": "C85", "title": "r1cs packing and comparison", "statement": "With bitness enforced the packing component accepts exactly the binary digits of a packed value that fits in the given number of bits; the comparison component forces less and less_or_eq to be the order of the two inputs when both have n bits and 2^(n+1) does not exceed the characteristic, and its assignment satisfies the constraints.", "quantifier": "all prime fields, bit sizes, linear combinations as inputs, and assignments", "why_tests_cant": "soundness is about all assignments of the bit variables, not only the ones generate_assignments writes", "anchors": ["include/nil/blueprint/components/detail/r1cs/packing.hpp:50-110", "include/nil/blueprint/components/boolean/r1cs/comparison.hpp:53-131"]}
{"id": "C86", "title": "r1cs inner product and loose multiplexer", "statement": "The inner product component forces its result to be the inner product; in the multiplexer an index out of bounds forces the flag to 0, flag 1 makes the result the indexed element and flag 0 makes it 0. The assignments satisfy the constraints, with flag 1 exactly when the index is in bounds.", "quantifier": "all prime fields, nonempty arrays not longer than the characteristic, indices and assignments", "why_tests_cant": "the tests assign honestly for some sizes; the documented implications are about all assignments", "anchors": ["include/nil/blueprint/components/boolean/r1cs/inner_product.hpp:51-96", "include/nil/blueprint/components/detail/r1cs/loose_multiplexing.hpp:44-124"]}
{"id": "C87", "title": "r1cs lookups of constants by bits", "statement": "For boolean selectors lookup_1bit forces the result to be the selected one of two constants, and lookup_signed_3bit forces it to be the constant selected by two bits, negated if the third is set; the assignments satisfy the constraints.", "quantifier": "all prime fields (at least 8 elements), constants, bits, variable numbers and assignments", "why_tests_cant": "a test has fixed constants and honest values of the product variable", "anchors": ["include/nil/blueprint/components/detail/r1cs/lookup_1bit.hpp:45-84", "include/nil/blueprint/components/detail/r1cs/lookup_signed_3bit.hpp:45-124"]}
{"id": "C88", "title": "field_to_bits_strict gives the bits of the canonical representative and no others", "statement": "The assignment of field_to_bits_strict satisfies its constraints and gives the bits of the field element, and every accepted assignment of the bits is the binary representation of the representative below the modulus.", "quantifier": "all prime fields, bit widths with 2^n at most twice the modulus, input combinations and assignments", "why_tests_cant": "no test of the component exists and a test with honest values cannot see a second accepted decomposition", "anchors": ["include/nil/blueprint/components/algebra/fields/r1cs/field_to_bits.hpp:42-96", "include/nil/blueprint/components/algebra/fields/r1cs/field_to_bits.hpp:111-134", "include/nil/blueprint/components/algebra/fields/r1cs/field_to_bits.hpp:166-186", "include/nil/blueprint/components/algebra/fields/r1cs/field_to_bits.hpp:188-208"]}
{"id": "C89", "title": "Conditional copying of bit vectors and field vectors (r1cs)", "statement": "bit_vector_copy_component with copying on forces the target bits to equal the source bits when both sides are bits and a chunk fits in the field; its assignment satisfies the constraints, copies exactly when do_copy is 1 and keeps the source. field_vector_copy_component does the same for field elements.", "quantifier": "all prime fields, lengths, chunk sizes with 2^chunk at most the modulus, do_copy combinations and assignments", "why_tests_cant": "lengths that are not multiples of the chunk size and dishonest packed values cannot be enumerated", "anchors": ["include/nil/blueprint/components/detail/r1cs/packing.hpp:104-153", "include/nil/blueprint/components/detail/r1cs/packing.hpp:156-188", "include/nil/blueprint/components/detail/r1cs/packing.hpp:191-250"]}
{"id": "C90", "title": "The r1cs SHA-256 compression component computes the compression function", "statement": "In every prime field with at least 2^35 elements, if the bits of the block and of the previous output are bits, every accepted assignment has the bits of the FIPS 180-4 compression function as output, and the assignment of the component is accepted. The 2-to-1 hash is the compression function of the standard initial value on the concatenation of the two digests.", "quantifier": "all primes p >= 2^35, vectors of variables and combinations, blocks, previous outputs and assignments", "why_tests_cant": "a test sees one block and the honest assignment; that no other output is accepted and that all 2^768 inputs work cannot be tested", "anchors": ["include/nil/blueprint/components/hashes/sha2/r1cs/sha256_component.hpp:67-184", "include/nil/blueprint/components/hashes/sha2/r1cs/sha256_component.hpp:202-235", "include/nil/blueprint/components/hashes/sha2/r1cs/sha256_construction.hpp:48-141", "include/nil/blueprint/components/hashes/sha2/r1cs/sha256_construction.hpp:145-293", "include/nil/blueprint/components/hashes/sha2/r1cs/sha256_aux.hpp:40-338"]}
{"id": "C91", "title": "The r1cs SHA-256 hash component computes SHA-256", "statement": "For messages of every length, every accepted assignment of sha256_hash_component has the SHA-256 hash value of the message as output, and the assignment of the component is accepted.", "quantifier": "all primes p >= 2^35, message lengths, messages and assignments", "why_tests_cant": "the number of blocks and the padding depend on the length; the tests use few lengths, none of them 448 modulo 512", "anchors": ["include/nil/blueprint/components/hashes/sha2/r1cs/sha256_component.hpp:281-343", "include/nil/blueprint/components/hashes/hash_io.hpp:137-173", "include/nil/blueprint/components/hashes/sha2/r1cs/sha256_construction.hpp:272-293"]}
{"id": "C92", "title": "The r1cs HMAC component computes HMAC-SHA-256", "statement": "With sha256_hash_component for both hash functions, for keys of at most 512 bits and messages of every length, every accepted assignment of hmac_component has HMAC-SHA-256 (RFC 2104) of key and message as output, and the assignment of the component is accepted.", "quantifier": "all primes p >= 2^35, keys of at most 512 bits, message lengths, messages and assignments", "why_tests_cant": "there is no test of the component; a test would see single keys and messages and the honest assignment only", "anchors": ["include/nil/blueprint/components/hashes/hmac_component.hpp:49-90", "include/nil/blueprint/components/hashes/hmac_component.hpp:129-168", "include/nil/blueprint/components/hashes/sha2/r1cs/sha256_component.hpp:281-348"]}
{"id": "C93", "title": "The r1cs Merkle tree read shows that the leaf is in the tree with the given root", "statement": "For every depth, address, leaf and hash component that computes a hash relation, an accepted assignment of merkle_tree_check_read_component (and of merkle_proof_validate) with read_successful = 1 has as root the node computed from the leaf, the address bits (least significant first) and the siblings of the path; the assignment of the component is accepted and writes that node into the root.", "quantifier": "all primes, depths > 0, digest lengths, hash components, addresses, leaves, paths and assignments", "why_tests_cant": "tests use one depth and honest paths; a root that differs from the computed one by a multiple of the modulus is not tried", "anchors": ["include/nil/blueprint/components/merkle_tree/r1cs/check_read.hpp:46-165", "include/nil/blueprint/components/merkle_tree/r1cs/validate.hpp:46-160", "include/nil/blueprint/components/merkle_tree/r1cs/prove.hpp:55-115", "include/nil/blueprint/components/hashes/digest_selector_component.hpp:58-82"]}
{"id": "C94", "title": "The r1cs components for Montgomery and twisted Edwards points compute group operations", "statement": "An accepted Montgomery addition of two curve points with different abscissas gives their sum in the group of the curve y^2 = x^3 + A x^2 + x; an accepted conversion of a point not of order two gives the corresponding twisted Edwards point, and this correspondence takes sums to sums; an accepted twisted Edwards addition of two curve points gives their sum; the well-formedness check accepts exactly curve points. The assignments are accepted under the same conditions.", "quantifier": "all fields, curve parameters with a square and d not a square, points and assignments", "why_tests_cant": "tests add a few points of one curve and cannot show that no other result is accepted", "anchors": ["include/nil/blueprint/components/algebra/curves/montgomery/element_g1.hpp:46-183", "include/nil/blueprint/components/algebra/curves/twisted_edwards/element_g1.hpp:46-260", "include/nil/blueprint/components/algebra/curves/detail/r1cs/element_g1_affine.hpp:51-95"]}
{"id": "C95", "title": "The r1cs conditional addition adds the second point exactly if the selector is 1", "statement": "An accepted element_g1_conditional_addition has as result p1 + p2 if can_add is 1 and p1 if can_add is 0.", "quantifier": "all fields, points, selectors and assignments", "why_tests_cant": "the component has no test; a test of an honest assignment would not notice that the result is not constrained", "anchors": ["include/nil/blueprint/components/algebra/curves/twisted_edwards/element_g1.hpp:312-431"]}
{"id": "C96", "title": "The windowed fixed-base multiplication computes the Pedersen hash to a point", "statement": "For input bits, an accepted result of fixed_base_mul_zcash is the twisted Edwards form of the sum over the windows i of enc(bits 3i, 3i+1, 3i+2) * 16^(i mod c) times base point i / c, where enc = (1 - 2 b2)(1 + b0 + 2 b1); in particular the Montgomery additions never meet two points with the same abscissa, whatever the bits and however the last segment is cut. The assignment is always accepted.", "quantifier": "all curves, base points of odd order r with 4 (16^c - 1) < 15 r, numbers of windows, messages and assignments", "why_tests_cant": "tests hash a few messages; the exceptional cases of the incomplete addition depend on the bits, and the segments on the length", "anchors": ["include/nil/blueprint/components/algebra/curves/detail/r1cs/fixed_base_mul_zcash.hpp:94-212", "include/nil/blueprint/components/algebra/curves/detail/r1cs/fixed_base_mul_zcash.hpp:261-327", "include/nil/blueprint/components/hashes/pedersen.hpp:50-217"]}
{"id": "C97", "title": "The Pedersen hash of an input is determined by the input, whatever its length", "statement": "An accepted result of pedersen_to_point is the hash of the input padded with zeros to a multiple of three bits.", "quantifier": "all input lengths, messages and assignments", "why_tests_cant": "a test runs the assignment of the constructor, which sets the padding to zero, and cannot see that no constraint does", "anchors": ["include/nil/blueprint/components/algebra/curves/detail/r1cs/fixed_base_mul_zcash.hpp:214-230", "include/nil/blueprint/components/algebra/curves/detail/r1cs/fixed_base_mul_zcash.hpp:239-259", "include/nil/blueprint/components/hashes/pedersen.hpp:209-211"]}
{"id": "C98", "title": "Pedersen hashes of one segment have no collisions", "statement": "Two accepted assignments of the component for messages of at most c windows with the same result have the same input bits.", "quantifier": "all messages and assignments, 8 (16^n - 1) < 15 r", "why_tests_cant": "the absence of collisions concerns all pairs of messages", "anchors": ["include/nil/blueprint/components/algebra/curves/detail/r1cs/fixed_base_mul_zcash.hpp:77-80", "include/nil/blueprint/components/algebra/curves/detail/r1cs/fixed_base_mul_zcash.hpp:94-212"]}
{"id": "C99", "title": "An accepted Pedersen hash makes its input variables bits", "statement": "In every accepted assignment of pedersen_to_point the input variables are 0 or 1, so that the hash binds them.", "quantifier": "all curves, messages, windows and assignments", "why_tests_cant": "tests assign bits; whether other field elements are accepted is a statement about all assignments", "anchors": ["include/nil/blueprint/components/algebra/curves/detail/r1cs/fixed_base_mul_zcash.hpp:261-294", "include/nil/blueprint/components/hashes/pedersen.hpp:209-211", "include/nil/blueprint/components/detail/r1cs/lookup_signed_3bit.hpp"]}
{"id": "C100", "title": "An accepted ballot comes from a key in the tree and has its serial number", "statement": "An accepted assignment of encrypted_input_voting with bits as secret key and election identifier knows pk = hash(sk) such that hash(pk) is a leaf of the tree with the given root, whatever the address variables are, the serial number is hash(eid, sk), and exactly one entry of the ballot is one, the others zero. The honest assignment is accepted.", "quantifier": "all hash components, tree depths, keys, identifiers, ballots of at most p entries and assignments", "why_tests_cant": "tests run honest voters; soundness quantifies over all assignments", "anchors": ["include/nil/blueprint/components/voting/r1cs/encrypted_input_voting.hpp:41-140"]}
{"id": "C101", "title": "A key has one serial number in an election", "statement": "Two accepted ballots with the same secret key and election identifier have the same serial number, so that a second vote is detected.", "quantifier": "all accepted assignments", "why_tests_cant": "a test has one serial number; uniqueness is a statement about pairs of assignments", "anchors": ["include/nil/blueprint/components/voting/r1cs/encrypted_input_voting.hpp:89-95", "include/nil/blueprint/components/voting/r1cs/encrypted_input_voting.hpp:101-106"]}
{"id": "C102", "title": "A contract accepted by the zkEVM bytecode circuit is laid out consistently", "statement": "In every accepted table a header row followed by byte rows holds bytes with consecutive indices from zero, the hash of the header in every row, the running random linear combination of the bytes, and the length in the header equal to the number of bytes.", "quantifier": "all prime fields with at least 256 elements, all tables, contract lengths and challenges", "why_tests_cant": "tests assign honest contracts; soundness quantifies over all tables a prover can write", "anchors": ["include/nil/blueprint/zkevm/bytecode.hpp:412-514", "include/nil/blueprint/zkevm/bytecode.hpp:529-548"]}
{"id": "C103", "title": "The opcode flag in the bytecode table is that of the EVM parse", "statement": "In every accepted table a byte of a contract is flagged as an opcode exactly if it is reached by parsing the contract from its first byte, skipping the immediate data of PUSH instructions.", "quantifier": "all tables and contracts of length below p - 32", "why_tests_cant": "a dishonest flag does not occur in tests that use the honest assignment", "anchors": ["include/nil/blueprint/zkevm/bytecode.hpp:473-514", "include/nil/blueprint/lookup_library.hpp:99-135"]}
{"id": "C104", "title": "Honest contracts are accepted and published as a dynamic table", "statement": "For every list of contracts the honest assignment satisfies the bytecode circuit and the dynamic table contains, for each byte of each contract, the tuple of its tag, index, value, opcode flag and hash, with the flag of the EVM parse; nothing outside of the contracts can be looked up.", "quantifier": "all lists of contracts whose instruction bytes are in the opcode table, all positions", "why_tests_cant": "a handful of contracts is tested", "anchors": ["include/nil/blueprint/zkevm/bytecode.hpp:155-199", "include/nil/blueprint/zkevm/bytecode.hpp:357-410", "include/nil/blueprint/zkevm/bytecode.hpp:718-769"]}
{"id": "C105", "title": "The lookup based AND and XOR components compute their truth tables", "statement": "In every accepted table both inputs are bits and the output is their conjunction (exclusive or); bits are accepted with the honest assignment; inputs that are not bits are rejected.", "quantifier": "all fields, columns, rows, input variables outside of the row and tables", "why_tests_cant": "tests run honest inputs; rejection and soundness quantify over all tables", "anchors": ["include/nil/blueprint/components/algebra/fields/plonk/non_native/detail/boolean_lookup_op_component.hpp:154-188", "include/nil/blueprint/components/algebra/fields/plonk/non_native/lookup_logic_ops.hpp:83-174"]}
{"id": "C106", "title": "A circuit proxy records exactly the gates and constraints of its prover", "statement": "After any interleaving of commands of several provers, the gates, lookup gates and copy constraints recorded by the proxy of a prover are exactly those this prover asked for.", "quantifier": "all histories of commands of any number of provers", "why_tests_cant": "the tests have two provers with three distinct gates; repetitions, dropped constraints and interleavings are unbounded", "anchors": ["include/nil/blueprint/blueprint/plonk/circuit_proxy.hpp:57-70", "include/nil/blueprint/blueprint/plonk/circuit_proxy.hpp:136-170", "include/nil/blueprint/blueprint/plonk/circuit_proxy.hpp:204-209"]}
{"id": "C107", "title": "The checks of all provers together are the check of the circuit", "statement": "The circuit is satisfied exactly if is_satisfied accepts for the proxies of every prover.", "quantifier": "all histories, tables and provers", "why_tests_cant": "is_satisfied on proxies is not tested at all; equivalence is a statement about all histories", "anchors": ["include/nil/blueprint/blueprint/plonk/assignment_proxy.hpp:444-459", "include/nil/blueprint/utils/satisfiability_check.hpp:101-252"]}
{"id": "C108", "title": "What a proxy hands out is not handed out twice", "statement": "Selectors and batch variables obtained through the proxies of different provers of one circuit are different unless they stand for the same gate or constant.", "quantifier": "all histories and provers", "why_tests_cant": "collisions need particular interleavings", "anchors": ["include/nil/blueprint/blueprint/plonk/circuit_proxy.hpp:41-45", "include/nil/blueprint/blueprint/plonk/circuit.hpp:178-182", "include/nil/blueprint/blueprint/plonk/assignment.hpp:577-590"]}
{"id": "C109", "title": "An assignment proxy writes through and records its rows", "statement": "The shared table after any interleaving of provers is the one the same commands produce without proxies; the rows recorded by a proxy are those its prover accessed; a value saved for other provers keeps its value under the variable handed out.", "quantifier": "all histories, rows and saved values", "why_tests_cant": "two provers and a few rows are tested", "anchors": ["include/nil/blueprint/blueprint/plonk/assignment_proxy.hpp:103-146", "include/nil/blueprint/blueprint/plonk/assignment_proxy.hpp:184-187", "include/nil/blueprint/blueprint/plonk/assignment_proxy.hpp:231-235", "include/nil/blueprint/blueprint/plonk/assignment_proxy.hpp:422-442"]}
{"id": "C110", "title": "sha256::calculate is SHA-256 of the 512-bit message", "statement": "plonk_sha256::calculate returns the two halves of the SHA-256 digest (FIPS 180-4, with padding) of the 512-bit message formed by its four arguments, never reading out of bounds.", "quantifier": "all four field elements (their low 128 bits count)", "why_tests_cant": "the test hashes a handful of fixed messages", "anchors": ["include/nil/blueprint/components/hashes/sha2/plonk/sha256.hpp:186-229"]}
{"id": "C111", "title": "The sha256 component outputs SHA-256 of its input", "statement": "A table is accepted by the circuit of plonk_sha256 only if the inputs are below 2^128 and the outputs are the two halves of SHA-256 of the message; and the table filled by generate_assignments is accepted.", "quantifier": "all tables, rows, columns and inputs", "why_tests_cant": "tests only run the honest prover on fixed messages; soundness speaks about all tables", "anchors": ["include/nil/blueprint/components/hashes/sha2/plonk/sha256.hpp:231-345", "include/nil/blueprint/components/hashes/sha2/plonk/sha256.hpp:361-392", "include/nil/blueprint/components/hashes/sha2/plonk/sha256.hpp:393-510"]}
{"id": "C112", "title": "A double-and-add step on Ed25519 computes 2R + kT", "statement": "For points T, R of Ed25519 a table is accepted by the circuit of variable_base_multiplication_per_bit only if k is 0 or 1 and the output is 2R + kT in the group of the curve; the table filled by generate_assignments is accepted.", "quantifier": "all points, bits, rows, columns and tables over every field larger than 2^254", "why_tests_cant": "tests run the honest prover on a few points; soundness speaks about all tables, and the field of the curve has 2^255 elements", "anchors": ["include/nil/blueprint/components/algebra/curves/edwards/plonk/non_native/variable_base_multiplication_per_bit.hpp:121-164", "include/nil/blueprint/components/algebra/curves/edwards/plonk/non_native/variable_base_multiplication_per_bit.hpp:196-256", "include/nil/blueprint/components/algebra/curves/edwards/plonk/non_native/variable_base_multiplication_per_bit.hpp:258-318"]}
{"id": "C113", "title": "Variable base multiplication on Ed25519 computes kT", "statement": "For a point T of Ed25519 a table is accepted by the circuit of variable_base_multiplication only if k has at most bits_amount bits and the output is kT in the group of the curve, for both bit orders; the table filled by generate_assignments is accepted.", "quantifier": "all points, scalars, rows, columns, modes and tables over every field larger than 2^254", "why_tests_cant": "tests run the honest prover on a few scalars with the default parameters; soundness speaks about all tables and all 2^253 scalars", "anchors": ["include/nil/blueprint/components/algebra/curves/edwards/plonk/non_native/variable_base_multiplication.hpp:54-61", "include/nil/blueprint/components/algebra/curves/edwards/plonk/non_native/variable_base_multiplication.hpp:127-166", "include/nil/blueprint/components/algebra/curves/edwards/plonk/non_native/variable_base_multiplication.hpp:215-261", "include/nil/blueprint/components/algebra/curves/edwards/plonk/non_native/variable_base_multiplication.hpp:263-310"]}
{"id": "C114", "title": "Mocked unsigned components compute integer results modulo 2^bits", "statement": "The unsigned addition, subtraction, multiplication, division and remainder components return the exact integer result modulo 2^bits (low bits of operands for the small sizes, two 128 bit halves for 256 bits), the unsigned comparisons return 1 exactly when the relation holds.", "quantifier": "all operands, bit sizes and fields larger than 2^bits (2^128 for the halves)", "why_tests_cant": "tests draw a few random operands; the operand space is 2^512", "anchors": ["include/nil/blueprint/components/mock/mocked_components.hpp:252-290", "include/nil/blueprint/components/mock/mocked_components.hpp:384-434", "include/nil/blueprint/components/mock/mocked_components.hpp:436-479", "include/nil/blueprint/components/mock/mocked_components.hpp:629-637"]}
{"id": "C115", "title": "Mocked signed components compute integer results", "statement": "For operands given by sign and magnitude the signed components return sign and magnitude of the exact result when it fits, and the signed comparisons return 1 exactly when the relation holds.", "quantifier": "all operands, bit sizes and fields larger than 2^bits (2^128 for the halves)", "why_tests_cant": "the tests multiply unsigned numbers by -1, which keeps them non-negative, so no negative operand of the 256 bit components is ever tried", "anchors": ["include/nil/blueprint/components/mock/mocked_components.hpp:292-345", "include/nil/blueprint/components/mock/mocked_components.hpp:347-382", "include/nil/blueprint/components/mock/mocked_components.hpp:481-543", "include/nil/blueprint/components/mock/mocked_components.hpp:545-590", "include/nil/blueprint/components/mock/mocked_components.hpp:594-627"]}
{"id": "C116", "title": "Mocked components return the cells they write and constrain them", "statement": "After generate_assignments the result variables hold the calculated values for every choice of witness columns, and the circuit accepts only these values.", "quantifier": "all columns, rows, values and tables", "why_tests_cant": "tests use the columns 0, 1, 2 and the honest prover", "anchors": ["include/nil/blueprint/components/mock/mocked_component_base.hpp:93-103", "include/nil/blueprint/components/mock/mocked_component_base.hpp:133-163", "include/nil/blueprint/components/mock/mocked_components.hpp:285-288", "include/nil/blueprint/components/mock/mocked_components.hpp:536-541"]}
{"id": "C117", "title": "Quadratic and cubic extension gadgets accept exactly the products", "statement": "The R1CS multiplication, squaring and scaling gadgets of Fp2 and Fp3 are satisfied exactly by assignments in which the result is the product in F[W]/(W^n - beta), and the calculated assignment satisfies them.", "quantifier": "all fields of characteristic other than 2, 3, all non-zero beta, all elements given by variables or linear combinations, all assignments", "why_tests_cant": "the interpolation used in the constraints must be invertible for every field; the tests of these files are commented out", "anchors": ["include/nil/blueprint/components/algebra/fields/r1cs/element_fp2.hpp:219-258", "include/nil/blueprint/components/algebra/fields/r1cs/element_fp2.hpp:315-347", "include/nil/blueprint/components/algebra/fields/r1cs/element_fp3.hpp:238-311"]}
{"id": "C118", "title": "Quartic extension gadgets accept exactly the products", "statement": "The tower multiplication, the direct (seven constraint) multiplication, the squaring and, for elements of norm one, the cyclotomic squaring of Fp4 are satisfied exactly by products, and the calculated assignments satisfy them.", "quantifier": "all fields of characteristic other than 2, 3, 5, all beta other than 0 and 1, all elements, all assignments", "why_tests_cant": "the seven constraint form was cherry-picked from a symbolic solver; correctness is a polynomial identity and an invertibility condition over every field", "anchors": ["include/nil/blueprint/components/algebra/fields/r1cs/element_fp4.hpp:157-231", "include/nil/blueprint/components/algebra/fields/r1cs/element_fp4.hpp:326-421", "include/nil/blueprint/components/algebra/fields/r1cs/element_fp4.hpp:465-531", "include/nil/blueprint/components/algebra/fields/r1cs/element_fp4.hpp:567-639"]}
{"id": "C119", "title": "Sextic extension gadgets accept exactly the products", "statement": "The multiplication of Fp6 is satisfied exactly by products and the cyclotomic squaring exactly by the squares of elements of the cyclotomic subgroup; the calculated assignments satisfy them.", "quantifier": "all fields of characteristic other than 2, 3, all non-zero beta, all elements, all assignments", "why_tests_cant": "same as C118; the cyclotomic identity holds only in a subgroup that random tests do not hit by chance", "anchors": ["include/nil/blueprint/components/algebra/fields/r1cs/element_fp6_2over3.hpp:175-267", "include/nil/blueprint/components/algebra/fields/r1cs/element_fp6_2over3.hpp:504-585"]}
{"id": "C120", "title": "Sparse multiplication in Fp6 determines its result", "statement": "element_fp6_2over3_mul_by_2345 is satisfied only by the product of its factors (the second with two zero coefficients).", "quantifier": "all factors and assignments", "why_tests_cant": "tests only run the honest prover; the missing constraint is invisible there", "anchors": ["include/nil/blueprint/components/algebra/fields/r1cs/element_fp6_2over3.hpp:313-388"]}
{"id": "C121", "title": "Exponentiation in extension fields forces the power", "statement": "The signed digit chain of exponentiation_component is satisfied only if the result is the base raised to the exponent, for every exponent.", "quantifier": "all exponents, bases, assignments, and all sound multiplication and squaring components (shown for Fp2, Fp4, Fp6)", "why_tests_cant": "the chain depends on the digits of the exponent and the claim is about all satisfying assignments; the tests are commented out", "anchors": ["include/nil/blueprint/components/algebra/fields/r1cs/exponentiation.hpp:77-173"]}
{"id": "C122", "title": "SHA-512 block values are those of FIPS 180-4", "statement": "The values that the SHA-512 block component calculates with spread words in bases 4 and 7 are the values of the compression function of FIPS 180-4.", "quantifier": "all chaining states, all blocks, all primes p >= 7^64", "why_tests_cant": "the tests hash a few blocks; carries, spread sums and table splits depend on all 1536 input bits", "anchors": ["include/nil/blueprint/components/hashes/sha2/plonk/sha512_process.hpp:432-880"]}
{"id": "C123", "title": "The honest SHA-512 block table is accepted", "statement": "The table filled by generate_assignments satisfies every constraint and shows the compressed state, for every state, block and choice of columns.", "quantifier": "all states, blocks, columns, start rows, prior tables, primes p >= 7^64", "why_tests_cant": "the tests use one column layout in which the witness and constant column have the same number", "anchors": ["include/nil/blueprint/components/hashes/sha2/plonk/sha512_process.hpp:182-425", "include/nil/blueprint/components/hashes/sha2/plonk/sha512_process.hpp:880-975"]}
{"id": "C124", "title": "Accepted SHA-512 block tables show the compressed state", "statement": "In every table accepted by the constraints of the SHA-512 block component the output is the compression of the input.", "quantifier": "all tables, states, blocks and fields with 2 != 0", "why_tests_cant": "tests only run honestly filled tables, a forged table is never tried", "anchors": ["include/nil/blueprint/components/hashes/sha2/plonk/sha512_process.hpp:182-425", "include/nil/blueprint/components/hashes/sha2/plonk/sha512_process.hpp:880-975"]}
{"id": "C125", "title": "The honest SHA-512 table is accepted", "statement": "The table filled by generate_assignments of the SHA-512 component satisfies every constraint and shows the SHA-512 compression of the two blocks made from the twenty limbs, for every choice of columns.", "quantifier": "all limbs in range, columns, start rows, prior tables, primes p >= 7^64", "why_tests_cant": "one test vector in one column layout; the 1276-bit string and the placement of the columns are not varied", "anchors": ["include/nil/blueprint/components/hashes/sha2/plonk/sha512.hpp:155-224", "include/nil/blueprint/components/hashes/sha2/plonk/sha512.hpp:227-734", "include/nil/blueprint/components/hashes/sha2/plonk/sha512.hpp:949-969"]}
{"id": "C126", "title": "Accepted SHA-512 tables show the digest", "statement": "In every accepted table the output of the SHA-512 component is determined by the limbs.", "quantifier": "all tables, limbs, outputs and fields with 2 != 0", "why_tests_cant": "tests only run honestly filled tables", "anchors": ["include/nil/blueprint/components/hashes/sha2/plonk/sha512.hpp:736-947"]}
{"id": "C127", "title": "Words are cut correctly out of the limbs", "statement": "The gates of the first fifteen rows force the twenty word cells to hold the 64-bit pieces of the string R.x, R.y, A.x, A.y, M, 1 packed without gaps, and the limbs to be in their ranges.", "quantifier": "all tables accepted by the gates and copies, all primes p > 2^66", "why_tests_cant": "the shifts and masks of twenty words depend on twenty limbs of up to 66 bits; a wrong shift may agree on the test vector", "anchors": ["include/nil/blueprint/components/hashes/sha2/plonk/sha512.hpp:268-296", "include/nil/blueprint/components/hashes/sha2/plonk/sha512.hpp:736-947"]}
{"id": "C128", "title": "The hashed string is a padded message of FIPS 180-4", "statement": "The two blocks hashed by the SHA-512 component are the padding, in the sense of FIPS 180-4, of a message.", "quantifier": "all limbs in range, all messages shorter than 2^128 bits", "why_tests_cant": "the expected digest of the test is computed with the same conventions; no message of the standard has to correspond to it", "anchors": ["include/nil/blueprint/components/hashes/sha2/plonk/sha512.hpp:290-296"]}
{"id": "C129", "title": "Combined inner product computes its sum", "statement": "The output of the combined inner product component is sum_i xi^i (f1_i + r f2_i) over the k pairs: in every table that satisfies the constraints, and in the table the assigner generates, which satisfies them.", "quantifier": "all k, all fields, all inputs, start rows and prior tables", "why_tests_cant": "tests fix k and run only honestly generated tables", "anchors": ["include/nil/blueprint/components/algebra/fields/plonk/combined_inner_product.hpp:64-70", "include/nil/blueprint/components/algebra/fields/plonk/combined_inner_product.hpp:87-156", "include/nil/blueprint/components/algebra/fields/plonk/combined_inner_product.hpp:158-212"]}
{"id": "C130", "title": "The combined inner product cannot be forged", "statement": "For k > 0 pairs no table with given inputs satisfies the constraints and shows another output than the combined inner product of these inputs.", "quantifier": "all k > 0, all fields, all inputs and all claimed outputs", "why_tests_cant": "a forged table has to be constructed; tests do not search for one", "anchors": ["include/nil/blueprint/components/algebra/fields/plonk/combined_inner_product.hpp:158-208"]}
{"id": "C131", "title": "The knapsack hash does not depend on what was hashed before", "statement": "The static coefficient vector holds the numbers of the generator seeded with the index after every sequence of calls, no read is outside of it, and get_hash returns the product of the coefficient matrix with the input bits.", "quantifier": "all generators, dimensions, sequences of earlier calls, inputs of any length", "why_tests_cant": "the result could depend on the order in which lengths were first used; tests see one order", "anchors": ["include/nil/blueprint/components/hashes/knapsack/r1cs/knapsack.hpp:87-89", "include/nil/blueprint/components/hashes/knapsack/r1cs/knapsack.hpp:103-113", "include/nil/blueprint/components/hashes/knapsack/r1cs/knapsack.hpp:144-175"]}
{"id": "C132", "title": "Knapsack with field output", "statement": "On boolean input the constraints hold iff the outputs are the matrix product; the generated assignment satisfies them and shows the result of get_hash.", "quantifier": "all primes, dimensions, inputs, variables, earlier calls", "why_tests_cant": "tests run the honest assignment for one input", "anchors": ["include/nil/blueprint/components/hashes/knapsack/r1cs/knapsack.hpp:115-138"]}
{"id": "C133", "title": "Knapsack with bit output", "statement": "In every satisfying assignment the digest bits are the binary digits of the matrix product; the generated assignment satisfies the constraints and shows the result of get_hash.", "quantifier": "all primes, dimensions, numbers of bits, inputs, variables, earlier calls", "why_tests_cant": "a second digest for the same input has to be constructed; tests only check the honest one", "anchors": ["include/nil/blueprint/components/hashes/knapsack/r1cs/knapsack.hpp:192-246", "include/nil/blueprint/components/hashes/knapsack/r1cs/knapsack.hpp:256-281"]}
{"id": "C134", "title": "A Merkle tree update changes one leaf only", "statement": "In every satisfying assignment with boolean address, previous path, next leaf and next root there is one set of siblings such that the previous root is the node above the previous leaf and, unless the update is declared not successful, the next root is the node above the next leaf with the same siblings and the same address.", "quantifier": "all hash components satisfying the law, depths, addresses, leaves, roots, assignments", "why_tests_cant": "a malicious prover chooses both paths; tests run honest updates", "anchors": ["include/nil/blueprint/components/merkle_tree/r1cs/check_update.hpp:50-140", "include/nil/blueprint/components/merkle_tree/r1cs/check_update.hpp:142-186"]}
{"id": "C135", "title": "The Merkle tree update can be assigned", "statement": "After generate_assignments on boolean inputs the constraints hold.", "quantifier": "all hash components satisfying the law, depths, addresses, siblings", "why_tests_cant": "the repository has no working test of the component; a test that fills in both paths beforehand does not see that the siblings are not copied", "anchors": ["include/nil/blueprint/components/merkle_tree/r1cs/check_update.hpp:188-209"]}
{"id": "C136", "title": "The zero knowledge polynomials of the kimchi verifier", "statement": "In every satisfying table the output of zk_w3 is omega^(n-3), that of zkpm_evaluate is (x - w^(n-3))(x - w^(n-2))(x - w^(n-1)), that of vanishes_on_last_4_rows the product over the last four rows; on a point of the domain the value of zkpm_evaluate is zero exactly on the last three rows. For all inputs the assignments satisfy the constraints and touch no other row.", "quantifier": "all prime fields of at least 2^64 elements, domain sizes, inputs, start rows, tables", "why_tests_cant": "a test compares one point with one precomputed value and does not try tables that were not made by the assignment", "anchors": ["include/nil/blueprint/components/systems/snark/plonk/kimchi/detail/zk_w3.hpp:93-141", "include/nil/blueprint/components/systems/snark/plonk/kimchi/detail/zkpm_evaluate.hpp:98-202", "include/nil/blueprint/components/systems/snark/plonk/kimchi/detail/constraints/vanishes_on_last_4_rows.hpp:98-203"]}
{"id": "C137", "title": "Unnormalized Lagrange basis", "statement": "In every satisfying table the output times (x - w^i) is x^n - 1, where a negative i counts from the end of the domain; the table can be filled for every x other than w^i, and for x = w^i no table satisfies the constraints.", "quantifier": "all prime fields of at least 2^64 elements, indices, domain sizes, inputs, tables", "why_tests_cant": "the excluded point is one in the field", "anchors": ["include/nil/blueprint/components/systems/snark/plonk/kimchi/detail/constraints/unnormalized_lagrange_basis.hpp:100-186"]}
{"id": "C138", "title": "Challenge polynomials", "statement": "b_poly computes the product of (1 + u_i x^(2^(n-1-i))), b_poly_coefficients the coefficients of the same polynomial, and prev_chal_evals its evaluations cut after max_poly_size coefficients, at two points; every satisfying table has these outputs and every input can be assigned.", "quantifier": "all prime fields, numbers of rounds, sizes, challenges, points, tables", "why_tests_cant": "the polynomial has 2^n coefficients, and the index arithmetic over k and pow is right or wrong for each", "anchors": ["include/nil/blueprint/components/systems/snark/plonk/kimchi/detail/oracles_scalar/b_poly.hpp:105-180", "include/nil/blueprint/components/systems/snark/plonk/kimchi/detail/oracles_scalar/b_poly_coefficients.hpp:86-150", "include/nil/blueprint/components/systems/snark/plonk/kimchi/detail/oracles_scalar/prev_chal_evals.hpp:110-260"]}
{"id": "C139", "title": "Public input evaluation", "statement": "lagrange_denominators gives the inverses of z - w^i for both points, and has no satisfying table if a point is one of the powers. public_evaluations gives minus the value at zeta and at zeta omega of the polynomial of degree less than n that has the public input on the first rows and zero on the others. element_powers gives the powers of the base.", "quantifier": "all prime fields, domains, public inputs, points outside the domain, tables", "why_tests_cant": "the interpolation formula is an identity of polynomials; a test checks it at one point", "anchors": ["include/nil/blueprint/components/systems/snark/plonk/kimchi/detail/oracles_scalar/lagrange_denominators.hpp:105-171", "include/nil/blueprint/components/systems/snark/plonk/kimchi/detail/oracles_scalar/public_evaluations.hpp:102-240", "include/nil/blueprint/components/systems/snark/plonk/kimchi/detail/oracles_scalar/element_powers.hpp:69-150"]}
{"id": "C140", "title": "Permutation and generic gate scalars", "statement": "perm_scalars gives -(z beta alpha zkp) times the product of gamma + beta s_i + w_i; generic_scalars the ten scalars of the double generic gate; combine_proof_evals the products of all evaluations with x; in every satisfying table, and every input can be assigned.", "quantifier": "all prime fields, numbers of columns, inputs, tables", "why_tests_cant": "one run of the honest prover does not show that no other output is possible", "anchors": ["include/nil/blueprint/components/systems/snark/plonk/kimchi/detail/constraints/perm_scalars.hpp:99-195", "include/nil/blueprint/components/systems/snark/plonk/kimchi/detail/constraints/generic_scalars.hpp:116-215", "include/nil/blueprint/components/systems/snark/plonk/kimchi/detail/oracles_scalar/combine_proof_evals.hpp:147-260"]}
{"id": "C141", "title": "Rows and output cells of the kimchi components", "statement": "For each of these components the calls take rows_amount rows, and the variables computed by result_type, which is written separately, are those of the outputs.", "quantifier": "all parameters and start rows", "why_tests_cant": "the offsets depend on the template parameters; a test instantiates one choice", "anchors": ["include/nil/blueprint/components/systems/snark/plonk/kimchi/detail/zk_w3.hpp:77-91", "include/nil/blueprint/components/systems/snark/plonk/kimchi/detail/oracles_scalar/b_poly.hpp:70-103", "include/nil/blueprint/components/systems/snark/plonk/kimchi/detail/oracles_scalar/prev_chal_evals.hpp:86-140", "include/nil/blueprint/components/systems/snark/plonk/kimchi/detail/oracles_scalar/public_evaluations.hpp:80-118", "include/nil/blueprint/components/systems/snark/plonk/kimchi/detail/oracles_scalar/element_powers.hpp:69-90", "include/nil/blueprint/components/systems/snark/plonk/kimchi/detail/constraints/generic_scalars.hpp:73-114", "include/nil/blueprint/components/systems/snark/plonk/kimchi/detail/constraints/perm_scalars.hpp:73-96"]}
{"id": "C142", "title": "Polish notation expressions of the kimchi verifier", "statement": "For every expression of kimchi, translated to tokens as to_polish does, rpn_expression outputs the value of the expression in every satisfying table; the constraints can be satisfied for all inputs for which the Lagrange bases in the expression are defined; the component takes the rows counted by rpn_component_rows.", "quantifier": "all prime fields of at least 2^64 elements, expressions, environments, start rows, tables", "why_tests_cant": "there is no bound on the nesting of the expressions; a test evaluates a few", "anchors": ["include/nil/blueprint/components/systems/snark/plonk/kimchi/detail/constraints/rpn_expression.hpp:171-210", "include/nil/blueprint/components/systems/snark/plonk/kimchi/detail/constraints/rpn_expression.hpp:240-372", "include/nil/blueprint/components/systems/snark/plonk/kimchi/detail/constraints/rpn_expression.hpp:408-566", "include/nil/blueprint/components/systems/snark/plonk/kimchi/detail/constraints/rpn_string_literal.hpp:87-157"]}
{"id": "C143", "title": "ft_eval computes the linearized polynomial at zeta", "statement": "In every satisfying table the output of ft_eval is the value ft_eval0 of the verifier of kimchi: permutation product minus the evaluation of the public input minus the shifted product plus the boundary term minus the constant term; all inputs with zeta outside the two boundary points can be assigned; the component takes rows() rows and the output is in the last one.", "quantifier": "all prime fields of at least 2^64 elements, numbers of permuted columns, constant term expressions, inputs, tables", "why_tests_cant": "the test compares one proof, and both generators make the same mistake, so they agree", "anchors": ["include/nil/blueprint/components/systems/snark/plonk/kimchi/detail/oracles_scalar/ft_eval.hpp:90-162", "include/nil/blueprint/components/systems/snark/plonk/kimchi/detail/oracles_scalar/ft_eval.hpp:164-382"]}
{"id": "C144", "title": "The combined inner product of the oracles", "statement": "The output of oracles_cip is the sum of v^i (e_i(zeta) + u e_i(zeta omega)) over all evaluations the verifier of kimchi combines: every chunk of the previous challenge polynomials, the public input, ft, z, both selectors, the wires and the sigmas.", "quantifier": "all configurations, inputs, tables", "why_tests_cant": "the configurations are template arguments, of which a test has one", "anchors": ["include/nil/blueprint/components/systems/snark/plonk/kimchi/detail/oracles_scalar/oracles_cip.hpp:68-95", "include/nil/blueprint/components/systems/snark/plonk/kimchi/detail/oracles_scalar/oracles_cip.hpp:139-206", "include/nil/blueprint/components/systems/snark/plonk/kimchi/detail/oracles_scalar/oracles_cip.hpp:208-247"]}
{"id": "C145", "title": "to_limbs cuts a field element into its four 64 bit limbs", "statement": "In every satisfying table the four outputs of to_limbs are the 64 bit limbs of the canonical representative of the input, in the order of significance; every input can be assigned, in the counted rows.", "quantifier": "all primes between 2^66 and 2^256, inputs, start rows, tables", "why_tests_cant": "a table with another decomposition of the same residue is no test case; the claim is about all tables a prover may send", "anchors": ["include/nil/blueprint/components/systems/snark/plonk/kimchi/detail/limbs.hpp:224-366", "include/nil/blueprint/components/systems/snark/plonk/kimchi/detail/limbs.hpp:367-520"]}
{"id": "C146", "title": "from_limbs packs limbs", "statement": "In every satisfying table the output of from_limbs is the sum of the two limbs with weight 2^64 on the second; every pair of limbs can be assigned.", "quantifier": "all primes, limbs, start rows, tables", "why_tests_cant": "holds for all field elements, not only small ones", "anchors": ["include/nil/blueprint/components/systems/snark/plonk/kimchi/detail/limbs.hpp:58-218"]}
{"id": "C147", "title": "compare_with_const tells whether a value is below the modulus of the Pallas base field", "statement": "The output of compare_with_const is 0 if the value is at least the constant and 1 otherwise, in every satisfying table; all values can be assigned.", "quantifier": "all numbers of bits N, differences k below 2^N, primes of at least 2^(N+1), values, start rows, tables", "why_tests_cant": "the tests run the honest generator on values near the modulus; the claim is about all tables, and needs 0 too", "anchors": ["include/nil/blueprint/components/systems/snark/plonk/kimchi/detail/compare.hpp:47-51", "include/nil/blueprint/components/systems/snark/plonk/kimchi/detail/compare.hpp:96-216", "include/nil/blueprint/components/systems/snark/plonk/kimchi/detail/compare.hpp:218-318", "include/nil/blueprint/components/systems/snark/plonk/kimchi/detail/compare.hpp:335-382"]}
{"id": "C148", "title": "The digest of the base field transcript", "statement": "When the scalar field is smaller, the digest is the squeezed element if it is less than the modulus of the scalar field, and 0 otherwise, in every satisfying table.", "quantifier": "all squeezed elements, start rows, tables", "why_tests_cant": "a squeezed element above the modulus has probability 2^-167, and a wrong table is never generated by the code", "anchors": ["include/nil/blueprint/components/systems/snark/plonk/kimchi/detail/transcript_fq.hpp:253-286", "include/nil/blueprint/components/systems/snark/plonk/kimchi/detail/compare.hpp:96-216"]}
{"id": "C149", "title": "The kimchi sponge is the duplex sponge of rate 2", "statement": "For every sequence of rounds of absorbing elements and squeezing elements, in every satisfying table, output i of a round is element i mod 2 of the state after i/2+1 permutations of the state that absorbed the elements two at a time with a permutation between the blocks.", "quantifier": "all numbers of rounds, numbers of elements, Poseidon parameters, primes between 2^128 and 2^256, start rows, tables", "why_tests_cant": "the tests absorb and squeeze once or twice; the state machine has a counter whose errors show in other orders", "anchors": ["include/nil/blueprint/components/systems/snark/plonk/kimchi/detail/sponge.hpp:62-120", "include/nil/blueprint/components/systems/snark/plonk/kimchi/detail/sponge.hpp:122-246"]}
{"id": "C150", "title": "The transcripts follow the sponge for every order of actions", "statement": "For every sequence of absorb, squeeze and challenge, the outputs forced by the circuit are those of the sponge on the values absorbed, a challenge being the low 128 bits of the canonical representative of the squeezed element; both transcript classes agree; the sequence can always be assigned and stays in the rows reserved for each action.", "quantifier": "all sequences of actions, both classes, inputs settled before they are used, Poseidon parameters, primes between 2^128 and 2^256, start rows, tables", "why_tests_cant": "infinitely many orders, and the claim is about all tables a prover may send", "anchors": ["include/nil/blueprint/components/systems/snark/plonk/kimchi/detail/transcript_fr.hpp:100-279", "include/nil/blueprint/components/systems/snark/plonk/kimchi/detail/transcript_fq.hpp:60-253"]}
{"id": "C151", "title": "random derives the batching scalar from all proofs", "statement": "The scalar of random is the low 128 bits of the element squeezed after absorbing, for every proof of the batch in order, the three state elements, the combined inner product and z1, z2; the table is accepted for every batch and only the counted rows are written.", "quantifier": "all batch sizes, values, Poseidon parameters, primes between 2^128 and 2^256, start rows, tables", "why_tests_cant": "the tests fix a batch of one or two proofs and the honest table", "anchors": ["include/nil/blueprint/components/systems/snark/plonk/kimchi/detail/batch_scalar/random.hpp:70-190"]}
{"id": "C152", "title": "to_group maps every field element to a point of the curve", "statement": "For every t, every accepted table of to_group gives as result a point of the curve y^2 = x^3 + b: the first of the three candidate x of the map whose right side is a square, with a root of it; the honest assignment is accepted for every t and the constants of both curves are right.", "quantifier": "all t, tables, start rows, curve constants; pallas and vesta", "why_tests_cant": "the tests run the honest prover on one t from row 0; a table with other roots, another start row, and a t all of whose candidates are squares are not run", "anchors": ["include/nil/blueprint/components/systems/snark/plonk/kimchi/detail/to_group.hpp:74-323", "include/nil/blueprint/components/systems/snark/plonk/kimchi/detail/to_group.hpp:325-463", "include/nil/blueprint/components/systems/snark/plonk/kimchi/detail/to_group.hpp:585-630"]}
{"id": "C153", "title": "prepare_scalars shifts every scalar", "statement": "In every accepted table, for every i, output i plus 2^255 is scalar i when the scalar field is the larger one, and twice output i plus 2^255 plus 1 is scalar i otherwise; the honest table is accepted and only the counted rows are written.", "quantifier": "all numbers of scalars, both cases, odd primes, start rows, tables", "why_tests_cant": "the claim is about all tables a prover may send and all input sizes", "anchors": ["include/nil/blueprint/components/systems/snark/plonk/kimchi/detail/batch_scalar/prepare_scalars.hpp:43-171"]}
{"id": "C154", "title": "map_fq and map_fr bind the public data to the recomputed data", "statement": "In every accepted table of map_fq (map_fr), every variable of the public data has the value of the matching variable of the recalculated data.", "quantifier": "all data, tables, start rows", "why_tests_cant": "the verifier tests use honest data, for which the equality holds whether or not it is enforced", "anchors": ["include/nil/blueprint/components/systems/snark/plonk/kimchi/detail/map_fq.hpp:51-144", "include/nil/blueprint/components/systems/snark/plonk/kimchi/detail/map_fr.hpp:53-148"]}
{"id": "C155", "title": "table_commitment multiplies every column with its combiner", "statement": "For every number of lookup columns, parts of a commitment and with or without a runtime table, the pairs given to the multi scalar multiplication are part k of column i with combiner i, then the parts of the runtime table with combiner 1.", "quantifier": "all numbers of columns and parts, both settings of the runtime table, all commitments and combiners", "why_tests_cant": "there is no test of the component", "anchors": ["include/nil/blueprint/components/systems/snark/plonk/kimchi/detail/table_commitment.hpp:46-218"]}
{"id": "C156", "title": "The Benes network routes a permutation of the packets", "statement": "In every accepted assignment of benes_routing_component with all lines unpacked, the output packets are the input packets in another order, for every number of packets, packet size and field capacity; and the honest assignment is accepted for every routing and delivers every packet.", "quantifier": "all networks, packet sizes, capacities, assignments, permutations", "why_tests_cant": "the test runs the honest assignment; what a prover may claim instead, and packets that are equal, are not covered", "anchors": ["include/nil/blueprint/components/routing/r1cs/benes.hpp:42-223"]}
{"id": "C157", "title": "The AS-Waksman network routes a permutation of the packets", "statement": "In every accepted assignment of as_waksman_routing_component the output packets are the input packets in another order, for every number of packets, packet size and field capacity.", "quantifier": "all networks, packet sizes, capacities, assignments", "why_tests_cant": "the test routes packets of zeros only and runs the honest assignment", "anchors": ["include/nil/blueprint/components/routing/r1cs/as_waksman.hpp:45-234"]}
{"id": "C158", "title": "prepare_scalars_inversion undoes prepare_scalars", "statement": "In every accepted table of prepare_scalars_inversion, output i is the scalar whose prepare_scalars is input i: x + 2^255 if the scalar field is larger, 2x + 2^255 + 1 otherwise.", "quantifier": "all numbers of scalars, both cases, odd primes, start rows, tables", "why_tests_cant": "there is no test of the component", "anchors": ["include/nil/blueprint/components/systems/snark/plonk/kimchi/scalar_details/prepare_scalars_inversion.hpp:41-171"]}
{"id": "C159", "title": "G1 validity, addition and doubling in r1cs", "statement": "element_g1_is_well_formed accepts exactly the points of y^2 = x^3 + a x + b. For points of the curve, in every accepted assignment of element_g1_add the result is the sum in the group of the curve, in every accepted assignment of element_g1_doubled it is the double; the honest assignment is accepted exactly if the summands are neither equal nor opposite, or the point is not its own opposite.", "quantifier": "all fields, curve coefficients, points, linear combinations as inputs, assignments", "why_tests_cant": "a test runs the honest assignment on a few points of one curve", "anchors": ["include/nil/blueprint/components/algebra/curves/weierstrass/r1cs/element_g1.hpp:104-258"]}
{"id": "C160", "title": "G1 multi scalar multiplication in r1cs", "statement": "For points of the curve and bits, in every accepted assignment of element_g1_multi_scalar_mul the result is the start plus the sum of each point times the number its bits make, lowest bit first; the honest assignment is accepted if no needed power of two of a point is neutral and no partial sum is equal or opposite to the next multiple.", "quantifier": "all fields, curves, numbers of points, bits for each point, points, assignments", "why_tests_cant": "there is no test of the component; partial sums that meet a multiple are rare", "anchors": ["include/nil/blueprint/components/algebra/curves/detail/r1cs/scalar_mul.hpp:48-158"]}
{"id": "C161", "title": "Final exponentiation of the pairing", "statement": "Frobenius_map(m) of Fp4 and Fp6 is the power q^m. In every accepted assignment of final_exp_component the input is invertible and the result is its power (q^2-1)(q w1 +- w0) for embedding degree 4 and (q^3-1)(q+1)(q w1 +- w0) for embedding degree 6, for all positive chunks w1, w0 of the exponent, although the squarings are cyclotomic ones.", "quantifier": "all primes q = 1 mod 4 (6), non-residues, exponents, elements, assignments", "why_tests_cant": "there is no test that compiles the component; wrong intermediate elements outside the cyclotomic subgroup would only show for special inputs", "anchors": ["include/nil/blueprint/components/algebra/pairing/weierstrass/r1cs/final_exponentiation.hpp:46-330", "include/nil/blueprint/components/algebra/fields/r1cs/element_fp4.hpp:95-108", "include/nil/blueprint/components/algebra/fields/r1cs/element_fp6_2over3.hpp:97-123"]}
{"id": "C162", "title": "result_is_one of the final exponentiation", "statement": "In every accepted assignment of final_exp_component the flag result_is_one is 1 if the result is 1 and 0 otherwise.", "quantifier": "all components and assignments", "why_tests_cant": "the honest assignment sets the flag right; a prover need not", "anchors": ["include/nil/blueprint/components/algebra/pairing/weierstrass/r1cs/final_exponentiation.hpp:171-183", "include/nil/blueprint/components/algebra/pairing/weierstrass/r1cs/final_exponentiation.hpp:305-313"]}
{"id": "C163", "title": "Precomputation of the multiples of Q", "statement": "In every accepted assignment of precompute_G2_component for a point Q of the twist, the coefficients hold the multiples of Q along the signed digits of the loop count, and the last one holds loop_count * Q.", "quantifier": "all fields, curves, loop counts, points and assignments", "why_tests_cant": "the honest assignment computes the slopes by division; whether the constraints allow other slopes is not visible in a run", "anchors": ["include/nil/blueprint/components/algebra/pairing/weierstrass/r1cs/precomputation.hpp:150-570"]}
{"id": "C164", "title": "Miller loop of the pairing", "statement": "In every accepted assignment of mnt_miller_loop_component on coefficients accepted by precompute_G2_component the result is the value of the Miller loop: starting from 1, square and multiply with the tangent at R evaluated at P, multiply with the chord through R and Q (or -Q) evaluated at P.", "quantifier": "all fields, curves, loop counts, points and assignments", "why_tests_cant": "there is no test that compiles the component, and a run cannot show that the constraints determine the result", "anchors": ["include/nil/blueprint/components/algebra/pairing/weierstrass/r1cs/miller_loop.hpp:46-410", "include/nil/blueprint/components/algebra/pairing/weierstrass/r1cs/precomputation.hpp:52-148"]}
{"id": "C165", "title": "Points of G2 are points of the twist", "statement": "element_g2_is_well_formed accepts (X, Y) exactly if it lies on the twist of the pairing curve.", "quantifier": "all curves and points", "why_tests_cant": "the component has no test; a run of the honest assignment does not check the curve equation", "anchors": ["include/nil/blueprint/components/algebra/curves/weierstrass/r1cs/element_g2.hpp:106-160"]}
{"id": "C166", "title": "Products and quotients of Miller loops", "statement": "In every accepted assignment of mnt_e_over_e_miller_loop_component and mnt_e_times_e_over_e_miller_loop_component the result times the Miller loop of the last pair is the product of the Miller loops of the other pairs.", "quantifier": "all fields, curves, loop counts, points and assignments", "why_tests_cant": "the quotient is computed by an inversion in the assignment and by multiplications with swapped roles in the constraints; no run compares the two for other assignments", "anchors": ["include/nil/blueprint/components/algebra/pairing/weierstrass/r1cs/miller_loop.hpp:380-829"]}
{"id": "C167", "title": "Pairing checks", "statement": "In every accepted assignment the output of check_e_equals_e_component is 1 if e(P1,Q1) = e(P2,Q2) and 0 otherwise, and the output of check_e_equals_ee_component is 1 if e(P1,Q1) = e(P2,Q2) e(P3,Q3) and 0 otherwise.", "quantifier": "all fields, curves, loop counts, points and assignments", "why_tests_cant": "the components have no test; that a false equation cannot be accepted with output 1 is a statement about all assignments", "anchors": ["include/nil/blueprint/components/algebra/pairing/weierstrass/r1cs/pairing_checks.hpp:48-143"]}
{"id": "C168", "title": "Set commitment accumulator", "statement": "is_in_set answers exactly whether a value with the same hash was added; as long as no more different hashes were added than announced, get_membership_proof of every added value gives an address inside the tree and a path that leads to get_commitment, and later additions do not move it; whoever has a path to the commitment for another value has found a collision (or a value that hashes to zeros).", "quantifier": "all hash functions, histories of additions, values, addresses and paths", "why_tests_cant": "the invariant is about every history of additions, and the last part about every forged path", "anchors": ["include/nil/blueprint/components/systems/snark/set_commitment.hpp:56-106"]}
{"id": "C169", "title": "Set membership component", "statement": "In every accepted assignment of set_commitment_component with check_successful set, the element is in the set of the accumulator whose commitment is the root, or a collision of the hash is visible; the honest assignment is accepted for every element, address and path, whether check_successful is 0 or 1.", "quantifier": "all hash components, depths, elements, roots, proofs and assignments", "why_tests_cant": "the test runs one honest proof for one size; forged assignments, depth 0 and check_successful = 0 are not covered", "anchors": ["include/nil/blueprint/components/systems/set_commitment/set_commitment_component.hpp:43-100", "include/nil/blueprint/components/systems/set_commitment/set_membership_proof_variable.hpp:43-69"]}
{"id": "C170", "title": "Non-native multiplication of the base point of Ed25519", "statement": "The output of fixed_base_multiplication is k times the base point in every accepted table, and the assigned table is accepted and holds it, for every k below the order of the group; generate_circuit and generate_assignments return the same cells.", "quantifier": "all scalars, tables, fields above 2^254", "why_tests_cant": "tests run the honest assignment; a table whose points have nothing to do with the scalar is never tried", "anchors": ["include/nil/blueprint/components/algebra/curves/edwards/plonk/non_native/fixed_base_multiplication.hpp:64-84", "include/nil/blueprint/components/algebra/curves/edwards/plonk/non_native/fixed_base_multiplication.hpp:86-228", "include/nil/blueprint/components/algebra/curves/edwards/plonk/non_native/fixed_base_multiplication.hpp:230-276"]}
{"id": "C171", "title": "EdDSA verification rejects wrong signatures", "statement": "In every accepted table of eddsa verification s B = R + k A for the public s, R, A and the reduced hash k.", "quantifier": "all signatures, keys, messages and tables", "why_tests_cant": "whether a wrong signature can be accepted is a statement about all the tables of a dishonest prover", "anchors": ["include/nil/blueprint/components/pubkey/eddsa/plonk/non_native/verification.hpp:140-160", "include/nil/blueprint/components/pubkey/eddsa/plonk/non_native/verification.hpp:215-257", "include/nil/blueprint/components/pubkey/eddsa/plonk/non_native/verification.hpp:266-288"]}
{"id": "C172", "title": "Scalar multiplication with the endomorphism", "statement": "In every accepted table of variable_base_endo_scalar_mul the output is the point that 64 steps P -> 2P + Q compute from 2(T + phi T), where Q is T, phi T or an opposite as the 128 bits of b say; the assigned table is accepted and holds that point.", "quantifier": "all points of the curve, scalars of 128 bits and tables", "why_tests_cant": "tests compare the honest output for a few scalars; a table that stays on one abscissa or uses another base point is never tried", "anchors": ["include/nil/blueprint/components/algebra/curves/pasta/plonk/variable_base_endo_scalar_mul_15_wires.hpp:141-241", "include/nil/blueprint/components/algebra/curves/pasta/plonk/variable_base_endo_scalar_mul_15_wires.hpp:285-324", "include/nil/blueprint/components/algebra/curves/pasta/plonk/variable_base_endo_scalar_mul_15_wires.hpp:326-376"]}
{"id": "C173", "title": "Test that a pair of numbers is a point of Ed25519", "statement": "Every table accepted by ec_point has a point of Ed25519 at its input; the assigned table is accepted for every point of the curve and rejected for every other pair of reduced coordinates.", "quantifier": "all tables with the constants and the widths of chunks, all reduced coordinates, all start rows", "why_tests_cant": "tests run the component on a few points of the curve; pairs off the curve and tables of a dishonest prover are never tried", "anchors": ["include/nil/blueprint/components/algebra/curves/edwards/plonk/non_native/ec_point.hpp:90-103", "include/nil/blueprint/components/algebra/curves/edwards/plonk/non_native/ec_point.hpp:108-166", "include/nil/blueprint/components/algebra/curves/edwards/plonk/non_native/ec_point.hpp:168-237"]}
{"id": "C174", "title": "Generators of the reverse tables of SHA-256", "statement": "Whatever the number of threads and their interleaving, the finished set of the generator of base 4 (7) is the set of all pairs of a number with eight digits up to 3 to the base 4 (7) and the byte of the parities of its digits (for base 7 without the pairs in which digits j and j + 5 are 0 and 3), each pair once; these are the rows that the lookups of sha256_process are modelled with.", "quantifier": "all interleavings of the threads, all numbers of threads up to 2^30, all fields of at least 7^32 elements", "why_tests_cant": "the generator takes 2^32 words; a test runs one interleaving with two threads, and compares nothing with the set of pairs that a proof can need", "anchors": ["include/nil/blueprint/components/hashes/sha2/plonk/detail/sha_table_generators.hpp:82-176", "include/nil/blueprint/components/hashes/sha2/plonk/detail/sha_table_generators.hpp:195-233", "include/nil/blueprint/components/hashes/sha2/plonk/detail/sha_table_generators.hpp:236-284", "include/nil/blueprint/components/hashes/sha2/plonk/detail/sha_table_generators.hpp:303-343"]}
{"id": "C175", "title": "Opcodes of the zkEVM, their bytes and the options of the selector", "statement": "Opcodes and bytes correspond one to one, the bytes are those of the EVM; every accepted row of the zkEVM circuit has the byte of an opcode, every opcode can be selected, and the operation of its opcode constrains the row.", "quantifier": "all sequences of insertions, all bytes, all tables and rows, all prime fields of at least 256 elements", "why_tests_cant": "tests run the five implemented opcodes, whose bytes are small; no test selects a byte that is no opcode or is above the number of opcodes", "anchors": ["include/nil/blueprint/zkevm/zkevm_opcodes.hpp:192-214", "include/nil/blueprint/zkevm/zkevm_opcodes.hpp:218-368", "include/nil/blueprint/zkevm/zkevm_circuit.hpp:296-330", "include/nil/blueprint/zkevm/zkevm_circuit.hpp:349-393"]}
{"id": "C176", "title": "Opcodes of the zkEVM and the stack of the machine", "statement": "The rows of an opcode hold the words on top of the stack and the result the EVM computes; a sequence of opcodes changes the stack as the EVM does, so that an opcode works on the results of those before it.", "quantifier": "all stacks of 256-bit words, all sequences of the implemented opcodes", "why_tests_cant": "tests assign opcodes one after the other on a stack that they have filled with unrelated words and look at satisfaction only, never at the stack", "anchors": ["include/nil/blueprint/zkevm/stack.hpp:38-63", "include/nil/blueprint/zkevm/operations/add_sub.hpp:119-162", "include/nil/blueprint/zkevm/operations/mul.hpp:144-201", "include/nil/blueprint/zkevm/operations/div.hpp:216-301", "include/nil/blueprint/zkevm/operations/iszero.hpp:72-99", "include/nil/blueprint/zkevm/zkevm_circuit.hpp:148-160"]}
