[
 {
  "definition": "MulByConstant.calculate",
  "to": "x + k",
  "tightened": [
   "mulByConstant_complete_partial"
  ],
  "note": "calculate was not tied to the stored value before; the theorem now compares both"
 },
 {
  "definition": "Asg.enable",
  "to": "r + 2",
  "tightened": [
   "enableRange_alloc_le"
  ],
  "note": "a bound on the allocated rows from above was added"
 },
 {
  "definition": "Asg.enableLoop",
  "to": "",
  "note": "only the termination measure changes; same function"
 },
 {
  "definition": "Asg.toTable",
  "to": "",
  "note": "value of cells which do not exist; read only outside the rows the claims speak about"
 },
 {
  "definition": "Circuit.init",
  "to": "",
  "tightened": [
   "selectors_count"
  ],
  "note": "selectors_count now fixes the number of selectors handed out"
 },
 {
  "definition": "Circuit.privIdx",
  "to": "",
  "note": "value of the sentinel; every statement is about variables at or away from it, so each choice gives an equally correct circuit"
 },
 {
  "definition": "LogicAndFlag.rows",
  "to": "",
  "tightened": [
   "logicAndFlag_rows"
  ],
  "note": "wasted rows were not excluded before"
 },
 {
  "definition": "LogicOrFlag.rows",
  "to": "w ≤ 7",
  "tightened": [
   "logicOrFlag_rows"
  ],
  "note": "wasted rows were not excluded before"
 },
 {
  "definition": "LogicOrFlag.rows",
  "to": "w < 4",
  "note": "same function: both branches give 2 at w = 4"
 },
 {
  "definition": "BoolOp.load",
  "to": "",
  "note": "default of an index which is never read"
 },
 {
  "definition": "PowFactor.zeroVar",
  "to": "",
  "note": "copy variables are absolute, the flag is not looked at"
 },
 {
  "definition": "RangeCheck.zeroVar",
  "to": "",
  "note": "copy variables are absolute, the flag is not looked at"
 },
 {
  "definition": "BitBuilder.base",
  "to": "- 1) 3)",
  "tightened": [],
  "note": "equivalent edit: the number of rows is a multiple of three, so the last visited row is unchanged"
 },
 {
  "definition": "BitBuilder.zeroVar",
  "to": "true",
  "tightened": [],
  "note": "equivalent edit: variables of copy constraints are read absolutely, the relative flag plays no role"
 },
 {
  "definition": "DivRem.rcVar",
  "to": "getD i 1",
  "tightened": [],
  "note": "equivalent edit: the default is never read, i is below four"
 },
 {
  "definition": "DivRem.qr",
  "to": "then 1 else",
  "tightened": [],
  "note": "remainder written for a zero divisor; completeness assumes a non-zero divisor, no claim covers this value"
 },
 {
  "definition": "NonNative.signVal",
  "to": "",
  "tightened": [
   "signed_roundtrip"
  ],
  "note": "the exact result of chopping and gluing is now stated"
 },
 {
  "definition": "NonNative.chopSigned",
  "to": "",
  "tightened": [
   "signed_roundtrip"
  ],
  "note": "the exact result of chopping and gluing is now stated"
 },
 {
  "definition": "NonNative.glueSigned",
  "to": "",
  "tightened": [
   "signed_roundtrip"
  ],
  "note": "the exact result is now stated, and an example fixes the reading of a zero sign cell"
 },
 {
  "definition": "NonNative.chopSigned256",
  "to": "",
  "tightened": [
   "signed256_roundtrip"
  ],
  "note": "the exact result of chopping and gluing is now stated"
 },
 {
  "definition": "NonNative.glueSigned256",
  "to": "",
  "tightened": [
   "signed256_roundtrip"
  ],
  "note": "the exact result of chopping and gluing is now stated"
 },
 {
  "definition": "NonNative.pallasScalarSizes",
  "to": "",
  "note": "same function below 2^255, and canonical scalars are below"
 },
 {
  "definition": "Manifest.rangeOf",
  "to": "",
  "note": "a range of one value instead of that single value: denotes the same set, which is all the claim speaks of"
 },
 {
  "definition": "Manifest.maxValue",
  "to": "",
  "note": "value for an unsatisfiable parameter, which max_value_if_sat does not promise anything about"
 },
 {
  "definition": "Manifest.mergeSingleRange",
  "to": "",
  "tightened": [
   "merge_sat"
  ],
  "note": "merging used to be allowed to return an empty parameter"
 },
 {
  "definition": "Manifest.mergeRange",
  "to": "",
  "note": "the merged parameter is another one that still implies both; the claim is one-sided"
 },
 {
  "definition": "Manifest.Comp.check",
  "to": "",
  "tightened": [
   "comp_check_iff"
  ],
  "note": "the component level had no theorem of its own"
 },
 {
  "definition": "Manifest.Comp.checkLoose",
  "to": "",
  "tightened": [
   "comp_checkLoose_iff_partial"
  ],
  "note": "the component level had no theorem of its own"
 },
 {
  "definition": "Manifest.Comp.isSat",
  "to": "",
  "tightened": [
   "comp_isSat_iff_partial"
  ],
  "note": "the component level had no theorem of its own"
 },
 {
  "definition": "Batch.batchIndex",
  "to": "",
  "note": "another reserved index; the claim needs only that no column has it, and that it differs from the constant index"
 },
 {
  "definition": "Batch.finalizeBatch",
  "to": "",
  "note": "the filling loop is entered and left at once; only the next free row moves up by one, which the claim leaves open"
 },
 {
  "definition": "ConstBatch.varCheck",
  "to": "",
  "note": "negative rotations count as beyond every row either way"
 },
 {
  "definition": "Stretcher.usesW",
  "to": "",
  "note": "more unions than needed: fewer strips, the claims on soundness of the cut still hold"
 },
 {
  "definition": "Colinear.pad",
  "to": "",
  "note": "contents of padding cells that no gate compares with anything outside the padding"
 },
 {
  "definition": "FinalPoly.sVar",
  "to": "",
  "note": "formal names of the two arguments; renamed consistently"
 },
 {
  "definition": "FinalPoly.yVar",
  "to": "",
  "note": "formal names of the two arguments; renamed consistently"
 },
 {
  "definition": "Connectedness.strong",
  "to": "",
  "note": "no inputs: the check is about inputs and claims nothing here"
 },
 {
  "definition": "CompFlag.bonus",
  "to": "",
  "note": "bookkeeping of rows for wide tables; one more row than used, the claim on the cells used still holds"
 },
 {
  "definition": "Exponentiation.perRow",
  "to": "",
  "note": "12/3 = 13/3: same number"
 },
 {
  "definition": "Exponentiation.zeroVar",
  "to": "",
  "note": "the relative flag of a variable used as a copy constraint end is not read"
 },
 {
  "definition": "Exponentiation.oneVar",
  "to": "",
  "note": "the relative flag of a variable used as a copy constraint end is not read"
 },
 {
  "definition": "Sqrt.expVar",
  "to": "",
  "note": "the relative flag of a variable used as a copy constraint end is not read"
 },
 {
  "definition": "Sqrt.zeroVar",
  "to": "",
  "note": "the relative flag of a variable used as a copy constraint end is not read"
 },
 {
  "definition": "Sqrt.oneVar",
  "to": "",
  "note": "the relative flag of a variable used as a copy constraint end is not read"
 },
 {
  "definition": "GateMover.GExpr.eval",
  "to": "",
  "note": "the meaning of gates is a parameter of the claim: rows are moved, values are equal under any meaning"
 },
 {
  "definition": "GateVerifier.zeroVar",
  "to": "true, .constant",
  "note": "the flag `relative` is not read by copy constraints and var_value, which take the rotation as row; same circuit"
 },
 {
  "definition": "GateVerifier.oneVar",
  "to": "true, .constant",
  "note": "the flag `relative` is not read by copy constraints and var_value, which take the rotation as row; same circuit"
 },
 {
  "definition": "Ed25519.addRangeInput",
  "to": "true, .witness",
  "note": "the flag `relative` is not read by copy constraints and var_value, which take the rotation as row; same circuit"
 },
 {
  "definition": "EdCurve.dVars",
  "to": "true, .constant",
  "note": "the flag `relative` is not read by copy constraints and var_value, which take the rotation as row; same circuit"
 },
 {
  "definition": "LookupVerifier.tid",
  "to": "true, .constant",
  "note": "the flag `relative` is not read by copy constraints and var_value, which take the rotation as row; same circuit"
 },
 {
  "definition": "FriCosets.omegaVar",
  "to": "true, .constant",
  "note": "the flag `relative` is not read by copy constraints and var_value, which take the rotation as row; same circuit"
 },
 {
  "definition": "Verifier.zero",
  "to": "true, .constant",
  "note": "the flag `relative` is not read by copy constraints and var_value, which take the rotation as row; same circuit"
 },
 {
  "definition": "Verifier.vk0Var",
  "to": "true, .constant",
  "note": "the flag `relative` is not read by copy constraints and var_value, which take the rotation as row; same circuit"
 },
 {
  "definition": "Verifier.vk1Var",
  "to": "true, .constant",
  "note": "the flag `relative` is not read by copy constraints and var_value, which take the rotation as row; same circuit"
 },
 {
  "definition": "Poseidon.Flex.step",
  "to": "≤",
  "note": "differs only for widths that are 2 modulo 3, outside the hypotheses (multiples of three)"
 },
 {
  "definition": "Poseidon.pallasMds",
  "to": "",
  "tightened": [
   "Poseidon.pallas_mds"
  ],
  "note": "only the determinant was used; the theorem that every square submatrix is invertible was added"
 },
 {
  "definition": "Poseidon.vestaMds",
  "to": "getD j 1",
  "note": "value for column numbers above 2, which do not occur"
 },
 {
  "definition": "Poseidon.vestaMds",
  "to": "",
  "tightened": [
   "Poseidon.vesta_mds"
  ],
  "note": "only the determinant was used; the theorem that every square submatrix is invertible was added"
 },
 {
  "definition": "Ed25519.mulT",
  "to": "",
  "note": "negP 1 is 0; same polynomial"
 },
 {
  "definition": "Ed25519.mulTerm",
  "to": "",
  "note": "negP 1 and negP 2 are 0; same value"
 },
 {
  "definition": "Verifier.leafPairs",
  "to": "",
  "tightened": [
   "Verifier.batchLoop_sound",
   "Verifier.merkle_sound",
   "Verifier.verifier_accepts_iff"
  ],
  "note": "BatchOk used the helper of the model; it now names the values itself"
 },
 {
  "definition": "Verifier.colInputs",
  "to": "",
  "note": "the colinearity check constrains nothing (C73, C76), whatever its inputs; no theorem about the verifier can depend on them"
 },
 {
  "definition": "R1cs.Routing.Asw.heads",
  "to": "(i + 0)",
  "tightened": [
   "R1cs.Routing.Asw.heads_cover"
  ],
  "note": "the switches were known to be disjoint but not to cover all rows whose edges differ"
 },
 {
  "definition": "KimchiPrep.put",
  "to": "≤",
  "note": "a write at the end of the array is not reached: with one scalar and one column the runs stay inside, otherwise the scalar is missing before (table_out_of_bounds)"
 },
 {
  "definition": "KimchiPrep.fill",
  "to": "+ split + k",
  "note": "with a runtime table the code has left its arrays before this write (table_out_of_bounds)"
 },
 {
  "definition": "KimchiPrep.fill",
  "to": "comb[",
  "note": "with a runtime table the code has left its arrays before this write (table_out_of_bounds)"
 },
 {
  "definition": "KimchiSponge.Transcript.challenge",
  "to": "drop 1",
  "note": "the branch for two limbs left over is never taken: every call squeezes two limbs and packs two, so that none are left; the theorem about the calls is over all lists of calls from init"
 },
 {
  "definition": "KimchiSponge.BatchProof.inputs",
  "to": "",
  "tightened": [
   "random_sound"
  ],
  "note": "the values of a proof were defined from the list of inputs itself; they are now written out, and the edit fails"
 },
 {
  "definition": "KimchiSponge.zeroVar",
  "to": "true, .constant",
  "note": "copy constraints read the cell at the stated row whether or not the variable is marked relative; same circuit"
 },
 {
  "definition": "R1cs.Ext.addStep",
  "to": "aux - g.sqrAux",
  "note": "which auxiliary variables a gadget uses does not matter for soundness, which is what is claimed of the steps"
 },
 {
  "definition": "EdFixed.circuitY",
  "to": "",
  "tightened": [
   "Verif.EdFixed.circuit_result_wrong"
  ],
  "note": "circuit_result_wrong only spoke about the abscissa; it now says which cells are returned, for both coordinates."
 },
 {
  "definition": "EdFixed.putPoint",
  "to": "row - ((0",
  "note": "row - 0 and row + 0 are the same row: no change of behaviour."
 },
 {
  "definition": "EdFixed.Verify.fixRow",
  "to": "srow - v.preRows",
  "tightened": [
   "Verif.EdFixed.verify_forged"
  ],
  "note": "the rows were named by the definition itself in verify_forged; they are written out now."
 },
 {
  "definition": "EndoMul.cols",
  "to": "[1]",
  "note": "the list of constant columns is not read: the code and the model name the cells of the constants directly."
 },
 {
  "definition": "EndoMul.mulCols",
  "to": "[0, 1, 3]",
  "note": "another private cell for the product; the copy constraints of the additions follow it, so the claim is as true as before."
 },
 {
  "definition": "EndoMul.added",
  "to": "",
  "tightened": [
   "Verif.EndoMul.honest_cells"
  ],
  "note": "only the rejection of the assigned table was stated; honest_cells now says which points, slopes, bits and output the assignment leaves, and fails for this edit."
 },
 {
  "definition": "EndoMul.point",
  "to": "",
  "tightened": [
   "Verif.EndoMul.honest_cells"
  ],
  "note": "only the rejection of the assigned table was stated; honest_cells now says which points, slopes, bits and output the assignment leaves, and fails for this edit."
 },
 {
  "definition": "EndoMul.slope",
  "to": "",
  "tightened": [
   "Verif.EndoMul.honest_cells"
  ],
  "note": "only the rejection of the assigned table was stated; honest_cells now says which points, slopes, bits and output the assignment leaves, and fails for this edit."
 },
 {
  "definition": "ZkevmOpcodes.operation",
  "to": "getD 1",
  "note": "the default is not used: every implemented opcode has a byte (checked in unconstrained)."
 }
]