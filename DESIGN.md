# Formal model of kkrt-labs/cairo-m: design

The source in `/repo` is read as text. The model is written in Lean 4 (`/verif/lean/Verif`), one Lean
definition per modelled Rust function, each with a comment citing the Rust file and lines. Properties are
listed in `properties.jsonl`; `MANIFEST.json` maps each property to the theorems that state it.

## 1. Trusted base

* Lean 4.33.0's kernel, and Mathlib (only as a library of kernel-checked theorems).
* Axioms: at most `propext`, `Classical.choice`, `Quot.sound` (checked with `#print axioms`).
  No `sorry`, no `native_decide`, no `bv_decide`, no axioms of our own.
* The translation Rust -> Lean, made by hand. The conventions below are the places where it could be wrong.

### Modelling conventions

* **M31**. stwo's `M31` (external crate) is modelled as `ZMod (2^31-1)`, primality proved in Lean. `x.0` is `ZMod.val x`.
  `M31::from(u32)` reduces. Division by zero, which panics in stwo, is an explicit error value.
* **QM31** memory words are 4 limbs of M31 (only the limb representation is used by the VM).
* **u32** is a natural number `< 2^32` or `BitVec 32`/`UInt32`, arithmetic reduced explicitly.
* **Panic** is an explicit error constructor (`VMError.panic`). Rust `Result` is `Except`.
* **Vec** is `List`, **HashMap** is a function or association list; iteration order of hash maps is not
  modelled, theorems that depend on it quantify over the order.
* **LogUp** (stwo's lookup argument): acceptance is modelled as "for every relation and every tuple the sum
  of signed multiplicities is 0 in M31", which is what a random-challenge LogUp check establishes except with
  negligible probability. FRI, Fiat-Shamir, the polynomial commitment and the constraint-composition are *not*
  modelled: a proof is represented by the row assignment it commits to.
* **Poseidon2** is an abstract function parameter (collision-freeness is an explicit hypothesis where needed).

### Not modelled

stwo itself (FRI, channel, circle FFT, SIMD packing), parallel iteration (rayon), file-system and CLI plumbing,
the language server except for the parts in C89-C92 (cached diagnostics, positions, the formatting edit, source files across
database swaps), comments in the formatter, wasm bindings, profiling, diagnostics rendering, parser error recovery, Salsa.

## 2. Modules

| Lean modules | Rust code |
|---|---|
| `M31` | stwo `M31`, `QM31` limbs |
| `Instruction`, `Json`, `InstructionLemmas`, `PrefixLemmas`, `InstructionProps` | `crates/common/src/instruction.rs` |
| `Memory`, `MemoryLemmas`, `MemoryProps` | `crates/runner/src/memory/mod.rs` |
| `VM`, `VMExec`, `VMLemmas`, `StepLemmas`, `VMProps`, `U32Props`, `Segments`, `SegmentProps` | `crates/runner/src/vm/**` |
| `IsaSpec`, `StepSpec` | *specification* of the machine (no Rust counterpart) |
| `Abi*`, `Cli*` | `crates/common/src/{abi_codec,program}.rs`, `crates/runner/src/lib.rs` |
| `Adapter`, `AdapterRun`, `Adapter{Lemmas,Public,Props,RunProps}` | `crates/prover/src/adapter/**` |
| `AdapterSpec`, `AirSpec`, `AirRun`, `AirOpenSpec`, `PoseidonSpec` | *specifications* of memory records, of opcode rows, of accepted traces, of Merkle openings and of the Poseidon2 permutation |
| `Merkle*` | `crates/prover/src/adapter/merkle.rs`, `partial_merkle` |
| `AirCore`, `AirFelt`, `AirU32` | `crates/prover/src/components/opcodes/**` (the `evaluate` constraints) |
| `AirTables`, `AirTrace` | `crates/prover/src/preprocessed/**`, `components/{memory,merkle,clock_update,poseidon2}.rs`, `public_data.rs`, `verifier.rs` |
| `AirLemmas`, `AirArith`, `AirRows`, `AirGlobal`, `AirPath`, `MemArg`, `RegArg`, `AirForge` | helper lemmas |
| `AirFeltProps`, `AirU32Props`, `AirGlobalProps`, `AirForgeProps`, `AirOpenProps`, `PoseidonProps` | theorems on the circuits |
| `AirWrite`, `AirWriteU32` | `write_trace`, `write_interaction_trace` of `crates/prover/src/components/opcodes/**`, `crates/prover/src/utils/**` |
| `SourceSpec` | *specification*: interpreter of the scalar source language |
| `Syntax`, `SyntaxSpec` | token and syntax tree types of `crates/compiler/parser/src/{lexer,parser}.rs`; specification: token sequence of a tree, precedence condition, documented table |
| `Parser` | `crates/compiler/parser/src/parser.rs` (all parser combinators, every production). Source spans and error messages not modelled; `Spanned` wrappers dropped |
| `Parser{Lemmas,Types,Expr,Stmt,Items,Fuel,Sound}`, `ParserProps` | helper lemmas and theorems on the parser (C74) |
| `Lexer`, `LexSpec` | `crates/compiler/parser/src/lexer.rs` (the token patterns as longest match over characters, number literals with base and suffix), `parse_file` without diagnostics texts; specification: what a text spells, positional value |
| `LexLemmas`, `LexProps` | helper lemmas and theorems on the lexer (C76, C77) |
| `Formatter`, `FormatSpec` | `crates/compiler/formatter/src/{doc,api,config,utils}.rs`, `rules/*.rs` (documents, layout, every rule). Comments not modelled: texts with comments give `none`. Specification: which programs use no construct the formatter changes |
| `Format{Layout,Reads,Expr,Stmt}`, `FormatProps` | helper lemmas and theorems on the formatter (C75) |
| `ControlFlow` | control flow checks of the semantic analysis: unreachable code, `break` outside loops, missing return |
| `ControlFlowSpec` | specification: executions of a body in which conditions take any value |
| `ControlFlowLemmas`, `ControlFlowProps`, `ControlFlowParsed` | helper lemmas and theorems on the control flow checks (C78, C79), also for every parsed text |
| `Names` | the builder of the semantic index: scopes, definitions, uses; undeclared and unused names |
| `NamesSpec` | specification: lexical scope, with an environment passed down the tree |
| `NamesLemmas`, `NamesProps` | helper lemmas and theorems on name resolution (C80) |
| `Types` | types of expressions and the type checks on the scalar fragment (`semantic/src/type_resolution.rs`, `validation/type_validator.rs`, `literal_validator.rs`) |
| `TypesLower` | the typed program the checks have in mind, and the lowering of syntax trees with the types it asks for (`mir/src/lowering`) |
| `TypesLemmas`, `TypesStmt`, `TypesPlaced` | helper lemmas for C81; the places where literals are safe |
| `TypesIndep` | what the checks of a function depend on (C82) |
| `TypesProps` | theorems on the type checks (C81) |
| `TextProps` | from program text to machine run (C83) |
| `WasmSpec` | specification: the flat data-flow form of WebAssembly functions (`BlocklessDag` of the external crate `womir`, modelled from its use) with an interpreter; i32 operators on 32-bit vectors |
| `Wasm` | `crates/wasm/src/lowering/{mod,cfg,ops,context}.rs`: the two-pass lowering of WebAssembly functions to MIR |
| `WasmLemmas`, `WasmGen`, `WasmEmit`, `WasmStep`, `WasmOp`, `WasmSim`, `WasmRun`, `WasmExec` | helper lemmas: invariant of the lowering state, what each node emits, operators, edges with phi operands, simulation |
| `WasmProps`, `WasmExamples` | theorems on the lowering of WebAssembly functions (C84), examples and violations |
| `WasmPipelineSpec`, `WasmPipelineProps`, `WasmMachine` | modules, composition with passes, code generator and machine (C85), examples and violations |
| `WasmMemSpec` | specification: linear memory as bytes, histories of accesses; meaning of word loads and stores of the mid-level representation on cells |
| `WasmMem`, `WasmMemProps`, `WasmMemExamples` | loads and stores of WebAssembly functions (C86), down to the machine code of the load and store instructions; examples and violations |
| `AggSem` | specification: functions of the mid-level representation with tuples and structs as trees of scalars |
| `Sroa` | `mir/src/passes/sroa.rs`: scalar replacement of aggregates |
| `SroaCheck` | conditions of C87: typing and naming of the function before the pass, names that the pass removes, functions whose aggregates contain no aggregates |
| `SroaLemmas`, `SroaSim`, `SroaStep`, `SroaBlock`, `SroaFlat` | helper lemmas: tracked elements stay equal to the values they stand for; where tracked names can occur |
| `SroaProps`, `SroaExamples` | theorems on the scalar replacement of aggregates (C87), examples and violations |
| `LoweringPlain`, `PipelineAll`, `WasmPlain` | lowered scalar functions and lowered WebAssembly functions build no aggregates; C73 and C85 for the pipeline with all passes |
| `Imports`, `ImportsSpec`, `ImportsLemmas`, `ImportsProps` | `semantic/src/db.rs`: import cycles and the order of analysis; specification, lemmas, theorems (C88) |
| `LsDelta`, `LsDeltaSpec`, `LsDeltaLemmas`, `LsDeltaProps` | `semantic/src/delta_diagnostics.rs` and its use in `cairo-m-ls/src/diagnostics/controller.rs`; specification and theorems (C89) |
| `LsText`, `LsTextSpec`, `LsTextLemmas`, `LsTextProps` | `cairo-m-ls/src/backend.rs`: positions and the formatting edit; Language Server Protocol texts and edits as specification; theorems (C90, C91) |
| `LsSwap`, `LsSwapSpec`, `LsSwapLemmas`, `LsSwapProps` | `cairo-m-ls/src/db/swapper.rs`, `did_open`, `did_change`, loading of projects; theorems (C92) |
| `Modules`, `ModulesSpec`, `ModulesLemmas`, `ModulesProps` | `cairo-m-project/src/model.rs`, entry point in `discovery.rs`, `crate_from_project`; theorems (C93) |
| `Lowering` | `crates/compiler/mir/src/lowering/{function,stmt,expr,builder,utils}.rs`, `mir/src/builder/**`, `mir/src/function.rs` (SSA construction), scalar fragment |
| `Lowering{Inv,Ops,Read,Close,Sim,Expr,Stmt,Flow,For,Main,Final}`, `SourceLemmas`, `LoweringProps` | helper lemmas and theorems on the lowering |
| `PipelineSpec` | specification of programs (`Program.table`), `mir/src/pipeline.rs`, `mir/src/passes.rs` (the two pipelines), conditions of the stages |
| `Pipeline{Checks,Codegen,Lemmas,Props}` | decidable versions of the conditions of the passes and of the code generator with soundness proofs; composition of all stages |
| `AirWriteSpec` | specification of honest, complete and padding rows |
| `AirWriteArith`, `AirWriteLemmas`, `AirWriteFelt`, `AirWriteU32Rows`, `AirWriteRun` | helper lemmas |
| `AirWriteProps`, `AirWriteRunProps` | completeness of the circuits, per row and per run |
| `MirOps`, `Mir`, `MirPasses` | `crates/compiler/mir/src/{value,types,instruction,function}.rs`, `passes/**` |
| `MirSem`, `MirTyping`, `Ssa` | *specification*: meaning, typing and static single assignment form of functions of the mid-level representation |
| `MirSim`, `Legalize*`, `MirBranch*`, `MirFold*`, `MirDead*`, `Phi*`, `ConstProp*`, `SsaLemmas`, `SsaSubst`, `SsaCheck`, `CopyProps`, `CseProps` | proofs about the passes |
| `Codegen`, `CodegenGen`, `CodegenRun` | `crates/compiler/codegen/src/**` |
| `CodegenSem` | *specification*: meaning of emitted code before label resolution |
| `ConstInline`, `ConstInline{Spec,Lemmas,Props}` | `lower_identifier` and `lower_const_statement` for constants (C95) |
| `Duplicates`, `Duplicates{Spec,Lemmas,Props}` | `duplicate_top_level_items`, `StructuralValidator` (duplicates only), `validation/shared.rs` (C96) |
| `ImportedNames`, `ImportedNames{Spec,Lemmas,Props}` | `check_import_validity`, `project_import_graph`, the `Use` case of `definition_semantic_type` (C97) |
| `ImportedUse`, `ImportedUseProps` | `resolve_imported_function`, `resolve_callee_expression`, `lower_identifier` on imports (C98) |
| `Navigation`, `NavigationProps` | `to_semantic_crate`, the module asked by `goto_definition` and `hover` (C99) |
| `AssignCheck`, `AssignCheckProps` | `check_assignment_types` (targets only), `resolve_name_with_imports_at_position` (C100) |
| `ComponentAssign`, `ComponentAssignSpec`, `ComponentAssignLemmas`, `ComponentAssignProps` | `lower_assignment_statement`, `decompose_lhs_path` in `mir/src/lowering/stmt.rs` (C101) |
| `PatternLet`, `PatternLetSpec`, `PatternLetLemmas`, `PatternLetProps` | `check_let_statement_types`, `lower_pattern`, `lower_pattern_with_type` (C102) |
| `TypeNames`, `TypeNamesSpec`, `TypeNamesLemmas`, `TypeNamesProps` | `resolve_ast_type`, `definition_semantic_type`, `struct_semantic_data`, `function_semantic_signature` on the declarations of a crate (C103) |
| `TypeChecks`, `TypeChecksSpec`, `TypeChecksLemmas`, `TypeChecksProps` | `visit_type_expr`, `walk_type_expr`, the type usages of `check_undeclared_variables_global`, `check_for_nested_arrays` (C104) |
| `Codegen{Lemmas,Isa,Felt,Bool,U32,Cast,Props,Witness}`, `CodegenPass*`, `Link*`, `LayoutProps`, `HeapProps`, `AggregateProps`, `FieldUpdate{Spec,Lemmas,Props}`, `AggregateLiteral{Spec,Lemmas,Props}`, `Place*` | proofs about generated code |

For each group there are model files (definitions), helper-lemma files, and `*Props` files holding only the
property theorems and their non-vacuity examples. Independent specifications (`IsaSpec` etc.) mention neither
the model's helpers nor its control flow.

## 3. Plan per property

* **C01** Instruction encoding round trip: Inductive `Instruction` with one constructor per macro row; `encode`, `decode`; theorem `decode (encode i) = ok i`, case analysis over constructors.
* **C02** Instruction decoding is exact: `decode ws = ok i -> ws = encode i` plus one theorem per error, for all lists.
* **C03** Instruction fetch returns the stored instruction: `toQM31s` (chunks of 4), `Memory.getInstruction`; induction over the program list, invariant that the prefix occupies `sum of sizes` words.
* **C04** Compiled-program JSON hex round trip: hex printing/parsing of naturals as char lists; induction on digits.
* **C05** Instruction size and access-count tables agree with the encodings: tables as functions; case analysis; access count linked to the VM step log.
* **C06** VM memory behaves as one zero-initialised array: abstraction function `Memory -> (addr -> QM31)`; refinement theorems for every operation, and for arbitrary operation sequences by induction.
* **C07** Out-of-range accesses are rejected without effect: case analysis of `validate_address` inside every operation.
* **C08** u32 values survive memory: limb split/recombine arithmetic plus C06.
* **C09** Stack and heap regions never overlap: invariant `locals.length + heap.length <= 2^28` by induction on the write sequence.
* **C10** Each instruction implements its documented meaning: independent ISA specification `Isa.step` on an abstract map; forward simulation and error equivalence for every instruction.
* **C11** u32 instructions compute modular 32-bit arithmetic: consequence of C10 stated with plain arithmetic on naturals.
* **C12** Failed instructions are reported, never mis-executed: one theorem per fault.
* **C13** Call and return restore the caller: call pushes two cells, ret pops; theorem over any intermediate state agreeing on two cells and fp; nested depth by induction.
* **C14** Segmentation does not change the computation: `execute`/`runFromEntrypoint` with fuel-free relational characterisation; induction on number of steps.
* **C15** Segments chain: same induction, list of segments.
* **C16** Every step limit makes progress: negation: with limit 0 the loop produces no result for any fuel; positive part is C14.
* **C17** Instructions touch only the cells they name: frame theorem from C10's explicit write set.
* **C18** The access log is complete and truthful: log equation per instruction; print is the documented exception.
* **C19** Signed integers map to the field correctly: integer modular arithmetic.
* **C20** Command-line argument round trip: parser on lists of bytes; printer specification; induction over value trees with whitespace lists.
* **C21** ABI call encoding round trip: mutual recursion over ABI types; induction.
* **C22** Entry-point calling convention: address arithmetic for all counts.
* **C23** Array arguments are materialised without overlap: size function vs. bytes written; negation witness for nested pointers; partial theorem for flat arrays.
* **C24** Public address ranges partition the public memory: interval arithmetic.
* **C25** The prover input recovers the execution: adapter iterator run on the log of `VM.run`; induction on steps.
* **C26** Memory records balance: multiset balance invariant maintained by `push`.
* **C27** Clock differences fit the range check: same invariant with clocks.
* **C28** Memory commitment is determined by and binds the memory: sparse tree builder vs. full tree over the zero-default map.
* **C29** Consecutive segment proofs chain by memory root: witness of disagreement, partial theorem for cells present in the initial memory.
* **C30** Felt arithmetic circuit is sound: row constraints as a Lean structure over M31; theorem: constraints + lookups (range checks/table membership) imply the ISA specification of the opcode; counterexample rows where the circuit is unsound.
* **C31** Control-flow circuits are sound: row constraints as a Lean structure over M31; theorem: constraints + lookups (range checks/table membership) imply the ISA specification of the opcode; counterexample rows where the circuit is unsound.
* **C32** Data-movement circuits are sound: row constraints as a Lean structure over M31; theorem: constraints + lookups (range checks/table membership) imply the ISA specification of the opcode; counterexample rows where the circuit is unsound.
* **C33** u32 addition and subtraction circuits are sound: row constraints as a Lean structure over M31; theorem: constraints + lookups (range checks/table membership) imply the ISA specification of the opcode; counterexample rows where the circuit is unsound.
* **C34** u32 multiplication circuits are sound: row constraints as a Lean structure over M31; theorem: constraints + lookups (range checks/table membership) imply the ISA specification of the opcode; counterexample rows where the circuit is unsound.
* **C35** u32 division circuits are sound: row constraints as a Lean structure over M31; theorem: constraints + lookups (range checks/table membership) imply the ISA specification of the opcode; counterexample rows where the circuit is unsound.
* **C36** u32 comparison circuits are sound: row constraints as a Lean structure over M31; theorem: constraints + lookups (range checks/table membership) imply the ISA specification of the opcode; counterexample rows where the circuit is unsound.
* **C37** u32 bitwise circuits are sound: row constraints as a Lean structure over M31; theorem: constraints + lookups (range checks/table membership) imply the ISA specification of the opcode; counterexample rows where the circuit is unsound.
* **C38** Felt comparison circuit is sound: row constraints as a Lean structure over M31; theorem: constraints + lookups (range checks/table membership) imply the ISA specification of the opcode; counterexample rows where the circuit is unsound.
* **C39** Honest execution satisfies the circuits: `write_trace` and `write_interaction_trace` modelled per row; from the
  VM run through the adapter to the rows; ring/arith proof that each constraint vanishes and each lookup is in its table.
* **C40** The memory argument forces read-after-write consistency: combinatorial argument per address: sort by clock, each record consumes its predecessor.
* **C41** Accepted traces are executions: composition of C30-C38 and C40, registers form a path.
* **C42** Every executable instruction can be proved: finite table.
* **C43** Public claims cannot be forged: forging construction: explicit rows for arbitrary public data; and clock wrap-around.
* **C44** Compile-time evaluation equals run-time evaluation: evaluation semantics of MIR operators on values; rewrite function modelled; equality of evaluations for all environments; counterexample where violated.
* **C45** Algebraic simplification preserves meaning: evaluation semantics of MIR operators on values; rewrite function modelled; equality of evaluations for all environments; counterexample where violated.
* **C46** Branch fusion preserves the branch taken: evaluation semantics of MIR operators on values; rewrite function modelled; equality of evaluations for all environments; counterexample where violated.
* **C47** Comparison legalisation preserves meaning: evaluation semantics of MIR operators on values; rewrite function modelled; equality of evaluations for all environments; counterexample where violated.
* **C48** Felt expressions compile to code computing them: emitted instruction lists modelled as functions; executed with the ISA semantics; symbolic execution proof for all values, counterexample where violated.
* **C49** u32 expressions compile to code computing them: emitted instruction lists modelled as functions; executed with the ISA semantics; symbolic execution proof for all values, counterexample where violated.
* **C50** Boolean expressions compile to code computing them: emitted instruction lists modelled as functions; executed with the ISA semantics; symbolic execution proof for all values, counterexample where violated.
* **C51** u32-to-felt cast is exact or traps: emitted instruction lists modelled as functions; executed with the ISA semantics; symbolic execution proof for all values, counterexample where violated.
* **C52** Operand de-duplication preserves meaning and makes operands distinct: emitted instruction lists modelled as functions; executed with the ISA semantics; symbolic execution proof for all values, counterexample where violated.
* **C53** Immediate canonicalisation preserves meaning: emitted instruction lists modelled as functions; executed with the ISA semantics; symbolic execution proof for all values, counterexample where violated.
* **C54** Frame slots never overlap: emitted instruction lists modelled as functions; executed with the ISA semantics; symbolic execution proof for all values, counterexample where violated.
* **C55** Label resolution targets the labelled instruction: emitted instruction lists modelled as functions; executed with the ISA semantics; symbolic execution proof for all values, counterexample where violated.
* **C56** Heap allocations are disjoint: emitted instruction lists modelled as functions; executed with the ISA semantics; symbolic execution proof for all values, counterexample where violated.
* **C57** SSA destruction preserves meaning: model of the sequencing algorithm; swap witness for the violation; correctness for acyclic copies, and for copies (a name to itself included) that may be executed in the given order.
* **C58** Preprocessed tables contain exactly the intended tuples: table generation functions vs. set specification.

* **C59** Published input and output ranges hold the arguments and results: same model as C22; counterexample for array arguments.
* **C60** Removal of unused instructions preserves results: interpreter `run` with uninterpreted callees; simulation relation "agree on used values"; counterexample for faults of removed instructions.
* **C61** Removal of unreachable blocks preserves results: simulation along the renumbering, for functions without phis; counterexample with a phi.
* **C62** Constant propagation preserves results: the worklist loop is modelled as sweeps to a fixed point; the fuel is proved sufficient (finite-height lattice) and the fixed point is proved to describe every execution of a well-typed function.
* **C63** An array literal holds the listed elements: emitted code executed with the ISA semantics, induction on the list; counterexample for literal zeros.
* **C64** Updating a field does not change values read before: emitted code of a field read followed by an assignment of another field, executed with the ISA semantics (also tuples): the value read keeps its words, the updated aggregate has the words of the field replaced, nothing else changes. Counterexample when the same field is assigned (whole program compiled and run in the kernel).
* **C65** Loads and stores through places access the addressed element: symbolic execution of the emitted address computation; counterexample for literal stores with a dynamic index.
* **C66** Compiled functions compute what they mean: interpreter of the representation (MirSem) against executions of the emitted code; invariant "every defined value is in its home slot", where the home is the layout slot or, for a value computed and returned by the same block, the return slot; induction over instructions, then over executed blocks. Proved for functions without calls, before the peephole passes (C52, C53) and linking (C55).
* **C67** Running a compiled program: composition of the whole chain. Interpreter with calls (`callTable`) against `runCairoProgram` on the output of `compileModule`: functions with calls (Program*.lean: each block ends with every live value in its home, where the home of a moved value is the place it was moved to), peephole passes (C52, C53), linking (C55), legalisation (C47), call frames (induction on the call depth, each call keeps everything below its return slots), the machine (C10), segmentation (C14) and the ABI (C22, C23). Hypotheses: values moved by calls or returns are computed at one place that precedes the blocks where they are live (`Ordered`), calls have a result, labels are distinct (`C55_violated_names`), and the frames fit the address space. Not covered: functions with aggregates, pointers or heap allocation; faulting executions.
* **C68** Copy propagation: static single assignment form is specified by paths (`Ssa`: one definition per name, every use is reached only by paths through its definition). Invariant of executions (`Facts`): re-executing any definition available at a point changes nothing. A renaming that only maps names to names with equal values under this invariant, and only drops instructions whose results are not used, keeps runs (`rename_run`) and the form (`rename_ssa`); the pass is shown to be such a renaming.
* **C69** Common subexpressions: the same renaming theorem, block by block; counterexamples for calls with unused results and for arrays, compiled and run in the kernel.
* **C70** Claimed memory: openings (`Opens`, a chain of hashes from a leaf to the root) are derived from the balance of the Merkle lookups by induction on the depth, for traces whose Merkle rows form a hash tree (`HonestTree`); an opening against a root computed from a memory is a leaf of that memory or a collision. Counterexample without the condition.
* **C71** Hash circuit: specification of the permutation by matrices (`PoseidonSpec`); round by round, the constraints determine the columns; the written row satisfies them. The lookups of inputs and digests are separate, counterexample for the binding of parent and children.
* **C72** Lowering of source functions: specification is an interpreter of the scalar source language (`SourceSpec`) and the meaning of the mid-level representation (`MirSem`). The model of the lowering (`Lowering.lean`) is the on-the-fly construction of static single assignment form with unsealed blocks, incomplete phi nodes and removal of trivial ones; it carries history variables (`Ghost`: what a removed phi node stands for, the value of a variable at the start of a block, times) that nothing reads. Invariant `Good` on all intermediate states, extension order `Ext` between states, then a simulation of each construct relative to the final state, put together by induction on the statement. The property is false as it stands (removed phi nodes can stay in the table of current definitions), so the theorem has the check `closed` of the result: every used name is defined. Non-termination: each construct has a delay `d` such that a source run that is unfinished after `n` steps leaves the lowered function unfinished after `n - d` steps, so one diverges exactly when the other does.
* **C73** Source to machine: specification is an interpreter of whole source programs (`Program.table`: recursion depth `d`, call arguments of the declared types) and `runCairoProgram`. Composition of C72, C45, C62, C44, C68, C69, C46, C61, C60, C57 and C67. Induction on the call depth; a returning run makes finitely many calls, so a table that converges to the meaning gives the same run (`run_limit`). The conditions of the single stages (typing, static single assignment form, liveness, order of parallel copies, distinct labels, sizes) are decided by `checkProgram` and `fitsCheck` on the program at hand, with proofs that the checks imply the conditions (translation validation); programs for which a stage is wrong (§4) are rejected by these checks. A faulting source run is not covered: dead divisions are removed (`C60_violated_fault`).
* **C74** Precedence: the parser is modelled combinator by combinator on token lists (ordered choice commits, repetition stops at the first failure, recursion bounded by the number of tokens, which is shown to be enough). The specification is the token sequence of a tree (`Expr.toks`) and the precedence condition on trees (`Expr.shaped`). Round trip by strong induction on the number of tokens, with the exact condition on the token that follows; converse by induction over the combinators.
* **C75** Formatter: documents, groups and indentation are modelled as in `doc.rs`; every rendering of the document of a program spells the token sequence of the program (`Spelled`, closed under concatenation, line breaks and indentation), whatever the widths. Composition with C76 and C74 and with the round trip of statements and items. Witnesses for the constructs the formatter changes.
* **C76** Lexer: longest match on characters; induction on the spelling.
* **C77** Number literals: positional value as specification; the suffix search of the code on both suffixes.
* **C78** Control-flow warnings: the validator over the syntax trees of the parser, with the position of a statement as the path to it. The specification is a relation (`Ends`, `Reaches`) that lets every condition go both ways, so it covers all executions, unfinished ones included. Soundness by induction on the tree; converse for bodies without reports.
* **C79** Missing return: same specification; the analysis ignores `break` in `loop`, so the negation is proved with a witness (down to the machine, which continues in another block) and the positive theorem is for functions whose `loop`s contain no `break`.
* **C80** Name resolution: the index builder with its scope table, definition table and chain of scopes, against textbook resolution that passes an environment down the tree. Invariant: the chain of the current scope spells the environment.
* **C81** Types: `expression_semantic_type` as a function of the expression, the syntactic hint, the origin and the context; the checks of the type, literal and structural validators; the elaborated program is the typed source language of C72. Soundness under a decidable condition that the context-free and the contextual types agree (which the lowering silently assumes); witnesses where they do not.
* **C82** Independence: the contextual type of a returned literal comes from the first function of the file; witness, and positive theorem for functions whose returned literals carry a suffix.
* **C83** Composition of C74/C76 with C81 and C73: `compileText` on characters. C80 is not used: the environments of C81 are passed down the tree, which is the specification side of C80.
* **C84** WebAssembly lowering: the flat data-flow form (`BlocklessDag` of the external crate `womir`, modelled from its use: the crate's source is not available) with an interpreter as specification, WebAssembly's i32 operators on 32-bit vectors; the two-pass lowering with labels, loop headers, deferred phi operands and value scopes as a state machine. Proof: a ghost set of finished blocks that later steps leave alone, then a simulation by induction on the interpreter's fuel. Conditions: comparison results are not used as integers, no conditional return, calls have one result, no code after a branch; each with a witness of what goes wrong.
* **C85** Composition of C84 with the passes and the code generator, along the lines of C73.
* **C86** Memory: the address computation as emitted, evaluated in the MIR semantics; linear memory as bytes against pairs of cells below the top address. Positive for aligned addresses, witnesses for the others.
* **C87** Scalar replacement of aggregates: the pass as a fold over the instructions of each block with the table of tracked aggregates as state, including the look-ahead (`can_scalarize_aggregate`), families and cross-block uses. Specification: aggregates are immutable trees of scalars. Proof: the environments before and after agree outside of the removed names, and the recorded elements of a tracked name evaluate to its components; names are defined once within a block, so later instructions do not change them. Checked condition: no removed name is used in the result. For functions whose aggregates contain no aggregates the condition is proved from the source (a tracked name lies in a family that no other block uses, and every use in the block is rewritten). Nested aggregates and stores into arrays: witnesses of what goes wrong.
* **C88** The two depth-first searches as written, with the colours in a finite map and the path as a list, and a bound on the depth that is shown never to be reached. Invariant of the search for cycles: grey modules are exactly the path, which is a chain of imports; black modules are on no cycle. Order: every module is placed after its imports because the search returns only when they are placed. Specification: chains of imports as lists, independent of any search.
* **C89** The tracker as written, over an abstract database (revision, modules of each project, diagnostics of each module). Histories of edits (new revision), loads (no new revision), swaps (revision starts again) and requests. Invariant without swaps: no recorded revision exceeds the current one, so the first request after an edit recomputes everything. For one project whose modules stay, the cache holds exactly the current diagnostics whenever the revision is the recorded one. Witnesses: two projects, removed modules, swaps.
* **C90** Texts as lists of characters with byte and UTF-16 lengths. The protocol's positions are specified by splitting the text into lines. Inverse property by induction on the text; agreement with the protocol for texts without lone carriage returns and without characters beyond the basic plane before the place on its line; witnesses otherwise. `C90_spec` shows that the two halves of the specification (place to position, position to place) agree.
* **C91** The range computed with `lines()`; application of an edit as the protocol defines it. Positive for documents without a final newline; what happens with a final newline is stated exactly.
* **C92** Source files are numbered in the order of creation in a database; the editor-side table from addresses to numbers, the project's own table, and the steps of a swap (snapshot, new tables, new database) as events of a history. Positive: histories without swaps. Witnesses: an edit between the snapshot and the exchange is lost; after a swap an edit of one file overwrites another.
* **C93** Paths as lists of components; the standard library's `file_stem`, `extension` and `strip_prefix` on them. Specification: the name as a concatenation and the path of a source file, and what a faithful set of modules is. Proof: joined names without colons can be taken apart, so that no insertion into the map replaces an entry. Witnesses: colons in names, an entry point in a subdirectory, a directory named like a source file.
* **C94** Struct and tuple literals hold the listed values: emitted code executed with the ISA semantics; induction over the listed fields (any order, distinct names) or elements; the observation is a field or element read of the result. Words of a value: operand slots outside the destination, integer literals of one or two words, booleans, unit.
* **C95** A constant has one value: in the meaning of a function (`Source.run`) a constant definition is a `let`; the lowering is modelled as replacing constants by their expressions (the definition is lowered to nothing, a use lowers the expression again) followed by C72's lowering. Relation between the stores: equal on variables, and every defined constant has the value its expression has in any store. Counterexample: a local constant whose expression mentions a variable that is assigned later.
* **C96** Names defined twice are reported: the hash-set loops count repetitions (a name with n occurrences is reported n-1 times); places in patterns and statements are relations (`Binds`, `Inside`) in the specification and walks in the model. The loop over the definitions of the index uses C80's model of the index: everything the first pass declares stays in it. Counterexample: a pattern inside a `for` loop.
* **C97** Imports that lead nowhere are reported: the root scope of the index built by C80's model holds exactly the top-level definitions (visits below the root leave it alone, `Quiet`), so the check reports exactly the missing modules and names. Following imports ends because the import graph is well-founded when C88's search finds no cycle; the result is compared with an inductive relation `Means`, which is functional if no module defines a name twice (C96).
* **C98** Imported names can be used: the lowering's search for the function of a call is compared with the search of the type checks (C97's `follow`); a call that is lowered reaches the checked function. Proved to succeed for functions of the module and functions imported from the module that defines them. Counterexamples: re-exported functions, imported constants (with C61's model of `read_variable`).
* **C99** Navigation in the editor looks into the file of the request: the table of modules is built with the canonical names (C93's `moduleName`) and asked with the stem of the file name. Exact description of the answer, proved right for files directly in the source directory; counterexample in subdirectories.
* **C100** Constants are not assigned to: parts of a variable and assignable expressions are inductive relations (`PartOf`, `Target`), constants are given by C97's `Means`. The check is proved exact for constants of the module and constants imported from the module that defines them; counterexample for re-exported constants.
* **C101** An assignment changes what it names: the emitted reads and updates are run with the meaning of C87 (values are trees), and the new value is compared with the old one path by path (`Updated`). Induction over the steps from the base for the reads, from the target for the updates. Lowering of the right-hand side and of the base is assumed done (C72); the types of variables are given. For elements of arrays only the form of the store is shown (its effect is C65). At the level of machine code the in-place update of C64 breaks the property for values read before; assignments to components of temporaries (`f().x = 5;`) pass the checks and have no effect.
* **C102** Patterns in `let`: shape (`Matches`), names with paths (`bindings`) and components (`get`, as in C101) are the specification. The emitted reads are run with the meaning of C87; induction over patterns and lists of patterns. The check is exact for patterns of at most two levels; counterexamples for three. That the names of a pattern are distinct is a hypothesis (repeated names are reported by another check). Annotations are left out.
* **C103** Types of declarations: the queries being computed are a list; asking for one of them again is the panic of salsa (no tracked function of `type_resolution.rs` has a `cycle_fn`). The specification is a relation between type expressions and types (`Denotes`) and the relation "depends on" between declarations (`Uses`). The panic is exact: success gives accessibility along `Uses`, failure a path to a cycle; the model's bound on nested calls is never reached. Local names, parameters, `let` variables and constants without annotation are left out. That salsa panics on a cycle without treatment is assumed: it is the default of salsa 0.22, whose source is not in the repository.
* **C104** Checks of type expressions, on the model of C103: what is visited, what is reported. The specification says which types are without errors (`Proper`), what a name stands for through imports (`StandsFor`) and where arrays of arrays are (`Nested`, `Shown`). Induction on the number of nested calls and on type expressions. That imports lead to declarations is a hypothesis (C97). Type expressions in function bodies are left out; the order of constants among the declarations is not modelled.

Every property above can be expressed in the model. Status and exact theorem names are in `MANIFEST.json`.

## 4. Disagreements between code and properties found while modelling

Every entry names the Lean theorem with the concrete witness. Where a whole program is mentioned, it is compiled by
the model of the compiler and run by the model of the VM inside the kernel.

Runner and calling convention
* `C16_violated`: with a step limit of 0 the segmented run never ends.
* C12: field division by zero panics (stwo's inverse) rather than returning an error; the theorem states the fault.
* `C22_large_frame_violated`: frames in the upper half of the address space hide their arguments.
* `C23_violated`, `C59_violated`: arrays of pointers are given too few cells; with array arguments the published ranges
  designate array elements instead of arguments and results.
* Instruction fetch reads only the lower region and decodes never-written cells as `StoreAddFpFp 0 0 0`.

Adapter and commitment
* `C25_violated_print`: print instructions log no access but are counted as accessing, the log goes out of step.
* `C26_violated`: the clock update inserted for a long gap carries the value at the start of the segment.
* `C27_violated_multiple`, `C27_violated_same_step`: clock difference 0, rejected by the range check.
* `C28_violated_binding`, `C28_violated_empty`: one-limb digests collide; the empty map has no root.
* `C29_violated`: a cell first touched by a write in the second segment breaks root chaining.

Circuits and verifier
* `C30_violated_div` (`x / 0 = 0` accepted), `C30_violated_opcode` (opcodes 5 and 7), `C38_violated` (`5 <= 5` may be 0).
* `C34_violated_clock`, `C35_violated_clock`: missing range check on a clock difference.
* `C36_violated_word` (second word fetched at `pc`), `C36_violated_modulus` (equality modulo `P`).
* `C41_violated_wrap`: 2048 clock updates move a record once around the field.
* `C42_violated`: no component for print instructions.
* `C70_violated`: disabled Merkle rows provide leaves that hang nowhere, so two values can be claimed for one cell under any root.
* `C71_violated_binding`: an enabled Merkle row may have any parent: input and digest are looked up separately, and the digest `x` is the same tuple as the input `[x, 0, …]`.
* `C43_violated`: the Merkle/Poseidon2 lookups do not bind the public memory, any public data with clock ≥ 1 is accepted.

Mid-level representation
* `C44_violated_eq`, `C44_violated_div`, `C44_violated_neg_u32`: folding with literals not below `P`; `-1u32`.
* `C45_violated`: `0 - x` becomes `x`, `1 / x` becomes `x`.
* `C46_violated_literal`, `C46_violated_fuse_literals`, `C46_violated_u32`: branches on literals ≥ `P`, u32 tests on one limb.
* `C57_violated_swap`, `C57_violated_swap_program`, `C57_violated_literal`, `C57_violated_self`: sequencing of parallel copies.
* `C60_violated_fault`: a removed division no longer faults.
* `C61_violated`: phi sources keep the old block numbers.
* `C62_violated`: results of multi-result calls are unknown to the analysis and ignored in joins.
* `C72_violated_copy`: `let x = 0; let i = 0; while (i != 3) { x = y; i = i + 1; } return x;` is lowered to a phi node with a
  name that is defined nowhere: the phi node of `y` at the loop head was recorded as the value of `x`, then found trivial and
  removed, and `replace_value_uses` (`mir/src/function.rs:663-673`) does not update `current_def`.
* `C72_violated_break`: the same for a variable read after a loop that is left by `break`.
* `C72_violated_eager`: `x != 0 && 10 / x == 5` divides by zero: both operands of `&&` and `||` are evaluated.

Parser
* `C74_violated_or_and`: the documentation of the parser (`parser.rs:57-65`, and the grammar at 32-40) puts `&&` above `||`,
  the code has one tier for both (`parser.rs:1222-1243`), so `a || b && c` is read as `(a || b) && c`. The same holds for
  `==`/`!=` against `<`… in the grammar (one tier in the code) and for the order of prefix and postfix operators (the grammar
  applies postfix operators to prefix expressions, the code and the list do the opposite).

Formatter (each with a text that parses and its formatted form)
* `C75_violated_const_type`: the type of a constant is dropped (`rules/items.rs:146-157`), which changes a `u32` constant into a
  `felt` constant.
* `C75_violated_tuple`: `(x,)` and `(felt,)` become `(x)` and `(felt)`.
* `C75_violated_condition`, `C75_violated_while`, `C75_violated_call`: the parentheses around the condition of `if` and `while`
  are not printed. Where they are needed (the condition begins with a parenthesis, or its last name would be read together
  with the body) the formatted text does not parse or is another program.
* `C75_violated_use`: `use foo;` becomes `use ::foo;`, which does not parse (`rules/items.rs:159-190`).
* Not modelled: comments inside function bodies are dropped by the formatter.

Code generator
* `C48_violated_literal`: literals ≥ `2^31` are encoded as negative numbers.
* `C52_violated_bitwise`: `x & x` keeps equal operands, which the circuit rejects.
* `C55_violated_names`: block labels collide with function names.
* `C67_violated_void`: after a call without results, a value computed in its argument area can be overwritten by the frame of a later call whose argument is passed in place; `f(10)` returns a frame pointer instead of 11.
* `C67_violated_order`: the result of a call, read in a block with a smaller number than the block of the call, is read from the wrong slot.
* `C69_violated_call`: when a block contains a repeated expression, a call in the block whose single result is not used is removed with it, including an assertion that fails in the callee.
* `C69_violated_arrays`: two array literals with the same elements become one array, so writing to one changes the other.
* `C67_violated_condition`: an `if` on a u32 value tests only its low half.
* `C56_violated`: heap allocation has no bound check.
* `C63_violated`, `C64_violated`, `C65_violated`: literal zeros in arrays, in-place field updates, literal stores with a
  dynamic index.
* `C39_violated_eq_fp_fp`: `u32_store_eq_fp_fp.rs:210` fills `dst_off` from `inst_value_4` (always 0 here) instead of
  `inst_value_3`, so honest executions with a nonzero destination offset give rows of another instruction.
* `C39_violated_eq_fp_imm`: `u32_store_eq_fp_imm.rs:236` writes `pc + 1` to the interaction trace where the constraint has
  `pc + 2`.
* `C39_violated_same_cell`: the row of `[fp + 1] = [fp] + [fp]` fails a range check (a consequence of C27).

Control flow checks
* `C79_violated`, `C79_violated_machine`: the missing-return check takes a `loop` to return when its body does, without looking
  at `break` (`control_flow_validator.rs:278-342`). `loop { if c { return 9; } if d { break; } return 1; }` is accepted. The block
  after the loop ends with `Unreachable`, for which no instruction is generated, so the compiled function continues in whatever
  block comes next and returns 9 with `c` false.
* `C79_violated_rejects`: `loop { if c { return 1; } }`, which never runs off its end, is rejected.
* `C78_violated_step`: the step of a `for` whose body never completes is not reported as unreachable.

Names
* `C80_violated_own`: in `const x: felt = x;` the use of `x` has no definition, but the check for undeclared names looks it up
  again by position and finds the constant itself (`validation/scope_check.rs:157-190`, `semantic_index.rs:417-475`: only `let`
  initialisers are skipped), so nothing is reported.
* `C80_violated_body`: `for` visits its body in the scope of the loop (`semantic_index.rs:1519-1554`), so in `for (let i = 0; i != 3;
  i = i + 1) let i = 7;` the step refers to the `i` of the body and the loop variable never changes.

Constants
* `C95_violated`: the value of a local constant is not restricted to constant expressions, and its expression is evaluated again
  at every use (`lowering/expr.rs:189-205`). `let x = a; const C = x + 1; x = 100; return C;` returns 101.
* `C96_violated`: `check_patterns_in_statements` has no case for `for` (it falls into the last branch), so a pattern that binds a
  name twice is accepted there. The same gap makes the structural type check of annotated literals skip `for` loops.
* `C98_violated_call`: a function imported from a module that itself imports it passes all checks; `resolve_imported_function`
  (`lowering/builder.rs:194-237`) takes one step only, finds an import instead of a function and the call cannot be lowered.
* `C98_violated_const`: a use of an imported constant passes all checks. `lower_identifier` (`lowering/expr.rs:175-225`) inlines
  only constants of the same file; an import is read like a variable, and `new_incomplete_phi` panics (`function.rs:517-523`).
* `C99_violated`: `goto_definition` and `hover` name the module by the stem of the file (`backend.rs:757-763`, `897-902`), the crate by
  its path below the source directory. A request in `src/a/util.cm` is answered with the positions of `src/util.cm`.
* `C102_violated_dropped`, `C102_violated_lowering`: `let (a, (b, (c, d))) = e;` is accepted for `e: (felt, (felt, (felt, felt, felt)))`
  and for `e: (felt, (felt, felt))`, because the check looks at two levels only. In the first case an element is dropped without
  notice, in the second the lowering fails with an internal error.
* `C103_violated_pointer`, `C103_violated_direct`: `struct Node { value: felt, next: Node* }` and `struct Box { inner: Box }` make the
  compiler panic as soon as the type is used: resolving a field asks for the type of the struct being resolved
  (`type_resolution.rs:59-72`, `910-914`), and salsa has no treatment for the cycle. The tests on recursive types
  (`semantic/tests/types/recursive_and_error_types_tests.rs`) only build the index.
* `C103_violated_const`: `resolve_ast_type` looks at the type of the definition, not at its kind (`type_resolution.rs:64-68`); the name
  of a constant that is a struct is accepted as that type.
* `C104_violated_function`: a type name is accepted if it has a declaration of any kind (`semantic_index.rs:1719-1727`); for
  `fn f(x: g)` with a function `g` the parameter has the error type, which is compatible with every type (`type_resolution.rs:998`).
* `C104_violated_const`: `visit_const` (`semantic_index.rs:1673-1704`) does not visit the annotation, so that unknown types there are
  not reported.
* `C104_violated_nested`: `check_for_nested_arrays` (`type_validator.rs:193-221`) is called for signatures and `let` only and does not
  look behind pointers or into arrays; `struct Matrix { rows: [[felt; 2]; 2] }` is accepted with a field of the error type.
* `C100_violated`: a constant imported from a module that itself imports it can be assigned to, because
  `resolve_name_with_imports_at_position` (`semantic_index.rs:483-530`) takes one step only.

Types
* `C81_violated_left`, `C81_violated_zero`: in `5 + x` and `0 == x` with `x: u32` the checks infer the literal from the right
  operand (`type_resolution.rs:549-563`); the lowering asks for the type of the left operand alone (`expr.rs:262-274`), gets
  `felt`, and selects the felt operator, which ignores the high half of `x`. `5 + 65537` gives 6.
* `C81_violated_assigned`: the right side of an assignment is checked in the context of the left side, and lowered without it
  unless it is a literal (`type_resolution.rs:303-318`): `x = 65535 + 1` for `x: u32` stores a felt in the low half.
* `C81_violated_truth`: `y = (5) == x` with `y: u32` and `x: felt` is accepted. In context the comparison is ill-typed, its type
  `error` is compatible with everything, and the check of the comparison itself runs without the context.
* `C81_violated_literal`: the range of a literal is only checked in an annotated `let`; `let y = 4294967301u32;` is truncated to 5.
* `C81_violated_modulus`: the bound for felt literals is `2^31 - 1`, which is the modulus; `let y: felt = 2147483647;` stores 0.
* `C81_violated_minus`: `-x` for `x: u32` is accepted and lowered to a subtraction of felts.
* `C81_violated_rejects`: the annotation of a `let` is inherited by literals in arguments and below casts, so well-typed programs
  are rejected (`let y: u32 = g(5);` with `g(felt)`).
* `C82_violated`: the search for the enclosing function of a returned literal finds the first function of the file
  (`type_resolution.rs:340-390`: all functions are defined in the root scope, which is an ancestor of every scope). `fn f() -> u32
  { return 5; }` is rejected after a function that returns `felt`.
* Not stated as theorems: `let g = f;` for a function `f` is accepted and the lowering fails; the number of arguments of `assert` is
  not checked, and a user function named `assert` is never called; `StructuralValidator` skips the bodies of `for`.

WebAssembly
* `C84_violated_comparison_result`, `C84_violated_comparison_operand`, `C85_violated_comparison`: the result of a comparison is an
  i32 in WebAssembly and a `bool` in the MIR (`lowering/ops.rs`). A bool occupies one cell and an i32 two, so a function that
  returns a comparison leaves the high half of its result to whatever an earlier call left on the stack (2701131777 instead of 1).
* `C84_violated_conditional_return`: a conditional branch out of the function passes the condition on as an additional result.
* `C84_violated_void_call`: a call of a function without results gets one destination.
* `C84_violated_return_from_loop`: leaving the function from inside a loop is rejected (the depth of the function body is not counted).
* `C84_violated_table`: a branch table panics (`todo!`).
* `C85_violated_fibonacci`: a loop that carries a variable it does not change (every loop limit) has a copy of a name to itself, the
  ordering of the copies gives up (`C57_violated_self`), and the copies are executed in the order of the carried values. Fibonacci
  numbers become powers of two.
* `C85_violated_branch`: a branch on an integer tests its low half only (`C67_violated_condition`).
* `C86_violated_halfword`, `C86_violated_odd`, `C86_violated_sum`: words are laid out downwards from the last cell but the
  two halves of a word upwards, and operand and offset are halved separately. Only accesses whose operand and offset are
  both multiples of four reach the right bytes.
* `C86_violated_trap`: there is no check of the address against the size of the memory; address operands near `2^32` wrap
  around modulo `P` and reach the first words of the memory.
* `C87_violated_store`: with optimisation, `let t = (1, 2); let a = [t, t]; a[0].0 = 5; return a[1].0;` returns 5 (1 without
  optimisation): the store updates the state of the tuple `t` that both elements refer to.
* `C87_violated_nested`: a struct inside a struct that is returned: the outer struct is rebuilt from the name of the inner one,
  whose definition the pass has removed. The code generator fails; without optimisation the program is compiled correctly.
* `C87_violated_tuple_field`: the same for a tuple in a field of a struct that is passed to a function: the pass keeps the
  struct because of the call but removes the tuple (only tuples around it are considered).
* `C89_violated_two_projects`, `C89_violated_open`, `C89_violated_removed`, `C89_violated_swap`: the language server keeps one
  cache of diagnostics for all projects and trusts it as long as the revision of the database has not grown. Opening a second
  project or reloading one starts no new revision, entries of removed modules stay, and after a database swap the revisions
  start again, so that edits are not seen until there have been as many as before.
* `C90_violated_astral`, `C90_violated_return`, `C90_violated_beyond`: columns are counted in characters instead of UTF-16 code
  units, a lone carriage return does not end a line, and a column beyond the end of its line is taken for the end of the text.
* `C91_violated` (for every document with a final line end): the range of the formatting edit stops before the final line end,
  which is left behind after the formatted text. `C91_violated_return`: the same for text after a lone carriage return.
* `C92_violated_other_file`, `C92_violated_reopened`: the database swap renumbers the source files but leaves the editor-side
  table (`Backend::source_files`) as it is. An edit after a swap replaces the text of another file, or fails.
* `C92_violated_lost_edit`: an edit between the snapshot of a swap and the exchange is lost.
* `C93_violated_colon`: `src/a/b.cm` and `src/a::b.cm` get the same module name, and one replaces the other without a diagnostic.
  `C93_violated_subdirectory`: with an entry point in a subdirectory of `src` the project counts as a standalone file, and no other
  file is compiled. `C93_violated_directory`: a directory named `x.cm` is read as a source file, which fails for the whole project.
