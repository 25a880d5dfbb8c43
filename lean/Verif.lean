import Verif.M31
import Verif.Instruction
import Verif.InstructionLemmas
import Verif.Json
import Verif.Memory
import Verif.MemoryLemmas
import Verif.VM
import Verif.IsaSpec
import Verif.VMLemmas
import Verif.VMExec
import Verif.InstructionProps
import Verif.MemoryProps
import Verif.StepSpec
import Verif.StepLemmas
import Verif.VMProps
import Verif.U32Props
import Verif.PrefixLemmas
import Verif.Segments
import Verif.SegmentProps
import Verif.Cli
import Verif.CliProps
import Verif.Abi
import Verif.AbiLemmas
import Verif.AbiProps
import Verif.AirCore
import Verif.AirFelt
import Verif.AirU32
import Verif.AirSpec
import Verif.AirLemmas
import Verif.AirRows
import Verif.AirArith
import Verif.AirFeltProps
import Verif.AirU32Props
import Verif.MemArg
import Verif.RegArg
import Verif.AirTrace
import Verif.AirRun
import Verif.AirPath
import Verif.AirTables
import Verif.AirGlobal
import Verif.AirGlobalProps
import Verif.AirForge
import Verif.AirForgeProps
import Verif.Adapter
import Verif.AdapterSpec
import Verif.AdapterLemmas
import Verif.AdapterPublic
import Verif.AdapterProps
import Verif.AdapterRun
import Verif.AdapterRunProps
import Verif.Merkle
import Verif.MerkleLemmas
import Verif.MerkleRun
import Verif.MerkleProps
import Verif.MirOps
import Verif.MirOpsProps
import Verif.Mir
import Verif.Codegen
import Verif.CodegenGen
import Verif.CodegenRun
import Verif.CodegenProps
import Verif.CodegenWitness
import Verif.MirSem
import Verif.MirPasses
import Verif.MirSim
import Verif.LegalizeLemmas
import Verif.LegalizeProps
import Verif.MirBranchLemmas
import Verif.MirBranchProps
import Verif.MirFoldProps
import Verif.MirDeadLemmas
import Verif.MirDeadProps
import Verif.PhiLemmas
import Verif.PhiElimLemmas
import Verif.PhiSim
import Verif.PhiProps
import Verif.IsaFrame
import Verif.CodegenPassLemmas
import Verif.CodegenPassProps
import Verif.LinkLemmas
import Verif.LinkProps
import Verif.LayoutProps
import Verif.HeapProps
import Verif.MirTyping
import Verif.ConstPropLemmas
import Verif.ConstPropProps
import Verif.AggregateProps
import Verif.FieldUpdateSpec
import Verif.FieldUpdateLemmas
import Verif.FieldUpdateProps
import Verif.AggregateLiteralSpec
import Verif.AggregateLiteralLemmas
import Verif.AggregateLiteralProps
import Verif.PlaceLemmas
import Verif.PlaceProps
import Verif.AirWrite
import Verif.AirWriteU32
import Verif.AirWriteSpec
import Verif.AirWriteArith
import Verif.AirWriteLemmas
import Verif.AirWriteFelt
import Verif.AirWriteU32Rows
import Verif.AirWriteProps
import Verif.AirWriteRun
import Verif.AirWriteRunProps
import Verif.FunctionSpec
import Verif.FunctionInstr
import Verif.FunctionStep
import Verif.FunctionStatic
import Verif.FunctionBlock
import Verif.FunctionTerm
import Verif.FunctionReturn
import Verif.FunctionRun
import Verif.FunctionProps
import Verif.ProgramSpec
import Verif.ProgramEv
import Verif.ProgramStatic
import Verif.ProgramCall
import Verif.ProgramGen
import Verif.ProgramArgs
import Verif.ProgramBlock
import Verif.ProgramRun
import Verif.ProgramPasses
import Verif.ProgramUnits
import Verif.ProgramLink
import Verif.ProgramLegal
import Verif.ProgramMachine
import Verif.ProgramProps
import Verif.ProgramViolations
import Verif.Ssa
import Verif.SsaLemmas
import Verif.SsaSubst
import Verif.SsaCheck
import Verif.CopyProps
import Verif.CseProps
import Verif.AirOpenSpec
import Verif.AirOpenProps
import Verif.PoseidonSpec
import Verif.PoseidonProps
import Verif.SourceSpec
import Verif.SourceLemmas
import Verif.Lowering
import Verif.LoweringInv
import Verif.LoweringOps
import Verif.LoweringRead
import Verif.LoweringClose
import Verif.LoweringSim
import Verif.LoweringExpr
import Verif.LoweringStmt
import Verif.LoweringFlow
import Verif.LoweringFor
import Verif.LoweringMain
import Verif.LoweringFinal
import Verif.LoweringProps
import Verif.ConstInline
import Verif.ConstInlineSpec
import Verif.ConstInlineLemmas
import Verif.ConstInlineProps
import Verif.PipelineChecks
import Verif.PipelineCodegen
import Verif.PipelineSpec
import Verif.PipelineLemmas
import Verif.PipelineProps
import Verif.Syntax
import Verif.Parser
import Verif.SyntaxSpec
import Verif.ParserLemmas
import Verif.ParserTypes
import Verif.ParserExpr
import Verif.ParserStmt
import Verif.ParserItems
import Verif.ParserFuel
import Verif.ParserSound
import Verif.ParserProps
import Verif.Lexer
import Verif.LexSpec
import Verif.LexLemmas
import Verif.LexProps
import Verif.Formatter
import Verif.FormatLayout
import Verif.FormatSpec
import Verif.FormatReads
import Verif.FormatExpr
import Verif.FormatStmt
import Verif.FormatProps
import Verif.ControlFlow
import Verif.ControlFlowSpec
import Verif.ControlFlowLemmas
import Verif.ControlFlowProps
import Verif.ControlFlowParsed
import Verif.Names
import Verif.NamesSpec
import Verif.NamesLemmas
import Verif.NamesProps
import Verif.Duplicates
import Verif.DuplicatesSpec
import Verif.DuplicatesLemmas
import Verif.DuplicatesProps
import Verif.ImportedNames
import Verif.ImportedNamesSpec
import Verif.ImportedNamesLemmas
import Verif.ImportedNamesProps
import Verif.ImportedUse
import Verif.ImportedUseProps
import Verif.Types
import Verif.TypesLower
import Verif.TypesLemmas
import Verif.TypesStmt
import Verif.TypesPlaced
import Verif.TypesIndep
import Verif.TypesProps
import Verif.TextProps
import Verif.WasmSpec
import Verif.Wasm
import Verif.WasmLemmas
import Verif.WasmGen
import Verif.WasmEmit
import Verif.WasmStep
import Verif.WasmOp
import Verif.WasmSim
import Verif.WasmRun
import Verif.WasmExec
import Verif.WasmProps
import Verif.WasmExamples
import Verif.WasmPipelineSpec
import Verif.WasmPipelineProps
import Verif.WasmMachine
import Verif.WasmMemSpec
import Verif.WasmMem
import Verif.WasmMemProps
import Verif.WasmMemExamples
import Verif.AggSem
import Verif.Sroa
import Verif.SroaCheck
import Verif.SroaLemmas
import Verif.SroaSim
import Verif.SroaStep
import Verif.SroaBlock
import Verif.SroaFlat
import Verif.SroaProps
import Verif.SroaExamples
import Verif.Imports
import Verif.ImportsSpec
import Verif.ImportsLemmas
import Verif.ImportsProps
import Verif.LsText
import Verif.LsTextSpec
import Verif.LsTextLemmas
import Verif.LsTextProps
import Verif.LsDelta
import Verif.LsDeltaSpec
import Verif.LsDeltaLemmas
import Verif.LsDeltaProps
import Verif.LsSwap
import Verif.LsSwapSpec
import Verif.LsSwapLemmas
import Verif.LsSwapProps
import Verif.Modules
import Verif.ModulesSpec
import Verif.ModulesLemmas
import Verif.ModulesProps
import Verif.LoweringPlain
import Verif.PipelineAll
import Verif.WasmPlain
import Verif.Navigation
import Verif.NavigationProps
import Verif.AssignCheck
import Verif.AssignCheckProps
import Verif.ComponentAssign
import Verif.ComponentAssignSpec
import Verif.ComponentAssignLemmas
import Verif.ComponentAssignProps
import Verif.PatternLet
import Verif.PatternLetSpec
import Verif.PatternLetLemmas
import Verif.PatternLetProps
import Verif.TypeNames
import Verif.TypeNamesSpec
import Verif.TypeNamesLemmas
import Verif.TypeNamesProps
import Verif.TypeChecks
import Verif.TypeChecksSpec
import Verif.TypeChecksLemmas
import Verif.TypeChecksProps
