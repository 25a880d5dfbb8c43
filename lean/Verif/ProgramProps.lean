import Verif.ProgramMachine
import Verif.ProgramLegal

/-!
# Property C67: a compiled program, run by the virtual machine, returns what the source function means
-/

namespace CairoM
namespace Codegen

open Mir Lang Relation Abi

/-- **C67.** Compile a module of well-typed scalar functions, which may branch, loop and call each other and
themselves; load it, and run one of its functions on inputs denoting `args`. If the function means `vs` on `args`
(`callTable`, with calls nested less than `d` deep), then the virtual machine terminates without error, for every
segment size, and the runner shows exactly `vs`. The room conditions say that the program, the arguments and `d`
frames fit into the address space; `hd` that label names are not used twice (see `C55_violated_names`). -/
theorem C67_program_partial (md : Module) (c : Compiled) (hc : compileModule md = .ok c) (g : Gen) (hg : genOf md = some g)
    (hd : Distinct g) (hok : ModuleOk md) (hnum : ∀ f ∈ md, Numbered f)
    (hpar : ∀ f ∈ md, ∀ v ∈ f.params, v < f.nextValue) (k : ℕ) (f : Function) (hk : md[k]? = some f) (args vs : List Val) (n d : ℕ)
    (hmean : callTable md n d k args = some vs)
    (hargs : List.Forall₂ (fun x p => ValTy x (f.types p)) args f.params)
    (params returns : List MirType) (hparams : f.params.map f.types = params.map some)
    (hreturns : f.returns.map f.types = returns.map some)
    (inputs : List InputValue) (hin : denoteZip inputs (params.map abiType) = some (args.map shown))
    (S : ℕ) (hS : ∀ s ∈ frameSizes (md.map legalFunction) (md.map legalFunction) Gen.init, s + 2 ≤ S)
    (hroom : (c.program.flatMap ProgramData.words).length + widths args + widths vs + 2 ≤ 2 ^ 27)
    (hdeep : (c.program.flatMap ProgramData.words).length + widths args + widths vs + 2 + d * S ≤ 2 ^ 28) :
    ∃ pc, c.entries.lookup f.name = some pc ∧ ∀ maxSteps, 1 ≤ maxSteps → ∃ fuel out,
      runCairoProgram fuel maxSteps c.program ⟨pc, params.map abiType, returns.map abiType⟩ inputs = some (.ok out) ∧
      out.returnValues = vs.map shown := by
  have hP : P = 2147483647 := rfl
  have hgen : genFunctions (md.map legalFunction) (md.map legalFunction) Gen.init = .ok g := by
    unfold genOf at hg
    split at hg
    · rename_i g' h'; injection hg with hg; rw [h', hg]
    · cases hg
  unfold compileModule at hc
  split at hc
  swap
  · cases hc
  rename_i hvalid
  rw [hgen] at hc
  dsimp only at hc
  have hnd : (md.map Function.name).Nodup := by simpa using (Bool.and_eq_true_iff.mp hvalid).1
  obtain ⟨-, hpieces⟩ := genFunctions_pieces hgen
  have hnames : (g.entries.map Prod.fst).Nodup := by
    rw [genFunctions_entries hgen]
    simpa [Gen.init, List.map_map, Function.comp_def, legalFunction] using hnd
  obtain ⟨-, -, hent, -⟩ := link_inv hc
  have hmem : f ∈ md := List.mem_of_getElem? hk
  have htypes : ∀ v, v < f.nextValue → (legalFunction f).types v = f.types v :=
    (legalBlocks_spec f.blocks f.nextValue f.types).2.1
  have hparams' : (legalFunction f).params.map (legalFunction f).types = params.map some := by
    rw [← hparams]
    exact List.map_congr_left fun v hv => htypes v (hpar f hmem v hv)
  have hreturns' : (legalFunction f).returns.map (legalFunction f).types = returns.map some := by
    rw [← hreturns]
    exact List.map_congr_left fun v hv => htypes v ((hnum f hmem).returns v hv)
  have hargs' := forall₂_types' hparams hargs
  have hcall := call_runs hc hd (moduleOk_legal hok hnum hpar) (S := S) (n := n) (fun f hf => by
    obtain ⟨L, b, base, p, hfr⟩ := hpieces f hf
    exact ⟨L, b, base, p, hS _ hfr⟩) d k (legalFunction f) args vs (by rw [List.getElem?_map, hk]; rfl)
    (by rw [callTable_legal hnum]; exact hmean) (forall₂_types hparams' hargs')
  obtain ⟨hvs, base, hbase, hrun⟩ := hcall
  have hvs' := forall₂_types' hreturns' hvs
  have hpc : c.entries.lookup f.name = some (place c.code base) := by
    rw [hent, place_eq hc]
    refine lookup_of_nodup ?_ (List.mem_map_of_mem (f := fun e : Name × ℕ => (e.1, physical g.instrs e.2)) hbase)
    simpa [List.map_map, Function.comp_def] using hnames
  refine ⟨_, hpc, fun maxSteps hmax => ?_⟩
  set L := (c.program.flatMap ProgramData.words).length with hL
  have hsp := callSlotSizes_scalars hargs'
  have hsr := callSlotSizes_scalars hvs'
  have hplain := allPlain_scalars params
  obtain ⟨vm0, p1, p2, p3, p4, p5, p6, p7, p8, p9, p10, p11⟩ := C22_arguments c.program
    ⟨place c.code base, params.map abiType, returns.map abiType⟩ inputs (args.map shown) hin (allSized_scalars params)
    hplain 0 (by rw [matSizeVals_plain _ _ _ hplain hin, cellsZip_scalars]) (by
      dsimp only
      rw [hsp, hsr, ← hL]
      omega)
  dsimp only at p2 p3 p4
  rw [hsp, hsr] at p3 p4
  rw [← hL] at p3 p9
  have hplace : place c.code c.code.length ≤ L := by
    rw [hL, Compiled.program, List.flatMap_append, List.flatMap_append, List.length_append, List.length_append,
      words_length, place, List.take_length]
    omega
  have hpos : 0 < L := by
    have hlt : base < g.instrs.length := by
      unfold link at hc
      split at hc
      · rename_i h
        have := (List.all_eq_true.mp (Bool.and_eq_true_iff.mp h).1) _ hbase
        simpa using this
      · cases hc
    have hlt' : base < c.code.length := by
      rw [(resolveAll_get (link_inv hc).1).1]; exact hlt
    have := place_end (List.getElem?_eq_getElem hlt')
    have h5 := (Instruction.C05_words c.code[base]).1
    have : 0 < c.code[base].encode.length := by cases c.code[base] <;> exact Nat.succ_pos _
    omega
  have hfin : vm0.finalPc.val = L := by
    rw [p9, M31.ofU32, ZMod.val_natCast_of_lt (by omega)]
  have hcode : CodeAt vm0.memory.view c.code := by
    refine (C55_loaded c (by omega)).congr (by omega) fun a ha => ?_
    have := p5 a.val (by omega)
    rw [M31.ofU32, ZMod.natCast_zmod_val] at this
    rw [this, view_of_lt (WF_load _ (by omega)) (by simp only [VM.load, Memory.ofWords]; omega)]
    rfl
  have e1 : adr vm0.state.fp (-(widths args : ℤ) - widths vs - 2) =
      vm0.state.fp - M31.ofU32 (widths args + widths vs + 2) := by
    rw [adr, M31.ofU32]
    push_cast
    ring
  rw [← e1] at p4
  have hhold := decodeTuple_holds hargs' p4
  rw [Nat.cast_zero, add_zero] at hhold
  have v1 : (vm0.state.fp - 1).val = vm0.state.fp.val - 1 := by
    have := val_sub_ofU32 vm0.state.fp 1 (by omega)
    simpa [M31.ofU32] using this
  have v2 : (vm0.state.fp - 2).val = vm0.state.fp.val - 2 := val_sub_ofU32 vm0.state.fp 2 (by omega)
  have f1 : Isa.felt vm0.memory.view (vm0.state.fp - 1) = some vm0.finalPc := by
    unfold Isa.felt
    rw [p11, if_pos ⟨by unfold Isa.InRange; omega, rfl, rfl, rfl⟩]
    rfl
  have f2 : Isa.felt vm0.memory.view (vm0.state.fp - 2) = some vm0.state.fp := by
    unfold Isa.felt
    rw [p10, if_pos ⟨by unfold Isa.InRange; omega, rfl, rfl, rfl⟩]
    rfl
  have h0 : vm0.finalPc ≠ 0 := by
    intro e
    rw [e, ZMod.val_zero] at hfin
    omega
  have hloc : vm0.state.fp.val ≤ vm0.memory.locals.length := by
    by_contra hcon
    have : vm0.memory.view (vm0.state.fp - 1) = QM31.zero := by
      simp only [Memory.view, p8.1, v1]
      rw [List.getElem?_eq_none (by omega)]
      simp
    rw [this] at p11
    have : QM31.ofM31 0 = QM31.ofM31 vm0.finalPc := p11
    simp only [QM31.ofM31] at this
    injection this with this
    exact h0 this.symm
  obtain ⟨-, m', r1, r2, -⟩ := hrun vm0.state.fp vm0.state.fp vm0.finalPc vm0.memory.view hcode hhold f1 f2
    (by omega) (by omega)
  obtain ⟨N, vf, s1, s2, s3, s4⟩ := go_steps r1 (vm := vm0) (by rw [config, p2]; rfl) p6 (by omega) (by omega)
  have hpcf : vf.state.pc = vm0.finalPc := congrArg Config.pc s2
  have hfpf : vf.state.fp = vm0.state.fp := congrArg Config.fp s2
  have hmf : vf.memory.view = m' := congrArg Config.mem s2
  exact runCairoProgram_of_halts p1 p7 h0 ⟨N, s1, by rw [hpcf, s4]⟩ rfl hvs' (by rw [hmf, hfpf]; exact r2) hmax

/-! ### An example -/

/-- `fn fact(n: felt) -> felt { if n != 0 { return n * fact(n - 1); } else { return 1; } }` -/
def factFn : Function :=
  ⟨['f', 'a', 'c', 't'],
    [⟨[], .BranchCmp .Neq (.Operand 0) (.Literal (.Integer 0)) 1 2⟩,
     ⟨[.BinaryOp .Sub 1 (.Operand 0) (.Literal (.Integer 1)), .Call [2] 0 [.Operand 1] ⟨[.Felt], [.Felt]⟩,
       .BinaryOp .Mul 3 (.Operand 0) (.Operand 2)], .Return [.Operand 3]⟩,
     ⟨[.Assign 4 (.Literal (.Integer 1)) .Felt], .Return [.Operand 4]⟩],
    [0], [3], 5, fun v => if v < 5 then some .Felt else none⟩

/-- `fn main(x: u32, y: u32) -> felt { if x >= y { return fact(5); } else { return 7; } }` -/
def mainFn : Function :=
  ⟨['m', 'a', 'i', 'n'],
    [⟨[.BinaryOp .U32GreaterEqual 2 (.Operand 0) (.Operand 1)], .If (.Operand 2) 1 2⟩,
     ⟨[.Call [3] 0 [.Literal (.Integer 5)] ⟨[.Felt], [.Felt]⟩], .Return [.Operand 3]⟩,
     ⟨[.Assign 4 (.Literal (.Integer 7)) .Felt], .Return [.Operand 4]⟩],
    [0, 1], [3], 5, fun v => if v < 2 then some .U32 else if v = 2 then some .Bool else if v < 5 then some .Felt else none⟩

theorem factFn_calling : Calling factFn fun k v => (k = 0 ∨ k = 1) ∧ v = 0 := by
  have lit : ∀ n : BitVec 32, n.toNat < P → LiteralTy (.Integer n) .Felt := fun n hn =>
    ⟨.felt, _, rfl, rfl, fun _ => hn⟩
  refine ⟨fun b hb i hi => ?_, fun b hb => ?_, ⟨fun v hv => ?_, fun k blk hk => ?_, fun k blk hk t ht v hv => ?_, by decide +kernel,
    fun b hb d hd => ?_, fun j blk hj d hd k hk => ?_⟩⟩
  · simp only [factFn, List.mem_cons, List.not_mem_nil, or_false] at hb
    rcases hb with rfl | rfl | rfl <;> simp only [List.mem_cons, List.not_mem_nil, or_false] at hi
    · rcases hi with rfl | rfl | rfl <;> simp [InstrTyped, InstrCalls, InstrSimple, HasType, factFn, resultType, LiteralOk, OperandTyped, operandTypes, literalTy, Canon]
    · subst hi
      simp [InstrTyped, InstrCalls, InstrSimple, HasType, factFn, lit]
  · simp only [factFn, List.mem_cons, List.not_mem_nil, or_false] at hb
    rcases hb with rfl | rfl | rfl <;>
      simp [TermTyped, factFn, LiteralOk, OperandTyped, operandTypes, literalTy, Canon, HasType]
  · simp [factFn, hv.2]
  · match k, hk with
    | 0, hk | 1, hk | 2, hk =>
      simp only [factFn, List.getElem?_cons_succ, List.getElem?_cons_zero, Option.some.injEq] at hk
      subst hk
      simp [Defined, Instr.uses, Value.ids, valuesIds, Terminator.uses, Instr.destinations]
    | _ + 3, hk => simp [factFn] at hk
  · obtain ⟨h1, rfl⟩ := hv
    match k, hk with
    | 0, hk | 1, hk | 2, hk =>
      simp only [factFn, List.getElem?_cons_succ, List.getElem?_cons_zero, Option.some.injEq] at hk
      subst hk
      simp [Terminator.targets] at ht ⊢
    | _ + 3, hk => simp [factFn] at hk
  · have := hd.dest
    simp only [factFn, List.mem_cons, List.not_mem_nil, or_false] at hb
    rcases hb with rfl | rfl | rfl <;> simp [Instr.destinations] at this
    · rcases this with rfl | rfl | rfl <;> decide +kernel
    · subst this; decide +kernel
  · have := hd.dest
    obtain ⟨-, rfl⟩ := hk
    have hb := List.mem_of_getElem? hj
    simp only [factFn, List.mem_cons, List.not_mem_nil, or_false] at hb
    rcases hb with rfl | rfl | rfl <;> simp [Instr.destinations] at this

theorem mainFn_calling : Calling mainFn fun k v => k = 0 ∧ (v = 0 ∨ v = 1) := by
  have lit : ∀ n : BitVec 32, n.toNat < P → LiteralTy (.Integer n) .Felt := fun n hn =>
    ⟨.felt, _, rfl, rfl, fun _ => hn⟩
  refine ⟨fun b hb i hi => ?_, fun b hb => ?_, ⟨fun v hv => ?_, fun k blk hk => ?_, fun k blk hk t ht v hv => ?_, by decide +kernel,
    fun b hb d hd => ?_, fun j blk hj d hd k hk => ?_⟩⟩
  · simp only [mainFn, List.mem_cons, List.not_mem_nil, or_false] at hb
    rcases hb with rfl | rfl | rfl <;> simp only [List.mem_cons, List.not_mem_nil, or_false] at hi
    all_goals subst hi
    all_goals simp [InstrTyped, InstrCalls, InstrSimple, HasType, mainFn, resultType, LiteralOk, OperandTyped, operandTypes, literalTy]
    all_goals exact lit _ (by decide)
  · simp only [mainFn, List.mem_cons, List.not_mem_nil, or_false] at hb
    rcases hb with rfl | rfl | rfl <;>
      simp [TermTyped, mainFn, LiteralOk, OperandTyped, operandTypes, literalTy, Canon, HasType]
  · simpa [mainFn] using hv.2
  · match k, hk with
    | 0, hk | 1, hk | 2, hk =>
      simp only [mainFn, List.getElem?_cons_succ, List.getElem?_cons_zero, Option.some.injEq] at hk
      subst hk
      simp [Defined, Instr.uses, Value.ids, valuesIds, Terminator.uses, Instr.destinations]
    | _ + 3, hk => simp [mainFn] at hk
  · match k, hk with
    | 0, hk | 1, hk | 2, hk =>
      simp only [mainFn, List.getElem?_cons_succ, List.getElem?_cons_zero, Option.some.injEq] at hk
      subst hk
      first
      | (simp [Terminator.targets] at ht; done)
      | (simp only [Terminator.targets, List.mem_cons, List.not_mem_nil, or_false] at ht
         rcases ht with rfl | rfl <;> exact absurd hv.1 (by decide))
    | _ + 3, hk => simp [mainFn] at hk
  · have := hd.dest
    simp only [mainFn, List.mem_cons, List.not_mem_nil, or_false] at hb
    rcases hb with rfl | rfl | rfl <;> simp [Instr.destinations] at this <;> subst this <;> decide +kernel
  · have := hd.dest
    obtain ⟨-, hd'⟩ := hk
    have hb := List.mem_of_getElem? hj
    simp only [mainFn, List.mem_cons, List.not_mem_nil, or_false] at hb
    rcases hb with rfl | rfl | rfl <;> simp [Instr.destinations] at this <;> subst this <;> simp at hd'

/-- A decidable form of the conditions of C67 on the code: labels differ, frames are shorter than `S`, the program
has at most `N` words. -/
def fitsCheck (md : Module) (S N : ℕ) : Bool :=
  match genOf md with
  | none => false
  | some g =>
    match compileModule md with
    | .error _ => false
    | .ok c =>
      (g.labels.all fun l => (g.labels.all fun l' => decide (l.name = l'.name → l.addr = l'.addr)) &&
        decide (l.name ∉ g.roLabels) && decide (l.name ≠ sHeapCursor)) &&
      ((frameSizes (md.map legalFunction) (md.map legalFunction) Gen.init).all fun s => decide (s + 2 ≤ S)) &&
      decide ((c.program.flatMap ProgramData.words).length ≤ N)

theorem fitsCheck_spec {md : Module} {S N : ℕ} (h : fitsCheck md S N = true) : ∃ g c, genOf md = some g ∧
    compileModule md = .ok c ∧ Distinct g ∧
    (∀ s ∈ frameSizes (md.map legalFunction) (md.map legalFunction) Gen.init, s + 2 ≤ S) ∧
    (c.program.flatMap ProgramData.words).length ≤ N := by
  unfold fitsCheck at h
  split at h
  · cases h
  · rename_i g hg
    split at h
    · cases h
    · rename_i c hc
      simp only [Bool.and_eq_true, List.all_eq_true, decide_eq_true_eq] at h
      obtain ⟨⟨h1, h2⟩, h3⟩ := h
      exact ⟨g, c, hg, hc, ⟨fun l hl => (h1 l hl).1.1, fun l hl => (h1 l hl).1.2, fun l hl => (h1 l hl).2⟩, h2, h3⟩

/-- The module of the example. -/
def exampleModule : Module := [factFn, mainFn]

theorem exampleModule_ok : ModuleOk exampleModule := by
  refine ⟨fun f hf => ?_, fun f hf => ?_, fun f hf => ?_⟩ <;>
    simp only [exampleModule, List.mem_cons, List.not_mem_nil, or_false] at hf <;> rcases hf with rfl | rfl
  · exact ⟨_, factFn_calling⟩
  · exact ⟨_, mainFn_calling⟩
  · intro b hb; simp only [factFn, List.getLast?_cons_cons, List.getLast?_singleton, Option.some.injEq] at hb; subst hb; simp
  · intro b hb; simp only [mainFn, List.getLast?_cons_cons, List.getLast?_singleton, Option.some.injEq] at hb; subst hb; simp
  all_goals
    intro b hb ds c args sig hc
    simp only [factFn, mainFn, List.mem_cons, List.not_mem_nil, or_false] at hb
    rcases hb with rfl | rfl | rfl <;> simp at hc
    obtain ⟨rfl, rfl, rfl, rfl⟩ := hc
    exact ⟨factFn, rfl, rfl, rfl⟩

/-- Non-vacuity of C67: the conditions hold of the example, and `main(70000, 3)` is `fact(5)`. -/
theorem example_runs :
    ∃ c pc, compileModule exampleModule = .ok c ∧ c.entries.lookup mainFn.name = some pc ∧
      ∀ maxSteps, 1 ≤ maxSteps → ∃ fuel out,
        runCairoProgram fuel maxSteps c.program ⟨pc, [.u32, .u32], [.felt]⟩ [.number 70000, .number 3] = some (.ok out) ∧
        out.returnValues = [.felt 120] := by
  obtain ⟨g, c, hg, hc, hd, hS, hN⟩ := fitsCheck_spec (md := exampleModule) (S := 100) (N := 1000) (by decide +kernel)
  have hnum : ∀ f ∈ exampleModule, Numbered f ∧ ∀ v ∈ f.params, v < f.nextValue := by
    intro f hf
    simp only [exampleModule, List.mem_cons, List.not_mem_nil, or_false] at hf
    rcases hf with rfl | rfl <;> exact ⟨⟨by decide +kernel, by decide +kernel, by decide +kernel⟩, by decide +kernel⟩
  obtain ⟨pc, h1, h2⟩ := C67_program_partial exampleModule c hc g hg hd exampleModule_ok (fun f hf => (hnum f hf).1)
    (fun f hf => (hnum f hf).2) 1 mainFn rfl [.u32 70000, .u32 3] [.felt 120] 10 10 (by decide +kernel)
    (.cons ⟨.U32, .u32, rfl, rfl, rfl, by unfold U32Range; norm_num⟩ (.cons ⟨.U32, .u32, rfl, rfl, rfl, by unfold U32Range; norm_num⟩ .nil)) [.U32, .U32] [.Felt] rfl rfl
    [.number 70000, .number 3] (by
      have hden : ∀ z : ℕ, z < 2 ^ 32 → Abi.denote (.number z) .u32 = some (.u32 z) := fun z hz => by
        rw [Abi.denote, if_pos (by omega), Int.toNat_natCast]
      have h1 := hden 70000 (by norm_num)
      have h2 := hden 3 (by norm_num)
      push_cast at h1 h2
      simp only [List.map_cons, List.map_nil, abiType, denoteZip, h1, h2, shown, Option.bind_some, Option.map_some]) 100 hS
    (by simp only [widths, List.map_cons, List.map_nil, width, List.sum_cons, List.sum_nil]; omega)
    (by simp only [widths, List.map_cons, List.map_nil, width, List.sum_cons, List.sum_nil]; omega)
  exact ⟨c, pc, hc, h1, h2⟩

end Codegen
end CairoM
