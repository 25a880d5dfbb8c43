import Verif.TypesProps
import Verif.FormatProps
import Verif.PipelineAll

/-!
# C83: from the text of a program to the machine

`compileText` composes the models of the lexer, the parser, the checks, the lowering and the passes. The specification is
`Spelled` and `programToks` (which text writes which program, C74 and C76), the typed program `elabFile` with the
interpreter `Program.table`, and the runner.
-/

namespace CairoM.Syntax

open Lang Mir Source Lower Pipeline Codegen Abi

/-- `compile_project` up to the MIR (`crates/compiler/src/lib.rs:141-178`): parse, check, lower, run the passes; `none` when a
stage reports an error. The checks are those of C79 and C81; one file. -/
def compileText (k : Pipeline.Config) (src : List Char) : Option Module :=
  match parseSource src with
  | none => none
  | some items =>
    if items.all fun
      | .function f => f.flowOk
      | _ => true
    then
      match typedFns items with
      | none => none
      | some fs => if typeChecks fs then (lowerFile k.lower fs).bind fun gs => gs.mapM (Sroa.allPasses k) else none
    else none

theorem toFunctions_eq (k : Pipeline.Config) (S : Sem) : ∀ gs : List (Name × Fn),
    toFunctions k S gs = (gs.mapM fun g => lowerFn k.lower S g.1 g.2).bind fun hs => hs.mapM (Sroa.allPasses k)
  | [] => by simp [toFunctions]
  | g :: gs => by
    rw [toFunctions, toFunctions_eq k S gs, ← toFunctionAll_eq, toFunctionAll]
    simp only [List.mapM_cons, Option.bind_eq_bind, Option.pure_def]
    cases lowerFn k.lower S g.1 g.2 with
    | none => rfl
    | some F =>
      simp only [Option.bind_some]
      cases gs.mapM fun g => lowerFn k.lower S g.1 g.2 with
      | none => cases Sroa.allPasses k F <;> rfl
      | some Fs =>
        simp only [Option.bind_some, List.mapM_cons, Option.bind_eq_bind, Option.pure_def]
        cases Sroa.allPasses k F with
        | none => rfl
        | some G => cases Fs.mapM (Sroa.allPasses k) <;> rfl

/-- **C83 (partial).** Let `src` be a text that parses and `p` the typed program that the checks have in mind. If the
compiler accepts the text, then calling a function of the compiled program on some arguments ends and returns what the
typed program means. Partial: as for C73 and C81, the scalar fragment, with the decidable conditions `settled`,
`checkProgram` and `fitsCheck` on the program. -/
theorem C83_parsed_partial (k : Pipeline.Config) (hk : k.Ok) (src : List Char) (items : List Item)
    (hparse : parseSource src = some items) (fs : List TFn) (htyped : typedFns items = some fs) (p : Program)
    (helab : elabFile fs = some p) (hs : settled fs = true) (md : Module) (hmd : compileText k src = some md)
    (hcheck : checkProgram k p = true) (S N : ℕ) (hfits : fitsCheck md S N = true) :
    ∃ exe, compileModule md = .ok exe ∧
      ∀ (c : ℕ) (name : Name) (f : Fn), p.fns[c]? = some (name, f) → ∀ (n d : ℕ) (args vs : List Val),
        p.table false n d c args = some vs →
        ∀ inputs, denoteZip inputs ((f.params.map p.varTy).map fun t => abiType (mirTy t)) = some (args.map shown) →
        N + widths args + widths vs + 2 ≤ 2 ^ 27 → N + widths args + widths vs + 2 + d * S ≤ 2 ^ 28 →
        ∃ pc, exe.entries.lookup name = some pc ∧ ∀ maxSteps, 1 ≤ maxSteps → ∃ fuel out,
          runCairoProgram fuel maxSteps exe.program
            ⟨pc, (f.params.map p.varTy).map fun t => abiType (mirTy t), f.rets.map fun t => abiType (mirTy t)⟩ inputs =
              some (.ok out) ∧
          out.returnValues = vs.map shown := by
  rw [compileText, hparse] at hmd
  simp only [htyped] at hmd
  split at hmd
  · split at hmd
    · next hc =>
      have hlow := (C81_accepted_partial fs p hc hs helab k.lower).2
      rw [hlow, ← toFunctions_eq] at hmd
      obtain ⟨exe, hexe, h⟩ := C73_source_to_machine_partial k hk p hcheck md hmd S N hfits
      exact ⟨exe, hexe, fun c name f hf n d args vs ht inputs hin h1 h2 => (h c name f hf n d args vs ht inputs hin h1 h2).2⟩
    · cases hmd
  · cases hmd

/-- **C83 (partial).** The same for every text that spells the tokens of the program, whatever its layout and comments. -/
theorem C83_text_to_machine_partial (k : Pipeline.Config) (hk : k.Ok) (src : List Char) (items : List Item)
    (htext : Spelled true src (programToks items)) (hshape : programShaped items = true)
    (fs : List TFn) (htyped : typedFns items = some fs) (p : Program) (helab : elabFile fs = some p) (hs : settled fs = true)
    (md : Module) (hmd : compileText k src = some md) (hcheck : checkProgram k p = true)
    (S N : ℕ) (hfits : fitsCheck md S N = true) :
    ∃ exe, compileModule md = .ok exe ∧
      ∀ (c : ℕ) (name : Name) (f : Fn), p.fns[c]? = some (name, f) → ∀ (n d : ℕ) (args vs : List Val),
        p.table false n d c args = some vs →
        ∀ inputs, denoteZip inputs ((f.params.map p.varTy).map fun t => abiType (mirTy t)) = some (args.map shown) →
        N + widths args + widths vs + 2 ≤ 2 ^ 27 → N + widths args + widths vs + 2 + d * S ≤ 2 ^ 28 →
        ∃ pc, exe.entries.lookup name = some pc ∧ ∀ maxSteps, 1 ≤ maxSteps → ∃ fuel out,
          runCairoProgram fuel maxSteps exe.program
            ⟨pc, (f.params.map p.varTy).map fun t => abiType (mirTy t), f.rets.map fun t => abiType (mirTy t)⟩ inputs =
              some (.ok out) ∧
          out.returnValues = vs.map shown := by
  exact C83_parsed_partial k hk src items (parse_spelled htext hshape) fs htyped p helab hs md hmd hcheck S N hfits

/-! ### A text that meets the hypotheses -/

private def text : List Char :=
  "fn g(n: u32, b: bool) -> felt { if b { return n as felt; } return 1; } // helper
fn f(x: u32, c: felt) -> u32 {
  let s = 0u32;
  for (let i: u32 = 1 + 2; i <= x; i = i + 1) {
    if g(i, x == 0x5) == c { s = s + i * 2; }
  }
  return s;
}".toList

private theorem text_parses : parseSource text = some sampleItems := by
  refine parse_eq ?_ ?_ <;> decide +kernel

private theorem text_fits (b : Bool) : ((compileText (exConfig b) text).map fun md => fitsCheck md 40 2000) = some true := by
  rw [compileText, text_parses]
  cases b <;> decide +kernel

/-- The text above, compiled with and without optimisation: calling `f` on 5 and 4 returns 8. -/
theorem text_compiled (b : Bool) : ∃ md exe pc, compileText (exConfig b) text = some md ∧ compileModule md = .ok exe ∧
    exe.entries.lookup ['f'] = some pc ∧ ∀ maxSteps, 1 ≤ maxSteps → ∃ fuel out,
      runCairoProgram fuel maxSteps exe.program ⟨pc, [.u32, .felt], [.u32]⟩ [.number 5, .number 4] = some (.ok out) ∧
      out.returnValues = [.u32 8] := by
  have hf := text_fits b
  simp only [Option.map_eq_some_iff] at hf
  obtain ⟨md, hmd, hfits⟩ := hf
  obtain ⟨fs, htyped⟩ : ∃ fs, typedFns sampleItems = some fs := Option.isSome_iff_exists.1 (by decide +kernel)
  have h1 : (typedFns sampleItems).map settled = some true := by decide +kernel
  have h2 : ((typedFns sampleItems).bind elabFile).map (checkProgram (exConfig b)) = some true := by
    cases b <;> decide +kernel
  have h3 : ((typedFns sampleItems).bind elabFile).map (fun p => p.table false 30 4 1 [.u32 5, .felt 4]) =
      some (some [.u32 8]) := by decide +kernel
  have h4 : ((typedFns sampleItems).bind elabFile).map (fun p => (p.fns[1]?).map fun g =>
      (g.1, g.2.params.map p.varTy, g.2.rets)) = some (some (['f'], [.u32, .felt], [.u32])) := by decide +kernel
  simp only [htyped, Option.map_some, Option.some.injEq, Option.bind_some, Option.map_eq_some_iff] at h1 h2
  obtain ⟨p, helab, hcheck⟩ := h2
  simp only [htyped, helab, Option.map_some, Option.some.injEq, Option.bind_some, Option.map_eq_some_iff,
    Prod.mk.injEq] at h3 h4
  obtain ⟨g, hg, hname, hpar, hret⟩ := h4
  obtain ⟨exe, hexe, h⟩ := C83_parsed_partial (exConfig b) (exConfig_ok b) text sampleItems text_parses fs htyped p helab h1 md
    hmd hcheck 40 2000 hfits
  obtain ⟨pc, hpc, hrun⟩ := h 1 g.1 g.2 hg 30 4 [.u32 5, .felt 4] [.u32 8] h3 [.number 5, .number 4]
    (by rw [hpar]; rfl) (by decide +kernel) (by decide +kernel)
  rw [hname] at hpc
  rw [hpar, hret] at hrun
  exact ⟨md, exe, pc, hmd, hexe, hpc, hrun⟩

end CairoM.Syntax
