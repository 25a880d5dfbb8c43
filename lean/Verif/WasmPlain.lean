import Verif.SroaProps
import Verif.WasmPipelineProps

/-!
# C85 with all passes

The WebAssembly front end builds no aggregates, so that the scalar replacement of aggregates changes nothing and `C85` holds for
the pipeline with all passes.
-/

namespace CairoM
namespace Wasm

open Mir Mir.Sroa Codegen Abi

/-- No instruction emitted so far builds an aggregate. -/
def PlainBlocks (bs : List Block) : Prop := ∀ b ∈ bs, ∀ i ∈ b.instrs, buildsNone i = true

def Plain (s : St) : Prop := PlainBlocks s.blocks

/-- The result, if there is one, has the property. -/
def Gives {α : Type} (P : α → Prop) (r : Except Err α) : Prop := ∀ a, r = .ok a → P a

theorem Gives.bind {α β : Type} {P : α → Prop} {Q : β → Prop} {r : Except Err α} {f : α → Except Err β} (h : Gives P r)
    (hf : ∀ a, P a → Gives Q (f a)) : Gives Q (r >>= f) := by
  intro b hb
  cases r with
  | error e => cases hb
  | ok a => exact hf a (h a rfl) b hb

theorem Gives.any {α β : Type} {Q : β → Prop} {r : Except Err α} {f : α → Except Err β} (hf : ∀ a, Gives Q (f a)) :
    Gives Q (r >>= f) := Gives.bind (P := fun _ => True) (fun _ _ => trivial) fun a _ => hf a

theorem gives_ok {α : Type} {P : α → Prop} {a : α} (h : P a) : Gives P (.ok a) := by
  intro b hb; cases hb; exact h

theorem gives_error {α : Type} {P : α → Prop} {e : Err} : Gives P (.error e : Except Err α) := by
  intro b hb; cases hb

variable {s : St}

theorem modify_plain {bs : List Block} (h : PlainBlocks bs) (k : ℕ) (f : Block → Block)
    (hf : ∀ b, (∀ i ∈ b.instrs, buildsNone i = true) → ∀ i ∈ (f b).instrs, buildsNone i = true) : PlainBlocks (bs.modify k f) := by
  intro b hb
  obtain ⟨j, hj⟩ := List.mem_iff_getElem?.1 hb
  rw [List.getElem?_modify] at hj
  cases hbj : bs[j]? with
  | none => rw [hbj] at hj; cases hj
  | some c =>
    rw [hbj] at hj
    have hc := h c (List.mem_of_getElem? hbj)
    simp only [Option.map_eq_map, Option.map_some, Option.some.injEq] at hj
    split at hj
    · subst hj; exact hf c hc
    · subst hj; exact hc

theorem Plain.addBlock (h : Plain s) : Plain s.addBlock.1 := by
  intro b hb
  simp only [St.addBlock, List.mem_append, List.mem_singleton] at hb
  rcases hb with hb | rfl
  · exact h b hb
  · simp

theorem Plain.fresh (h : Plain s) (t : MirType) : Plain (s.fresh t).1 := h

theorem Plain.push (h : Plain s) {i : Instr} (hi : buildsNone i = true) : Gives Plain (s.push i) := by
  unfold St.push
  split
  · refine gives_ok (modify_plain h _ _ fun b hb j hj => ?_)
    simp only [List.mem_append, List.mem_singleton] at hj
    rcases hj with hj | rfl
    · exact hb j hj
    · exact hi
  · exact gives_error

theorem Plain.setTerm (h : Plain s) (b : ℕ) (t : Terminator) : Gives Plain (s.setTerm b t) := by
  unfold St.setTerm
  split
  · exact gives_ok (modify_plain h _ _ fun b hb => hb)
  · exact gives_error

theorem Plain.insert (h : Plain s) (o : Origin) (v : ℕ) : Plain (s.insert o v) := h

theorem pushPhi_plain {p : Instr} (hp : buildsNone p = true) : ∀ (is : List Instr), (∀ i ∈ is, buildsNone i = true) →
    ∀ i ∈ pushPhi is p, buildsNone i = true := by
  intro is
  induction is with
  | nil => intro _ i hi; simp [pushPhi] at hi; subst hi; exact hp
  | cons j js ih =>
    intro h i hi
    have hj := h j (by simp)
    have hjs := ih fun i hi => h i (by simp [hi])
    unfold pushPhi at hi
    split at hi
    · rename_i heq
      injection heq with h1 h2
      subst h1 h2
      simp only [List.mem_cons] at hi
      rcases hi with rfl | hi
      · exact hj
      · exact hjs i hi
    · simp only [List.mem_cons] at hi
      rcases hi with rfl | hi
      · exact hp
      · exact h i (by simpa using hi)

theorem phis_plain (b : ℕ) : ∀ (ts : List MirType) (s : St), Plain s → Plain (s.phis b ts).1
  | [], _, h => h
  | t :: ts, s, h => by
    refine phis_plain b ts _ ?_
    exact modify_plain (bs := s.blocks) h b _ fun c hc => pushPhi_plain rfl c.instrs hc

theorem insertAll_plain (node : ℕ) : ∀ (vs : List ℕ) (i : ℕ) (s : St), Plain s → Plain (s.insertAll node i vs)
  | [], _, _, h => h
  | _ :: vs, i, _, h => insertAll_plain node vs (i + 1) _ (Plain.insert h _ _)

theorem allocate_plain : ∀ (ns : List Node) (idx : ℕ) (s : St), Plain s → Gives Plain (s.allocate idx ns)
  | [], _, _, h => by rw [St.allocate]; exact gives_ok h
  | n :: ns, idx, s, h => by
    cases n with
    | label id types =>
      rw [St.allocate]
      refine Gives.any fun ts => ?_
      refine allocate_plain ns (idx + 1) _ ?_
      refine insertAll_plain idx _ 0 _ ?_
      exact phis_plain _ ts _ (Plain.addBlock h)
    | _ => rw [St.allocate]; exact allocate_plain ns _ s h; all_goals simp

theorem Plain.binop (h : Plain s) (b : Bin) (l r : ℕ) (t : MirType) : Gives (fun x => Plain x.1) (s.binop b l r t) := by
  unfold St.binop
  dsimp only
  split
  · exact gives_error
  · exact Gives.bind (Plain.push (Plain.fresh h t) rfl) fun s h => gives_ok h

theorem Plain.address (h : Plain s) (a offset : ℕ) : Gives (fun x => Plain x.1) (s.address a offset) := by
  unfold St.address
  exact Gives.bind (Plain.push (s := (((s.fresh .U32).1.fresh .Felt).1.fresh .Felt).1) h rfl) fun s h =>
    Gives.bind (Plain.push h rfl) fun s h => Gives.bind (Plain.push h rfl) fun s h => gives_ok h

theorem Plain.convert (m : FuncTypes) (h : Plain s) (o : Op) (ins : List Origin) :
    Gives (fun x => Plain x.1) (s.convert m o ins) := by
  unfold St.convert
  refine Gives.any fun vs => ?_
  cases o with
  | bin b =>
    dsimp only
    split
    · split
      · exact h.binop _ _ _ _
      · refine Gives.bind (P := Plain) (Plain.push ?_ rfl) fun s h => ?_
        · exact h
        · exact Gives.bind (Plain.push h rfl) fun s h => Gives.bind (Plain.push h rfl) fun s h => gives_ok h
    · exact gives_error
  | eqz =>
    dsimp only
    split
    · exact Gives.bind (Plain.push (Plain.fresh h _) rfl) fun s h => gives_ok h
    · exact gives_error
  | const n => exact Gives.bind (Plain.push (Plain.fresh h _) rfl) fun s h => gives_ok h
  | localAccess => exact gives_error
  | call f =>
    dsimp only
    split
    · exact gives_error
    · exact Gives.any fun ps => Gives.any fun rs =>
        Gives.bind (Plain.push (Plain.fresh h _) rfl) fun s h => gives_ok h
  | load offset =>
    dsimp only
    split
    · exact Gives.bind (h.address _ _) fun ⟨s, c⟩ h => Gives.bind (Plain.push (Plain.fresh h _) rfl) fun s h => gives_ok h
    · exact gives_error
  | store offset =>
    dsimp only
    split
    · refine Gives.bind (h.address _ _) fun ⟨s, c⟩ h => ?_
      dsimp only
      split
      · exact Gives.bind (Plain.push h rfl) fun s h => gives_ok h
      · exact gives_error
    · exact gives_error
  | other => exact gives_error

theorem Plain.resolve (h : Plain s) (ins : List Origin) (t : Target) : Gives (fun x => Plain x.1) (s.resolve ins t) := by
  cases t with
  | label id =>
    rw [St.resolve]
    split
    · exact gives_ok h
    · exact gives_error
  | outer d =>
    rw [St.resolve]
    split
    · exact Gives.any fun vs => Gives.bind (Plain.setTerm (Plain.addBlock h) _ _) fun s h => gives_ok h
    · split
      · exact gives_ok h
      · exact gives_error

theorem Plain.record (h : Plain s) (ins : List Origin) (t : Target) : Gives Plain (s.record ins t) := by
  cases t with
  | label id =>
    rw [St.record]
    refine Gives.any fun vs => ?_
    split
    · exact gives_error
    · split
      · exact gives_error
      · exact gives_ok h
  | outer d =>
    rw [St.record]
    split
    · exact gives_ok h
    · exact Gives.any fun vs => gives_ok h

theorem Plain.condBranch (h : Plain s) (onTrue : Bool) (t : Target) (ins : List Origin) :
    Gives Plain (s.condBranch onTrue t ins) := by
  unfold St.condBranch
  split
  · exact gives_error
  · exact Gives.any fun c => Gives.bind (h.resolve ins t) fun ⟨s, b⟩ h =>
      Gives.bind (Plain.record (Plain.addBlock h) _ t) fun s h => Gives.bind (h.setTerm _ _) fun s h => gives_ok h

theorem entry_plain (header : ℕ) : ∀ (os : List Origin) (ds : List ℕ) (s : St), Plain s → Gives Plain (s.entry header os ds)
  | [], _, _, h => by rw [St.entry]; exact gives_ok h
  | _ :: _, [], _, h => by rw [St.entry]; exact gives_ok h; simp
  | o :: os, d :: ds, s, h => by
    rw [St.entry]
    exact Gives.any fun v => entry_plain header os ds _ h

mutual
theorem genNode_plain (m : FuncTypes) : ∀ (n : Node) (idx : ℕ) (s : St), Plain s → Gives Plain (s.genNode m idx n)
  | .inputs _, _, _, h => by rw [St.genNode]; exact gives_ok h
  | .op o ins, idx, s, h => by
    rw [St.genNode]
    refine Gives.bind (Plain.convert m h o ins) fun ⟨s, r⟩ h => gives_ok ?_
    split
    · exact h
    · exact h
  | .label id _, idx, s, h => by
    rw [St.genNode]
    split
    · exact gives_error
    · exact gives_ok h
  | .br t ins, idx, s, h => by
    rw [St.genNode]
    exact Gives.bind (h.resolve ins t) fun ⟨s, b⟩ h => Gives.bind (Plain.record h ins t) fun s h =>
      Gives.bind (h.setTerm _ _) fun s h => gives_ok h
  | .brIf t ins, idx, s, h => by rw [St.genNode]; exact h.condBranch _ _ _
  | .brIfZero t ins, idx, s, h => by rw [St.genNode]; exact h.condBranch _ _ _
  | .brTable _, idx, s, h => by rw [St.genNode]; exact gives_error
  | .loop ins body, idx, s, h => by
    rw [St.genNode]
    dsimp only
    split
    · rename_i types rest
      refine Gives.any fun ts => ?_
      refine Gives.bind (entry_plain _ ins _ _ (phis_plain _ ts _ (Plain.addBlock h))) fun s h => ?_
      refine Gives.bind (Plain.setTerm h _ _) fun s h => ?_
      refine Gives.bind (P := Plain) (Plain.setTerm (Plain.addBlock ?_) _ _) fun s h => ?_
      · exact h
      refine Gives.bind (allocate_plain _ 0 _ (insertAll_plain 0 _ 0 _ h)) fun s h => ?_
      exact Gives.bind (genNodes_plain m (.inputs types :: rest) 0 s h) fun s h => gives_ok h
    · exact gives_error
theorem genNodes_plain (m : FuncTypes) : ∀ (ns : List Node) (idx : ℕ) (s : St), Plain s → Gives Plain (s.genNodes m idx ns)
  | [], _, _, h => by rw [St.genNodes]; exact gives_ok h
  | n :: ns, idx, s, h => by
    rw [St.genNodes]
    exact Gives.bind (genNode_plain m n idx s h) fun s h => genNodes_plain m ns (idx + 1) s h
end

theorem finishInstrs_plain (ds : List Deferred) (b : ℕ) : ∀ (is : List Instr), (∀ i ∈ is, buildsNone i = true) →
    ∀ i ∈ finishInstrs ds b is, buildsNone i = true := by
  intro is
  induction is with
  | nil => intro _ i hi; simp [finishInstrs] at hi
  | cons j js ih =>
    intro h i hi
    have hjs := ih fun i hi => h i (by simp [hi])
    unfold finishInstrs at hi
    split at hi
    · rename_i heq
      injection heq with h1 h2
      subst h1 h2
      simp only [List.mem_cons] at hi
      rcases hi with rfl | hi
      · rfl
      · exact hjs i hi
    · exact h i hi

theorem Plain.finish (h : Plain s) : Gives PlainBlocks s.finish := by
  unfold St.finish
  split
  · refine gives_ok fun b hb => ?_
    obtain ⟨k, hk, rfl⟩ := List.mem_mapIdx.1 hb
    exact finishInstrs_plain _ _ _ (h _ (List.getElem_mem hk))
  · exact gives_error

theorem addParams_plain : ∀ (ts : List MirType) (i : ℕ) (s : St), Plain s → Plain (s.addParams i ts)
  | [], _, _, h => h
  | _ :: ts, i, _, h => addParams_plain ts (i + 1) _ h

/-- Lowered functions build no aggregates. -/
theorem lowerFunc_plain (m : FuncTypes) (f : Func) (F : Function) (h : lowerFunc m f = .ok F) :
    F.blocks.all (fun b => b.instrs.all buildsNone) = true := by
  have h0 : Plain St.init := by intro b hb; simp [St.init] at hb; subst hb; simp
  have : Gives (fun F : Function => PlainBlocks F.blocks) (lowerFunc m f) := by
    unfold lowerFunc
    refine Gives.any fun ps => Gives.any fun rs => ?_
    refine Gives.bind (allocate_plain f.nodes 0 _ (addParams_plain ps 0 _ h0)) fun s h => ?_
    refine Gives.bind (genNodes_plain m f.nodes 0 s h) fun s h => ?_
    exact Gives.bind h.finish fun bs h => gives_ok h
  have h1 := this F h
  simp only [List.all_eq_true]
  exact h1

/-- The front end and all passes on a module (`lowering/mod.rs:60-72`, `mir/src/passes.rs:80-104`). -/
def Prog.toMirAll (k : Pipeline.Config) (p : Prog) : Option Module :=
  p.fns.mapM fun f =>
    match lowerFunc p.types f with
    | .ok F => Mir.Sroa.allPasses k F
    | .error _ => none

theorem toFunctions_mapM (k : Pipeline.Config) (m : FuncTypes) : ∀ fs : List Func, toFunctions k m fs = fs.mapM fun f =>
    match lowerFunc m f with
    | .ok F => Mir.Sroa.allPasses k F
    | .error _ => none
  | [] => by simp [toFunctions]
  | f :: fs => by
    rw [toFunctions, toFunctions_mapM k m fs, List.mapM_cons, toFunction]
    cases h : lowerFunc m f with
    | error e => rfl
    | ok F =>
      simp only [C87_pipeline_unchanged k (lowerFunc_plain m f F h)]
      cases Pipeline.passes k F with
      | none => rfl
      | some G =>
        simp only [Option.bind_some, Option.bind_eq_bind, Option.pure_def]
        rw [Option.map_eq_bind]; rfl

theorem toMirAll_eq (k : Pipeline.Config) (p : Prog) : p.toMirAll k = p.toMir k := (toFunctions_mapM k p.types p.fns).symm

/-- **C85 (partial).** `C85_wasm_to_machine_partial` for the compiler with all passes, including the scalar replacement of
aggregates. -/
theorem C85_all_passes_partial (k : Pipeline.Config) (hk : k.Ok) (p : Prog) (hcheck : p.check k = true)
    (md : Module) (hmd : p.toMirAll k = some md) (S N : ℕ) (hfits : fitsCheck md S N = true) :
    ∃ exe, compileModule md = .ok exe ∧
      ∀ (c : ℕ) (f : Func), p.fns[c]? = some f → ∀ (n d : ℕ) (args vs : List I32), p.table n d c args = some vs →
        N + 2 * args.length + 2 * vs.length + 2 ≤ 2 ^ 27 → N + 2 * args.length + 2 * vs.length + 2 + d * S ≤ 2 ^ 28 →
        ∃ pc, exe.entries.lookup f.name = some pc ∧ ∀ maxSteps, 1 ≤ maxSteps → ∃ fuel out,
          runCairoProgram fuel maxSteps exe.program
            ⟨pc, f.params.map fun _ => .u32, f.results.map fun _ => .u32⟩ (args.map fun x => .number x.toNat) =
              some (.ok out) ∧
          out.returnValues = vs.map fun x => .u32 x.toNat :=
  C85_wasm_to_machine_partial k hk p hcheck md ((toMirAll_eq k p).symm.trans hmd) S N hfits

end Wasm
end CairoM
