import Verif.SroaFlat
import Verif.PipelineSpec

/-!
# C87: scalar replacement of aggregates keeps what a function returns

The pass replaces tuples and structs by their elements where it can. `Agg.runA` (in `AggSem`) is the meaning of functions
with tuples and structs. The theorems say that the function after the pass returns what it returned before:

* for every function in which no name that the pass removed is used afterwards (`C87_sroa_partial`);
* for every function whose aggregates contain no aggregates, where this always holds (`C87_flat_partial`);
* for functions without aggregates, which the pass leaves as they are (`C87_scalar_unchanged`).

Without these conditions the property does not hold; see `SroaExamples`.
-/

namespace CairoM
namespace Mir
namespace Sroa

open Agg Lang

/-- **C87.** A function after the scalar replacement of aggregates returns what it returned before, provided that it is well
typed and no name whose definition was removed is used. -/
theorem C87_sroa_partial {f g : Function} (h : sroa f = some g) (hs : sourceOk f = true) (hr : resultOk (removed f) g = true)
    {calls : ACalls} {n : ℕ} {args vs : List AVal} (he : runA calls f n args = .returned vs) :
    runA calls g n args = .returned vs :=
  sroa_run h hs hr he

/-- **C87.** For a well-typed function whose aggregates contain no aggregates and which builds no arrays the pass does not
panic, and the function returns what it returned before. -/
theorem C87_flat_partial {f : Function} (hs : sourceOk f = true) (hf : flatOk f = true) :
    ∃ g, sroa f = some g ∧ ∀ (calls : ACalls) (n : ℕ) (args vs : List AVal),
      runA calls f n args = .returned vs → runA calls g n args = .returned vs := by
  obtain ⟨g, h, hr⟩ := sroa_flat hs hf
  exact ⟨g, h, fun _ _ _ _ he => sroa_run h hs hr he⟩

/-! ### Functions without aggregates -/

/-- The instruction builds no tuple, struct or array. -/
def buildsNone : Instr → Bool
  | .MakeTuple _ _ | .MakeStruct _ _ _ | .MakeFixedArray _ _ _ _ => false
  | _ => true

theorem look_start {st : St} (h : st.states = []) (v : Value) : st.look v = none := by
  cases v <;> simp [St.look, h]

theorem callArgs_start {st : St} (h : st.states = []) : ∀ (as : List Value) (ps : List MirType), callArgs st as ps = some ([], as, st)
  | [], _ => by simp [callArgs]
  | a :: as, [] => by simp [callArgs]
  | a :: as, p :: ps => by simp [callArgs, look_start h, callArgs_start h as ps]

theorem step_start {cross : List ValueId} {instrs : List Instr} {st : St} (h : st.states = []) {i : Instr} (hi : buildsNone i = true) :
    step cross instrs st i = some ([i], st) := by
  cases i with
  | MakeTuple d es => simp [buildsNone] at hi
  | MakeStruct d fs ty => simp [buildsNone] at hi
  | MakeFixedArray d es ty c => simp [buildsNone] at hi
  | Call ds c as sig => simp [step, callArgs_start h]
  | ExtractStructField d s name ty =>
    cases s <;> simp [step, look_start h]
  | ExtractTupleElement d t k ty => simp [step, look_start h]
  | InsertField d s name v ty => simp [step, look_start h]
  | InsertTuple d t k v ty => simp [step, look_start h]
  | Load d p ty =>
    simp only [step, h, List.lookup_nil]
    split <;> rfl
  | Store p v ty =>
    have : tryStore st p v = none := by
      unfold tryStore
      split
      · simp [h]
      · rfl
    simp [step, this, look_start h]
  | Assign d v ty => simp [step, look_start h]
  | _ => rfl

theorem steps_start {cross : List ValueId} {instrs : List Instr} {st : St} (h : st.states = []) : ∀ (is : List Instr),
    is.all buildsNone = true → steps cross instrs is st = some (is, st)
  | [], _ => rfl
  | i :: is, hi => by
    simp only [List.all_cons, Bool.and_eq_true] at hi
    simp [steps, step_start h hi.1, steps_start h is hi.2]

theorem returnValues_start {types : ValueId → Option MirType} {st : St} (h : st.states = []) : ∀ (vs : List Value),
    returnValues types st vs = some ([], vs, st)
  | [] => rfl
  | v :: vs => by simp [returnValues, look_start h, returnValues_start h vs]

theorem block_start {cross : List ValueId} {types : ValueId → Option MirType} {next : ℕ} {b : Block}
    (hb : b.instrs.all buildsNone = true) : block cross types next b = some (b, start types next) := by
  have h : (start types next).states = [] := rfl
  have hm : (start types next).modified = false := rfl
  have hbody : (b.instrs.dropWhile isPhi).all buildsNone = true := by
    simp only [List.all_eq_true] at hb ⊢
    exact fun i hi => hb i (List.dropWhile_subset _ hi)
  have ht : terminator (start types next) b.term = some ([], b.term, start types next) := by
    cases hbt : b.term <;> simp [terminator, returnValues_start h]
  simp [block, steps_start h _ hbody, ht, hm]

theorem blocks_start {cross : List ValueId} {types : ValueId → Option MirType} {next : ℕ} : ∀ (bs : List Block),
    bs.all (fun b => b.instrs.all buildsNone) = true → blocks cross types next bs = some (bs, types, next)
  | [], _ => rfl
  | b :: bs, hb => by
    simp only [List.all_cons, Bool.and_eq_true] at hb
    simp [blocks, block_start hb.1, start, blocks_start bs hb.2]

/-- **C87.** A function that builds no tuple, struct or array is left as it is. -/
theorem C87_scalar_unchanged {f : Function} (h : f.blocks.all (fun b => b.instrs.all buildsNone) = true) : sroa f = some f := by
  simp [sroa, blocks_start f.blocks h]

/-- The whole pipeline of passes (`PassManager::standard_pipeline`, `no_opt_pipeline`, `mir/src/passes.rs:80-104`). -/
def allPasses (k : Pipeline.Config) (f : Function) : Option Function :=
  if k.optimise then (sroa f).bind (Pipeline.passes k) else Pipeline.passes k f

/-- **C87.** On functions without aggregates the whole pipeline is the pipeline of `C73`, which leaves this pass out. -/
theorem C87_pipeline_unchanged (k : Pipeline.Config) {f : Function} (h : f.blocks.all (fun b => b.instrs.all buildsNone) = true) :
    allPasses k f = Pipeline.passes k f := by
  simp [allPasses, C87_scalar_unchanged h]

end Sroa
end Mir
end CairoM
