import Verif.PhiSim
import Verif.MirBranchProps

/-!
# C57: elimination of phi nodes
-/

namespace CairoM
namespace Lang

open Mir Abi Codegen

/-- **C57 (partial), for the copies of one predecessor.** The sequence of copies that replaces parallel copies
with distinct destinations assigns to every destination the value its source had before the sequence and changes
nothing else, in every environment and for every order in which the hash maps are iterated, provided the copies are
acyclic, or no copy reads the destination of an earlier one (it may read its own), and no copy reads a destination that
receives a literal. What is missing: cyclic copies and copies of literals, for which the statement is false
(`C57_violated_swap`, `C57_violated_literal`, `C57_violated_self`). -/
theorem C57_sequence_partial (calls : Calls) (order : List ValueId → List ValueId) (ho : ∀ l, (order l).Perm l)
    (next : ValueId) (cs : List Copy) (hn : (cs.map Copy.dest).Nodup) (hr : Orderable cs ∨ InOrder cs) (hl : NoLiteralHazard cs)
    (env : Env) (hv : ∀ c ∈ cs, (copyValue env c).isSome) :
    ∃ env', evalInstrs calls ((Mir.sequence order next cs).1.map Copy.instr) env = some env' ∧
      (∀ c ∈ cs, env' c.dest = copyValue env c) ∧ ∀ v, v ∉ cs.map Copy.dest → env' v = env v := by
  obtain ⟨-, hperm, hpair⟩ := sequence_spec ho next hn hl hr
  obtain ⟨env', h1, h2, h3⟩ := seq_copies (calls := calls) (((hperm.map Copy.dest).nodup_iff).2 hn) hpair
    (fun c hc => hv c (hperm.mem_iff.1 hc))
  exact ⟨env', h1, fun c hc => h2 c (hperm.mem_iff.2 hc), fun v hv' => h3 v (fun hm =>
    hv' ((hperm.map Copy.dest).mem_iff.1 hm))⟩

/-- Copies `b := a`, `c := b` (`c` has to be written first) and `d := 7`. -/
def chain : List Copy := [⟨2, .Operand 1, .Felt⟩, ⟨3, .Operand 2, .Felt⟩, ⟨4, .Literal (.Integer 7), .Felt⟩]

example : (chain.map Copy.dest).Nodup ∧ Orderable chain ∧ NoLiteralHazard chain ∧
    (Mir.sequence id 9 chain).1.map Copy.dest = [3, 4, 2] := by
  refine ⟨by decide, ⟨fun v => v, ?_⟩, ?_, by decide +kernel⟩
  · simp [chain]
  · simp [NoLiteralHazard, chain]

/-- The copies of a loop with a variable that it does not change: they are in order, and the ordering gives up. -/
example : let cs : List Copy := [⟨2, .Operand 2, .Felt⟩, ⟨3, .Operand 4, .Felt⟩, ⟨4, .Operand 5, .Felt⟩]
    (cs.map Copy.dest).Nodup ∧ InOrder cs ∧ NoLiteralHazard cs ∧ (Mir.sequence id 9 cs).1.map Copy.dest = [2, 3, 4] := by
  refine ⟨by decide, ?_, ?_, by decide +kernel⟩
  · simp [InOrder]
  · simp [NoLiteralHazard]

/-- **C57 (partial), for functions.** Replacing the phi instructions of a function by copies (and splitting its
critical edges) does not change the values it returns, on any arguments and for every order in which the hash maps
are iterated. The conditions (`PhiOk`) say that the function is in SSA form with a liveness and a
definite-assignment certificate, that the destination of a phi instruction is not live on the other edges of a
predecessor, and that the copies of each predecessor can be ordered or are in order. What is missing: cyclic copies and
literals (see above). -/
theorem C57_function_partial (calls : Calls) (f : Function) (Live Defined : BlockId → ValueId → Prop)
    (h : PhiOk f Live Defined) (order : List ValueId → List ValueId) (ho : ∀ l, (order l).Perm l) (n : ℕ)
    (args : List Val) (vs : List Val) (hr : run calls f n args = .returned vs) :
    ∃ m, run calls (phiElim order f) m args = .returned vs := by
  have hp : (phiElim order f).params = f.params := by
    unfold phiElim; simp only; split_ifs <;> rfl
  unfold run at hr ⊢
  rw [hp]
  cases hb : bind (fun _ => none) f.params args with
  | none => rw [hb] at hr; simp at hr
  | some env =>
    rw [hb] at hr
    simp only at hr ⊢
    cases n with
    | zero => simp [exec] at hr
    | succ n =>
      cases h0 : f.blocks[0]? with
      | none => simp only [exec, h0] at hr; simp at hr
      | some b =>
        cases h1 : evalPhis env none b.instrs env with
        | none => simp only [exec, h0, evalBlock, h1, Option.bind_eq_bind, Option.bind_none] at hr; simp at hr
        | some r =>
          obtain ⟨e1, rest⟩ := r
          have he : e1 = env := by
            cases hi : b.instrs with
            | nil => rw [hi] at h1; simp only [evalPhis, Option.some.injEq, Prod.mk.injEq] at h1; exact h1.1.symm
            | cons i is =>
              rw [hi] at h1
              cases i with
              | Phi d ty ss => simp [evalPhis] at h1
              | _ => simp only [evalPhis, Option.some.injEq, Prod.mk.injEq] at h1; exact h1.1.symm
          subst he
          obtain ⟨m, hm⟩ := exec_phiElim h ho (n + 1) h0 h1 Agree.refl (by
            intro v hv
            exact (bind_defined hb).2 v (h.entry v hv)) hr
          exact ⟨m, hm none⟩

/-- `fn m(c: bool) -> felt { let r = 1; if c { r = 2; } return r; }`: the edge from the first to the last block
is critical. -/
def ifExample : Function :=
  ⟨['m'], [⟨[.Assign 1 (.Literal (.Integer 1)) .Felt], .If (.Operand 0) 1 2⟩,
    ⟨[.Assign 2 (.Literal (.Integer 2)) .Felt], .Jump 2⟩,
    ⟨[.Phi 3 .Felt [(0, .Operand 1), (1, .Operand 2)]], .Return [.Operand 3]⟩], [0], [4], 5,
    types [(0, .Bool), (1, .Felt), (2, .Felt), (3, .Felt), (4, .Felt)]⟩

/-- Liveness of `ifExample`. -/
def ifLive : BlockId → ValueId → Prop
  | 0, v => v = 0 ∨ v = 1 ∨ v = 2
  | 1, v => v = 2
  | 2, v => v = 3
  | _, _ => False

/-- Definite assignment of `ifExample`. -/
def ifDefined : BlockId → ValueId → Prop
  | 0, v => v = 0
  | 1, v => v = 0
  | 2, v => v = 3
  | _, _ => False

theorem ifExample_block {t : ℕ} {b : Block} (h : ifExample.blocks[t]? = some b) :
    (t = 0 ∧ b = ⟨[.Assign 1 (.Literal (.Integer 1)) .Felt], .If (.Operand 0) 1 2⟩) ∨
    (t = 1 ∧ b = ⟨[.Assign 2 (.Literal (.Integer 2)) .Felt], .Jump 2⟩) ∨
    (t = 2 ∧ b = ⟨[.Phi 3 .Felt [(0, .Operand 1), (1, .Operand 2)]], .Return [.Operand 3]⟩) := by
  match t, h with
  | 0, h => simp only [ifExample, List.getElem?_cons_zero, Option.some.injEq] at h; exact Or.inl ⟨rfl, h.symm⟩
  | 1, h => simp only [ifExample, List.getElem?_cons_succ, List.getElem?_cons_zero, Option.some.injEq] at h
            exact Or.inr (Or.inl ⟨rfl, h.symm⟩)
  | 2, h => simp only [ifExample, List.getElem?_cons_succ, List.getElem?_cons_zero, Option.some.injEq] at h
            exact Or.inr (Or.inr ⟨rfl, h.symm⟩)
  | t + 3, h => simp [ifExample] at h

theorem ifExample_copies (p : BlockId) : phiCopies ifExample.blocks p =
    if 0 = p then [⟨3, .Operand 1, .Felt⟩] else if 1 = p then [⟨3, .Operand 2, .Felt⟩] else [] := by
  by_cases h0 : 0 = p
  · subst h0; rfl
  · by_cases h1 : 1 = p
    · subst h1; rfl
    · simp [phiCopies, ifExample, h0, h1]

theorem ifExample_ok : PhiOk ifExample ifLive ifDefined where
  targets := by decide
  dests := by decide
  keys := by
    intro b hb d ty ss hi
    obtain ⟨t, ht⟩ := List.getElem?_of_mem hb
    rcases ifExample_block ht with ⟨-, rfl⟩ | ⟨-, rfl⟩ | ⟨-, rfl⟩ <;> simp at hi
    obtain ⟨-, -, rfl⟩ := hi
    decide
  preds := by
    intro t b hb d ty ss hi p v hs
    rcases ifExample_block hb with ⟨rfl, rfl⟩ | ⟨rfl, rfl⟩ | ⟨rfl, rfl⟩ <;> simp at hi
    obtain ⟨rfl, -, rfl⟩ := hi
    simp only [List.mem_cons, Prod.mk.injEq, List.not_mem_nil, or_false] at hs
    rcases hs with ⟨rfl, -⟩ | ⟨rfl, -⟩
    · refine ⟨_, rfl, by decide, by decide, ?_⟩
      intro t' ht' hne
      simp only [Terminator.targets, List.mem_cons, List.not_mem_nil, or_false] at ht'
      rcases ht' with rfl | rfl
      · simp [ifLive]
      · exact absurd rfl hne
    · refine ⟨_, rfl, by decide, by decide, ?_⟩
      intro t' ht' hne
      simp only [Terminator.targets, List.mem_cons, List.not_mem_nil, or_false] at ht'
      exact absurd ht' hne
  uses := by
    intro t b hb
    rcases ifExample_block hb with ⟨rfl, rfl⟩ | ⟨rfl, rfl⟩ | ⟨rfl, rfl⟩ <;>
      simp [Instr.uses, Terminator.uses, Value.ids, valuesIds, ifLive, notPhi]
  through := by
    intro p bp hp t ht b hb v hv hn
    rcases ifExample_block hp with ⟨rfl, rfl⟩ | ⟨rfl, rfl⟩ | ⟨rfl, rfl⟩ <;>
      rcases ifExample_block hb with ⟨rfl, rfl⟩ | ⟨rfl, rfl⟩ | ⟨rfl, rfl⟩ <;>
      simp_all [Terminator.targets, ifLive, phiDest]
  sources := by
    intro c p bp hp hc
    rw [ifExample_copies] at hc
    rcases ifExample_block hp with ⟨rfl, rfl⟩ | ⟨rfl, rfl⟩ | ⟨rfl, rfl⟩ <;> simp at hc <;> subst hc <;> left
    · exact ⟨1, rfl, rfl, by simp [ifLive], Or.inr ⟨_, List.mem_cons_self, rfl, by simp [Instr.destinations]⟩⟩
    · exact ⟨2, rfl, rfl, by simp [ifLive], Or.inr ⟨_, List.mem_cons_self, rfl, by simp [Instr.destinations]⟩⟩
  defined := by
    intro p bp hp t ht b hb v hv
    rcases ifExample_block hp with ⟨rfl, rfl⟩ | ⟨rfl, rfl⟩ | ⟨rfl, rfl⟩ <;>
      rcases ifExample_block hb with ⟨rfl, rfl⟩ | ⟨rfl, rfl⟩ | ⟨rfl, rfl⟩ <;>
      simp_all [Terminator.targets, ifDefined, phiDest]
  entry := by
    intro v hv
    simp only [ifDefined] at hv
    subst hv; simp [ifExample]
  order := by
    intro p
    rw [ifExample_copies]
    refine ⟨.inl ⟨fun v => v, ?_⟩, ?_⟩
    · split_ifs <;> simp
    · split_ifs <;> simp [NoLiteralHazard]

/-- The function and its compiled form for both arguments. -/
example : run (fun _ _ => none) ifExample 3 [.bool true] = .returned [.felt 2] ∧
    run (fun _ _ => none) ifExample 3 [.bool false] = .returned [.felt 1] ∧
    (phiElim id ifExample).blocks.length = 4 ∧
    run (fun _ _ => none) (phiElim id ifExample) 4 [.bool true] = .returned [.felt 2] ∧
    run (fun _ _ => none) (phiElim id ifExample) 4 [.bool false] = .returned [.felt 1] := by
  refine ⟨by decide +kernel, by decide +kernel, by decide +kernel, by decide +kernel, by decide +kernel⟩

/-- An environment with the given felts. -/
def felts (l : List (ValueId × M31)) : Env := fun v => (l.lookup v).map .felt

/-- The value of a name after a sequence of copies. -/
def after (cs : List Copy) (env : Env) (v : ValueId) : Option Val :=
  (evalInstrs (fun _ _ => none) (cs.map Copy.instr) env).bind fun e => e v

/-- **C57 violated** by a swap `a := b, b := a`: the emitted sequence `t := b; a := a; b := t` leaves both names
unchanged. -/
theorem C57_violated_swap :
    let cs : List Copy := [⟨1, .Operand 2, .Felt⟩, ⟨2, .Operand 1, .Felt⟩]
    let out := (Mir.sequence id 9 cs).1
    let env := felts [(1, 10), (2, 20)]
    after out env 1 = some (.felt 10) ∧ after out env 2 = some (.felt 20) := by
  decide +kernel

/-- `fn m(n: felt) -> felt { let a = 1; let b = 2; while (n != 0) { let t = a; a = b; b = t; n = n - 1; } return a; }` -/
def swapLoop : Function :=
  ⟨['m'], [⟨[.Assign 1 (.Literal (.Integer 1)) .Felt, .Assign 2 (.Literal (.Integer 2)) .Felt], .Jump 1⟩,
    ⟨[.Phi 5 .Felt [(0, .Operand 1), (2, .Operand 6)], .Phi 6 .Felt [(0, .Operand 2), (2, .Operand 5)],
      .Phi 7 .Felt [(0, .Operand 0), (2, .Operand 8)], .BinaryOp .Neq 9 (.Operand 7) (.Literal (.Integer 0))],
      .If (.Operand 9) 2 3⟩,
    ⟨[.BinaryOp .Sub 8 (.Operand 7) (.Literal (.Integer 1))], .Jump 1⟩,
    ⟨[], .Return [.Operand 5]⟩], [0], [4], 10,
    types [(0, .Felt), (1, .Felt), (2, .Felt), (4, .Felt), (5, .Felt), (6, .Felt), (7, .Felt), (8, .Felt), (9, .Bool),
      (10, .Felt)]⟩

/-- **C57 violated**, whole program: one iteration of the swap loop returns 2; the compiled program returns 1, with
and without optimisation. -/
theorem C57_violated_swap_program :
    run (fun _ _ => none) swapLoop 10 [.felt 1] = .returned [.felt 2] ∧
    optRun swapLoop [.felt] [.felt] [.number 1] = some [1] ∧
    feltsOf (compileRun 1000 [noOptPipeline id swapLoop] ['m'] [.felt] [.felt] [.number 1]) = some [1] := by
  refine ⟨by decide +kernel, by decide +kernel, by decide +kernel⟩

/-- **C57 violated** by a copy that reads the destination of a literal copy: `a := 5, b := a` can be ordered with
`a := 5` first, which gives `b` the new value of `a`. -/
theorem C57_violated_literal :
    let cs : List Copy := [⟨1, .Literal (.Integer 5), .Felt⟩, ⟨2, .Operand 1, .Felt⟩]
    let out := (Mir.sequence id 9 cs).1
    after out (felts [(1, 10), (2, 20)]) 2 = some (.felt 5) := by
  decide +kernel

/-- **C57 violated** by a copy of a name to itself (a phi of a variable that a loop does not change): the ordering
gives up and the copies are executed in the given order: `b := a, c := b, d := d` gives `c` the new value of `b`. -/
theorem C57_violated_self :
    let cs : List Copy := [⟨2, .Operand 1, .Felt⟩, ⟨3, .Operand 2, .Felt⟩, ⟨4, .Operand 4, .Felt⟩]
    let out := (Mir.sequence id 9 cs).1
    after out (felts [(1, 10), (2, 20), (3, 30), (4, 40)]) 3 = some (.felt 10) := by
  decide +kernel

end Lang
end CairoM
