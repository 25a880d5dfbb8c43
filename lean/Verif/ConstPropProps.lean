import Verif.ConstPropLemmas

/-!
# Constant propagation preserves the meaning of functions (C62)
-/

namespace CairoM
namespace Lang

open Mir

variable {types : ValueId → Option MirType} {s : ValueId → Lattice} {env env' : Env} {calls : Calls}

/-- What the proof needs of an instruction. -/
def Good (types : ValueId → Option MirType) (s : ValueId → Lattice) (calls : Calls) (i : Instr) : Prop :=
  Settled s i ∧ InstrTyped types i ∧ i.destinations.length ≤ 1 ∧
    ∀ ds c args sig, i = .Call ds c args sig → ∀ xs ys, calls c xs = some ys →
      List.Forall₂ (fun y (t : MirType) => ValTy y (some t)) ys sig.returns

theorem evalInstrs_constant {is : List Instr} (hg : ∀ i ∈ is, Good types s calls i) (ht : EnvTyped types env)
    (h : Describes s env) (he : evalInstrs calls is env = some env') :
    evalInstrs calls (is.map (Instr.constant s)) env = some env' ∧ EnvTyped types env' ∧ Describes s env' := by
  induction is generalizing env with
  | nil => simp only [evalInstrs, Option.some.injEq] at he; subst he; exact ⟨rfl, ht, h⟩
  | cons i is ih =>
    simp only [evalInstrs, Option.bind_eq_bind, Option.bind_eq_some_iff, List.map_cons] at he ⊢
    obtain ⟨e1, h1, h2⟩ := he
    obtain ⟨g1, g2, g3, g4⟩ := hg i (by simp)
    obtain ⟨d1, d2⟩ := evalInstr_describes g1 g2 ht h g3 h1
    have t1 := evalInstr_typed g2 ht g4 h1
    obtain ⟨r1, r2, r3⟩ := ih (fun j hj => hg j (by simp [hj])) t1 d1 h2
    exact ⟨⟨e1, d2, r1⟩, r2, r3⟩

theorem evalPhis_constant {is is' : List Instr} {p : Option BlockId} {acc acc' : Env}
    (hg : ∀ i ∈ is, Good types s calls i) (ht : EnvTyped types env) (h : Describes s env)
    (ht' : EnvTyped types acc) (h' : Describes s acc) (he : evalPhis env p is acc = some (acc', is')) :
    evalPhis env p (is.map (Instr.constant s)) acc = some (acc', is'.map (Instr.constant s)) ∧
      EnvTyped types acc' ∧ Describes s acc' ∧ ∀ i ∈ is', i ∈ is := by
  induction is generalizing acc with
  | nil =>
    simp only [evalPhis, Option.some.injEq, Prod.mk.injEq] at he
    obtain ⟨rfl, rfl⟩ := he
    exact ⟨rfl, ht', h', by simp⟩
  | cons i is ih =>
    by_cases hp : ∃ d ty ss, i = .Phi d ty ss
    · obtain ⟨d, ty, ss, rfl⟩ := hp
      simp only [evalPhis, Option.bind_eq_bind, Option.bind_eq_some_iff, List.map_cons, Instr.constant] at he ⊢
      obtain ⟨p', hp', x, hx, he⟩ := he
      obtain ⟨g1, g2, g3, g4⟩ := hg (.Phi d ty ss) (by simp)
      obtain ⟨d1, d2⟩ := phi_describes g1 g2 ht h hx
      obtain ⟨r1, r2, r3, r4⟩ := ih (fun j hj => hg j (by simp [hj])) (ht'.update (phiValue_typed ht g2 hx))
        (h'.update d1) he
      exact ⟨⟨p', hp', x, d2, r1⟩, r2, r3, fun i hi => List.mem_cons_of_mem _ (r4 i hi)⟩
    · have e1 : evalPhis env p (i :: is) acc = some (acc, i :: is) := by
        cases i <;> first | rfl | exact absurd ⟨_, _, _, rfl⟩ hp
      have e2 : evalPhis env p ((i :: is).map (Instr.constant s)) acc =
          some (acc, (i :: is).map (Instr.constant s)) := by
        cases i <;> first | rfl | exact absurd ⟨_, _, _, rfl⟩ hp
      rw [e1, Option.some.injEq, Prod.mk.injEq] at he
      obtain ⟨rfl, rfl⟩ := he
      exact ⟨e2, ht', h', fun i hi => hi⟩

/-- **C62 (partial).** Constant propagation of a well-typed function: on well-typed arguments, a run that does not
fault gives the same result after the pass, whatever the callees do. What is missing: calls with several results
(`C62_violated`); well-typedness includes that felt literals are below `P` and that unary minus is on felts. -/
theorem C62_constant_propagation_partial (calls : Calls) (f g : Function) (hg : constProp f = .ok g)
    (ht : FunctionTyped f) (hc : CallsTyped f calls)
    (hm : ∀ b ∈ f.blocks, ∀ i ∈ b.instrs, i.destinations.length ≤ 1)
    (n : ℕ) (args : List Val) (ha : List.Forall₂ (fun x p => ValTy x (f.types p)) args f.params)
    (hf : run calls f n args ≠ .fault) : run calls g n args = run calls f n args := by
  unfold constProp at hg
  split at hg
  · cases hg
  · rename_i s hs
    injection hg with hg
    subst hg
    obtain ⟨hset, hpar⟩ := constState_settled hs
    have hgood : ∀ b ∈ f.blocks, ∀ i ∈ b.instrs, Good f.types s calls i := fun b hb i hi =>
      ⟨hset b hb i hi, ht b hb i hi, hm b hb i hi, fun ds c args sig e => hc b hb ds c args sig (e ▸ hi)⟩
    unfold run at hf ⊢
    simp only
    cases hb : bind (fun _ => none) f.params args with
    | none => rfl
    | some env =>
      rw [hb] at hf
      simp only at hf ⊢
      symm
      refine exec_fwd (R := fun e e' => e = e' ∧ EnvTyped f.types e ∧ Describes s e) ?_ n none 0 ⟨rfl, ?_, ?_⟩ hf
      · intro id
        simp only [List.getElem?_map]
        cases hid : f.blocks[id]? with
        | none => trivial
        | some b =>
          have hbm := List.mem_of_getElem? hid
          rintro p e _ ⟨rfl, h1, h2⟩
          cases he : evalBlock calls (returnTys f) b p e with
          | none => trivial
          | some r =>
            obtain ⟨x, e2⟩ := r
            unfold evalBlock at he
            simp only [Option.bind_eq_bind, Option.bind_eq_some_iff, Option.some.injEq, Prod.mk.injEq] at he
            obtain ⟨⟨e1, is⟩, hphi, e2', hbody, x', hterm, rfl, rfl⟩ := he
            obtain ⟨r1, r2, r3, r4⟩ := evalPhis_constant (hgood b hbm) h1 h2 h1 h2 hphi
            obtain ⟨q1, q2, q3⟩ := evalInstrs_constant (fun i hi => hgood b hbm i (r4 i hi)) r2 r3 hbody
            have : evalBlock calls (returnTys f) { b with instrs := b.instrs.map (Instr.constant s) } p e =
                some (x', e2') := by
              unfold evalBlock
              simp only [Option.bind_eq_bind, Option.bind_eq_some_iff, Option.some.injEq, Prod.mk.injEq]
              exact ⟨_, r1, _, q1, x', hterm, rfl, rfl⟩
            change OptFwd _ (some (x', e2')) (evalBlock calls (returnTys f) _ p e)
            rw [this]
            exact ⟨rfl, rfl, q2, q3⟩
      · exact bind_args_typed (fun v x h => by cases h) ha hb
      · have key : ∀ (ps : List ValueId) (args : List Val) (e e' : Env), (∀ p ∈ ps, s p = .NonConst) → Describes s e →
            bind e ps args = some e' → Describes s e' := by
          intro ps
          induction ps with
          | nil =>
            intro args e e' _ he hb
            cases args with
            | nil => simp only [bind, Option.some.injEq] at hb; subst hb; exact he
            | cons => simp [bind] at hb
          | cons p ps ih =>
            intro args e e' hp he hb
            cases args with
            | nil => simp [bind] at hb
            | cons a as =>
              refine ih as _ e' (fun q hq => hp q (by simp [hq])) (he.update ?_) hb
              rw [hp p (by simp)]
              exact sound_nonConst a
        exact key _ _ _ _ hpar (fun v x h => by cases h) hb

/-- `fn m(x: felt) -> felt { let a = 2; let b = a + 3; let c; if x == 0 { c = b } else { c = 5 }; return c * x }` with
the join as a phi node. -/
def joinExample : Function :=
  ⟨['m'],
    [⟨[.Assign 1 (.Literal (.Integer 2)) .Felt, .BinaryOp .Add 2 (.Operand 1) (.Literal (.Integer 3)),
       .BinaryOp .Eq 3 (.Operand 0) (.Literal (.Integer 0))], .If (.Operand 3) 1 2⟩,
     ⟨[], .Jump 3⟩, ⟨[], .Jump 3⟩,
     ⟨[.Phi 4 .Felt [(1, .Operand 2), (2, .Literal (.Integer 5))],
       .BinaryOp .Mul 5 (.Operand 4) (.Operand 0)], .Return [.Operand 5]⟩],
    [0], [5], 6, fun v => [MirType.Felt, .Felt, .Felt, .Bool, .Felt, .Felt][v]?⟩

/-- The hypotheses of `C62_constant_propagation_partial` are met, and the pass does something: the product
becomes `5 * x`. -/
example : FunctionTyped joinExample ∧ (∀ calls, CallsTyped joinExample calls) ∧
    (∀ b ∈ joinExample.blocks, ∀ i ∈ b.instrs, i.destinations.length ≤ 1) ∧
    ((constProp joinExample).toOption.bind fun g => g.blocks[3]?.bind fun b => b.instrs[1]?.map fun i =>
      match i with | .BinaryOp op _ l _ => decide (op = .Mul ∧ l = .Literal (.Integer 5)) | _ => false) = some true ∧
    run (fun _ _ => none) joinExample 10 [.felt 4] = .returned [.felt 20] := by
  have hlit : ∀ n : BitVec 32, n.toNat < P → LiteralTy (.Integer n) .Felt := fun n hn =>
    ⟨.felt, _, rfl, rfl, fun _ => hn⟩
  refine ⟨?_, ?_, by decide +kernel, by decide +kernel, by unfold run; decide +kernel⟩
  · intro b hb i hi
    simp only [joinExample, List.mem_cons, List.not_mem_nil, or_false] at hb
    rcases hb with rfl | rfl | rfl | rfl <;> simp only [List.mem_cons, List.not_mem_nil, or_false] at hi
    · rcases hi with rfl | rfl | rfl
      · exact ⟨rfl, hlit _ (by decide)⟩
      · exact ⟨rfl, trivial, fun _ => by decide⟩
      · exact ⟨rfl, trivial, fun _ => by decide⟩
    · rcases hi with rfl | rfl
      · refine ⟨rfl, fun s hs => ?_⟩
        simp only [List.mem_cons, List.not_mem_nil, or_false] at hs
        rcases hs with rfl | rfl
        · rfl
        · exact hlit _ (by decide)
      · exact ⟨rfl, trivial, trivial⟩
  · intro calls b hb ds c args sig hi
    simp only [joinExample, List.mem_cons, List.not_mem_nil, or_false] at hb
    rcases hb with rfl | rfl | rfl | rfl <;> simp at hi

/-- `fn m(x: felt) -> felt { let (a, b) = g(); if x == 0 { b = 5 }; return b }` with the join as a phi node. -/
def pairExample : Function :=
  ⟨['m'],
    [⟨[.Call [1, 2] 0 [] ⟨[], [.Felt, .Felt]⟩, .BinaryOp .Eq 3 (.Operand 0) (.Literal (.Integer 0))],
       .If (.Operand 3) 1 2⟩,
     ⟨[], .Jump 3⟩, ⟨[], .Jump 3⟩,
     ⟨[.Phi 4 .Felt [(1, .Literal (.Integer 5)), (2, .Operand 2)], .Assign 5 (.Operand 4) .Felt],
       .Return [.Operand 5]⟩],
    [0], [5], 6, fun v => [MirType.Felt, .Felt, .Felt, .Bool, .Felt, .Felt][v]?⟩

/-- **C62 violated** for calls with several results: the analysis never learns anything about them, so the join of
such a result with the constant `5` is taken to be `5`. With `g` returning `(1, 2)` and `x = 1` the function
returns `2` before the pass and `5` after it. -/
theorem C62_violated :
    run (fun _ _ => some [.felt 1, .felt 2]) pairExample 10 [.felt 1] = .returned [.felt 2] ∧
      ((constProp pairExample).toOption.map fun g => run (fun _ _ => some [.felt 1, .felt 2]) g 10 [.felt 1]) =
        some (.returned [.felt 5]) := by
  refine ⟨by decide +kernel, ?_⟩
  have : denote .felt (.Integer 5) = some (.felt 5) := by
    simp only [denote, residue_eq]; decide +kernel
  decide +kernel

end Lang
end CairoM
