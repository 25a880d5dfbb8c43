import Verif.FunctionRun

/-!
# Property C66: the code of a function computes what the function means

For scalar functions without calls: arbitrary blocks, branches and loops.
-/

namespace CairoM
namespace Codegen

open Mir Lang Relation

theorem evalInstrs_typed {types : ValueId → Option MirType} {calls : Calls} : ∀ {is : List Instr} {env env' : Env},
    (∀ i ∈ is, InstrTyped types i ∧ InstrSimple types i) → EnvTyped types env → evalInstrs calls is env = some env' →
    EnvTyped types env'
  | [], env, env', _, h, he => by
    simp only [evalInstrs, Option.some.injEq] at he; subst he; exact h
  | i :: is, env, env', hi, h, he => by
    simp only [evalInstrs, Option.bind_eq_bind, Option.bind_eq_some_iff] at he
    obtain ⟨e1, h1, h2⟩ := he
    obtain ⟨a, c⟩ := hi i (by simp)
    exact evalInstrs_typed (fun j hj => hi j (by simp [hj]))
      (evalInstr_typed a h (fun ds c args sig e => by subst e; exact c.elim) h1) h2

theorem readAll_width {types : ValueId → Option MirType} {env : Env} (hty : EnvTyped types env) :
    ∀ {vs : List Value} {ts : List MirType} {xs : List Val}, List.Forall₂ (HasType types) vs ts →
    readAll env (ts.map some) vs = some xs → widths xs = Builder.sizeSum ts
  | _, _, xs, .nil, h => by simp only [List.map_nil, readAll, Option.some.injEq] at h; subst h; rfl
  | _, t :: ts, xs, .cons hv hs, h => by
    simp only [List.map_cons, readAll, Option.bind_eq_bind, Option.bind_eq_some_iff, Option.bind_some,
      Option.some.injEq] at h
    obtain ⟨ty, hty', x, hx, ys, hys, rfl⟩ := h
    rw [widths_cons, sizeSum_cons, readAll_width hty hs hys, memSize_scalar hty' (readAt_typed hty hv hty' hx)]

/-- The number of slots of the results is that of the declared types. -/
theorem exec_width {f : Function} {ts : List MirType} {calls : Calls} {vs : List Val} (hs : Simple f)
    (hts : returnTypes f f.returns = .ok ts) : ∀ {n : ℕ} {pred : Option BlockId} {k : BlockId} {env : Env},
    EnvTyped f.types env → exec calls f n pred k env = .returned vs → widths vs = Builder.sizeSum ts
  | 0, pred, k, env, _, h => by cases h
  | n + 1, pred, k, env, hty, h => by
    simp only [exec] at h
    cases hk : f.blocks[k]? with
    | none => rw [hk] at h; cases h
    | some blk =>
      rw [hk] at h
      simp only at h
      have hblk : blk ∈ f.blocks := List.mem_of_getElem? hk
      cases hev : evalBlock calls (returnTys f) blk pred env with
      | none => rw [hev] at h; cases h
      | some r =>
        obtain ⟨ex, env2⟩ := r
        rw [hev] at h
        unfold evalBlock at hev
        rw [evalPhis_simple (types := f.types) fun i hi => (hs.instrs blk hblk i hi).2] at hev
        simp only [Option.bind_eq_bind, Option.bind_some, Option.bind_eq_some_iff, Option.some.injEq,
          Prod.mk.injEq] at hev
        obtain ⟨env1, ev1, ex', ev2, rfl, rfl⟩ := hev
        have ty1 := evalInstrs_typed (hs.instrs blk hblk) hty ev1
        cases ex' with
        | goto t => exact exec_width hs hts ty1 h
        | ret xs =>
          simp only [Result.returned.injEq] at h
          subst h
          have ht := hs.terms blk hblk
          cases hterm : blk.term <;> rw [hterm] at ev2 ht
          case Return us =>
            simp only [evalTerm, Option.map_eq_some_iff, Exit.ret.injEq] at ev2
            obtain ⟨xs', hx, rfl⟩ := ev2
            unfold returnTys at hx
            rw [returnTys_eq hts] at hx
            exact readAll_width ty1 (returns_typed ht (returnTys_eq hts)) hx
          case Jump => simp [evalTerm] at ev2
          case If =>
            simp only [evalTerm, Option.bind_eq_bind, Option.bind_eq_some_iff, Option.some.injEq, choose] at ev2
            obtain ⟨x, -, p, -, hch⟩ := ev2
            split_ifs at hch
          case BranchCmp =>
            simp only [evalTerm, Option.bind_eq_bind, Option.bind_eq_some_iff, Option.some.injEq, choose] at ev2
            obtain ⟨x, -, y, -, z, -, p, -, hch⟩ := ev2
            split_ifs at hch
          case Unreachable => cases ev2

/-- **C66**, for functions without calls. Let `b` be the code the generator emits for the blocks of a well-typed
scalar function, before the peephole passes. Whenever the function, run on arguments of the types of its
parameters, returns values, then the code, run from a memory holding the arguments below the frame pointer in the
order of the parameters, reaches a `ret` with exactly those values in the return slots, in order; the saved
registers are intact and nothing outside the frame has changed. Values that are already in their return slot
when `ret` is prepared are covered, and so are loops of any length. Functions that call others are not covered. -/
theorem C66_function_partial (md : Module) (f : Function) (calls : Calls) (g g' : Gen) (L : Layout) (c : ℕ) (b : Builder)
    (hs : Simple f) (hL : Layout.new f = .ok L)
    (hgen : genBlocks md f f.blocks 0 g ((Builder.new L c).addLabel f.name) = .ok (g', b))
    (code : List IB) (tgt : Name → Option ℕ) (hfit : Fits code tgt b) (fp : M31) (m : Isa.Mem) (args vs : List Val)
    (hargs : List.Forall₂ (fun x p => ValTy x (f.types p)) args f.params)
    (w : Window fp (-(widths args : ℤ) - widths vs - 2) b.layout.frame)
    (hm : HoldsAll m fp (-(widths args : ℤ) - widths vs - 2) args)
    (n : ℕ) (hrun : run calls f n args = .returned vs) :
    ∃ i m', Runs code tgt fp (0, m) (i, m') ∧ code[i]? = some ⟨.Ret, none⟩ ∧
      HoldsAll m' fp (-(widths vs : ℤ) - 2) vs ∧
      SameExcept fp (Body (-(widths args : ℤ) - widths vs - 2) b.layout.frame) m m' := by
  obtain ⟨ts, hc, hl, hpar⟩ := ctx_of_layout (m := m) (fp := fp) hs hL hargs
  unfold run at hrun
  cases hb : Lang.bind (fun _ => none) f.params args with
  | none => rw [hb] at hrun; cases hrun
  | some env =>
    rw [hb] at hrun
    simp only at hrun
    have hty : EnvTyped f.types env := bind_args_typed (fun v x hx => by cases hx) hargs hb
    have hw : widths vs = L.retSlots := by rw [exec_width hs hc.rts hty hrun, hc.ret]
    rw [hw] at w hm ⊢
    have hl0 : Laid f L (-(widths args : ℤ) - L.retSlots - 2) ((Builder.new L c).addLabel f.name).layout := hl
    obtain ⟨-, gr, -, hall, hfirst⟩ := gen_blocks hc (fun _ h => h) hl0 hgen
    have hall' : ∀ k blk, f.blocks[k]? = some blk →
        ∃ b0 b1 b2 next, Placed md f L (-(widths args : ℤ) - L.retSlots - 2) b k blk b0 b1 b2 next := by
      intro k blk hk
      obtain ⟨b0, b1, b2, nx, h1, -⟩ := hall k blk hk
      rw [Nat.zero_add] at h1
      exact ⟨b0, b1, b2, nx, h1⟩
    have hne : f.blocks ≠ [] := by
      intro e
      cases n with
      | zero => cases hrun
      | succ n => simp [exec, e] at hrun
    have hstart : tgt (blockLabel f.name 0) = some 0 := hfit.labels _ (hfirst hne)
    have hen : Entry f L fp env m := by
      intro v x hv
      refine ⟨hpar env hb hm v x hv, fun blk hb' => ?_⟩
      by_contra hcon
      obtain ⟨⟨i, hi, -, hd⟩, hr⟩ := places_spec (blk := blk) (v := v) (by simpa using hcon)
      have := (hs.once blk hb' i hi v (by rw [hd]; simp) hr).2
      rcases bind_dom hb v (by rw [hv]; simp) with h | h
      · exact h rfl
      · exact this h
    obtain ⟨i, m', r1, r2, r3, r4⟩ := run_blocks hc w hall' le_rfl hfit hty hen hstart hrun
    refine ⟨i, m', r1, r2, ?_, r4⟩
    rw [show (-(L.retSlots : ℤ) - 2) = -((L.retSlots : ℤ) + 2) by ring]
    exact r3

/-- `fn sum(n: felt) -> felt { let s = 0; while n != 0 { s = s + n; n = n - 1; } return s * 1; }` -/
def sumFn : Function :=
  ⟨['s', 'u', 'm'],
    [⟨[.Assign 1 (.Operand 0) .Felt, .Assign 2 (.Literal (.Integer 0)) .Felt], .Jump 1⟩,
     ⟨[], .BranchCmp .Neq (.Operand 1) (.Literal (.Integer 0)) 2 3⟩,
     ⟨[.BinaryOp .Add 3 (.Operand 2) (.Operand 1), .BinaryOp .Sub 4 (.Operand 1) (.Literal (.Integer 1)),
       .Assign 2 (.Operand 3) .Felt, .Assign 1 (.Operand 4) .Felt], .Jump 1⟩,
     ⟨[.BinaryOp .Mul 5 (.Operand 2) (.Literal (.Integer 1))], .Return [.Operand 5]⟩],
    [0], [5], 6, fun v => if v < 6 then some .Felt else none⟩

theorem sumFn_simple : Simple sumFn := by
  have lit : ∀ n : BitVec 32, n.toNat < P → LiteralTy (.Integer n) .Felt := fun n hn =>
    ⟨.felt, _, rfl, rfl, fun _ => hn⟩
  refine ⟨fun b hb i hi => ?_, fun b hb => ?_, fun b hb i hi d hd hr => ?_⟩
  · simp only [sumFn, List.mem_cons, List.not_mem_nil, or_false] at hb
    rcases hb with rfl | rfl | rfl | rfl <;> simp only [List.mem_cons, List.not_mem_nil, or_false] at hi
    · rcases hi with rfl | rfl <;> simp [InstrTyped, InstrSimple, HasType, sumFn, lit]
    · rcases hi with rfl | rfl | rfl | rfl <;>
        simp [InstrTyped, InstrSimple, HasType, sumFn, resultType, LiteralOk, OperandTyped, operandTypes, literalTy, Canon]
    · subst hi
      simp [InstrTyped, InstrSimple, sumFn, resultType, LiteralOk, OperandTyped, operandTypes, literalTy, Canon]
  · simp only [sumFn, List.mem_cons, List.not_mem_nil, or_false] at hb
    rcases hb with rfl | rfl | rfl | rfl <;>
      simp [TermTyped, sumFn, LiteralOk, OperandTyped, operandTypes, literalTy, Canon, HasType]
  · simp only [sumFn, List.mem_cons, List.not_mem_nil, or_false] at hb
    rcases hb with rfl | rfl | rfl | rfl <;> simp only [Returns] at hr
    simp only [List.mem_cons, List.not_mem_nil, or_false] at hi
    subst hi
    simp only [Instr.destinations, List.mem_cons, List.not_mem_nil, or_false] at hd
    subst hd
    decide +kernel

/-- The code emitted for a function alone, before the passes. -/
def emittedBy (f : Function) : Option Builder :=
  match Layout.new f with
  | .error _ => none
  | .ok L =>
    match genBlocks [f] f f.blocks 0 Gen.init ((Builder.new L 0).addLabel f.name) with
    | .error _ => none
    | .ok (_, b) => some b

/-- Non-vacuity of C66: the loop is simple, code is generated for it, and it returns 6 for 3. -/
example : Simple sumFn ∧ run (fun _ _ => none) sumFn 10 [.felt 3] = .returned [.felt 6] ∧
    (∃ b, emittedBy sumFn = some b ∧ b.instrs.length = 12) ∧
    List.Forall₂ (fun x p => ValTy x (sumFn.types p)) [.felt 3] sumFn.params := by
  refine ⟨sumFn_simple, by decide +kernel, ?_, .cons ⟨.Felt, .felt, rfl, rfl, rfl⟩ .nil⟩
  have h : (match emittedBy sumFn with | some b => decide (b.instrs.length = 12) | none => false) = true := by decide +kernel
  cases he : emittedBy sumFn with
  | none => rw [he] at h; cases h
  | some b =>
    rw [he] at h
    exact ⟨b, rfl, by simpa using h⟩

end Codegen
end CairoM
