import Verif.PipelineChecks
import Verif.ProgramProps

/-!
# Decidable conditions of the code generator
-/

namespace CairoM
namespace Codegen

open Mir Lang

/-- An operand that is a name has one of the types. -/
def operandB (types : ValueId → Option MirType) (ts : List MirType) : Value → Bool
  | .Operand v => ts.any fun t => isTy (types v) t
  | _ => true

theorem operandB_sound {types : ValueId → Option MirType} {ts : List MirType} {v : Value}
    (h : operandB types ts v = true) : OperandTyped types ts v := by
  cases v with
  | Operand v =>
    simp only [operandB, List.any_eq_true] at h
    obtain ⟨t, ht, h⟩ := h
    exact ⟨t, ht, isTy_sound h⟩
  | _ => trivial

/-- Returned values have the types of the names of the results. -/
def returnsB (types : ValueId → Option MirType) : List Value → List ValueId → Bool
  | [], [] => true
  | v :: vs, r :: rs => (match types r with | some t => hasTypeB types v t | none => false) && returnsB types vs rs
  | _, _ => false

theorem returnsB_sound {types : ValueId → Option MirType} : ∀ {vs : List Value} {rs : List ValueId},
    returnsB types vs rs = true → List.Forall₂ (fun v r => ∃ t, types r = some t ∧ HasType types v t) vs rs
  | [], [], _ => .nil
  | v :: vs, r :: rs, h => by
    simp only [returnsB, Bool.and_eq_true] at h
    refine .cons ?_ (returnsB_sound h.2)
    cases ht : types r with
    | none => rw [ht] at h; cases h.1
    | some t => rw [ht] at h; exact ⟨t, rfl, hasTypeB_sound h.1⟩
  | [], _ :: _, h => by cases h
  | _ :: _, [], h => by cases h

def termB (f : Function) : Terminator → Bool
  | .If c _ _ => operandB f.types [.Bool, .Felt] c
  | .BranchCmp op l r _ _ => literalOkB op l && literalOkB op r &&
    (operandB f.types (operandTypes op) l && operandB f.types (operandTypes op) r)
  | .Return vs => returnsB f.types vs f.returns
  | _ => true

theorem termB_sound {f : Function} {t : Terminator} (h : termB f t = true) : TermTyped f t := by
  cases t <;> simp only [termB, Bool.and_eq_true] at h <;> simp only [TermTyped]
  case If => exact operandB_sound h
  case BranchCmp =>
    exact ⟨⟨literalOkB_sound h.1.1, literalOkB_sound h.1.2⟩, operandB_sound h.2.1, operandB_sound h.2.2⟩
  case Return => exact returnsB_sound h

def canonB : Value → Bool
  | .Literal l => decide (Canon l)
  | _ => true

theorem canonB_sound {v : Value} (h : canonB v = true) : CanonValue v := by
  cases v with
  | Literal l => exact (of_decide_eq_true h : Canon l)
  | _ => trivial

def isName (v : Value) (d : ValueId) : Bool :=
  match v with
  | .Operand u => decide (u = d)
  | _ => false

def simpleB (types : ValueId → Option MirType) : Instr → Bool
  | .Assign _ _ _ | .UnaryOp _ _ _ | .Cast _ _ _ _ | .Nop => true
  | .BinaryOp op d l r =>
    operandB types (operandTypes op) l && operandB types (operandTypes op) r &&
      ((decide (op ≠ .And) && decide (op ≠ .Or)) || (!isName l d && !isName r d))
  | .AssertEq l r => canonB l && canonB r && (operandB types [.Felt, .Bool] l && operandB types [.Felt, .Bool] r)
  | .Call ds _ _ _ => !ds.isEmpty
  | _ => false

theorem simpleB_sound {types : ValueId → Option MirType} {i : Instr} (h : simpleB types i = true) :
    InstrCalls types i := by
  cases i <;> simp only [simpleB, Bool.and_eq_true, Bool.or_eq_true, decide_eq_true_eq, Bool.not_eq_true',
    Bool.false_eq_true] at h <;> simp only [InstrCalls, InstrSimple]
  case BinaryOp op d l r =>
    refine ⟨⟨operandB_sound h.1.1, operandB_sound h.1.2⟩, fun ho => ?_⟩
    rcases h.2 with h | h
    · rcases ho with ho | ho
      · exact absurd ho h.1
      · exact absurd ho h.2
    · constructor
      · rintro rfl; simp [isName] at h
      · rintro rfl; simp [isName] at h
  case AssertEq => exact ⟨⟨canonB_sound h.1.1, canonB_sound h.1.2⟩, operandB_sound h.2.1, operandB_sound h.2.2⟩
  case Call ds c args sig => rintro rfl; simp at h

/-! ### Order of the definitions -/

/-- Values read before the block defines them. -/
def exposed : List Instr → Terminator → List ValueId
  | [], t => t.uses
  | i :: is, t => i.uses ++ (exposed is t).filter fun v => !i.destinations.contains v

def liveInStep (f : Function) (s : List (List ValueId)) : List (List ValueId) :=
  s.zipIdx.map fun (l, k) =>
    match f.blocks[k]? with
    | none => l
    | some b => (l ++ b.term.targets.flatMap fun t => (setAt s t).filter fun v => !(defs b.instrs).contains v).dedup

/-- Values needed at the start of each block. -/
def liveIn (f : Function) : List (List ValueId) :=
  iterate (liveInStep f) (f.blocks.length + 1) (f.blocks.map fun b => (exposed b.instrs b.term).dedup)

def definedB : List ValueId → List Instr → Terminator → Bool
  | s, [], t => t.uses.all fun v => s.contains v
  | s, i :: is, t => (i.uses.all fun v => s.contains v) && definedB (s ++ i.destinations) is t

theorem Defined.imp : ∀ {is : List Instr} {T T' : ValueId → Prop} {t : Terminator}, (∀ v, T v → T' v) →
    Defined T is t → Defined T' is t
  | [], _, _, _, h, hd => fun v hv => h v (hd v hv)
  | _ :: _, _, _, _, h, hd => ⟨fun v hv => h v (hd.1 v hv), Defined.imp (fun v hv => hv.imp (h v) id) hd.2⟩

theorem definedB_sound : ∀ {is : List Instr} {s : List ValueId} {t : Terminator}, definedB s is t = true →
    Defined (fun v => v ∈ s) is t
  | [], s, t, h => by simpa [definedB, Defined] using h
  | i :: is, s, t, h => by
    simp only [definedB, Bool.and_eq_true, List.all_eq_true, List.contains_iff_mem] at h
    exact ⟨h.1, (definedB_sound h.2).imp fun v hv => List.mem_append.1 hv⟩

def movesB (term : Terminator) (i : Instr) (next : Option Instr) (d : ValueId) : Bool :=
  (match i with | .Call .. => true | _ => false) ||
  (match next with | some (.Call _ _ args _) => args.any fun a => isName a d | _ => false) || decide (Returns term d)

/-- Values a block moves to another slot. -/
def movedList (term : Terminator) : List Instr → List ValueId
  | [] => []
  | i :: is => (i.destinations.filter (movesB term i is.head?)) ++ movedList term is

theorem mem_movedList {term : Terminator} {i : Instr} {post : List Instr} {d : ValueId} (h : Moves term i post.head? d) :
    ∀ {pre : List Instr}, d ∈ movedList term (pre ++ i :: post)
  | [] => by
    simp only [List.nil_append, movedList, List.mem_append, List.mem_filter]
    refine .inl ⟨h.1, ?_⟩
    rcases h.2 with ⟨ds, c, args, sig, rfl⟩ | ⟨ds, c, args, sig, hn, ha⟩ | h
    · rfl
    · rw [hn]
      simp only [movesB, Bool.or_eq_true, List.any_eq_true]
      exact .inl (.inr ⟨_, ha, by simp [isName]⟩)
    · simp [movesB, h]
  | _ :: pre => by
    simp only [List.cons_append, movedList, List.mem_append]
    exact .inr (mem_movedList h)

def orderedB (f : Function) : Bool :=
  let l := liveIn f
  ((setAt l 0).all fun v => f.params.contains v) &&
  ((Layout.locals f).all fun d => !f.params.contains d) &&
  f.blocks.zipIdx.all fun (b, j) =>
    definedB (setAt l j) b.instrs b.term &&
    (b.term.targets.all fun t => (setAt l t).all fun v => (setAt l j).contains v || (defs b.instrs).contains v) &&
    (movedList b.term b.instrs).all fun d =>
      decide ((Layout.locals f).count d = 1) &&
      l.zipIdx.all fun (s, k) => !s.contains d || (decide (j < k) && decide (¬ Returns b.term d))

theorem orderedB_sound {f : Function} (h : orderedB f = true) : ∃ live, Ordered f live := by
  simp only [orderedB, Bool.and_eq_true, List.all_eq_true, Prod.forall, List.contains_iff_mem, decide_eq_true_eq,
    Bool.or_eq_true, Bool.not_eq_true'] at h
  generalize liveIn f = l at h
  obtain ⟨⟨h1, h2⟩, h3⟩ := h
  have key := fun (j : ℕ) (b : Block) (hb : f.blocks[j]? = some b) => h3 b j (mem_zipIdx hb)
  have moved : ∀ {blk : Block} {d : ValueId}, MovedIn blk d → d ∈ movedList blk.term blk.instrs := by
    rintro blk d ⟨pre, i, post, he, hm⟩
    rw [he]
    exact mem_movedList hm
  refine ⟨fun k v => v ∈ setAt l k, h1, fun k blk hk => definedB_sound (key k blk hk).1.1, ?_,
    fun d hd => not_contains (h2 d hd), ?_, ?_⟩
  · intro k blk hk t ht v hv
    rcases (key k blk hk).1.2 t ht v hv with h | h
    · exact .inl h
    · exact .inr (mem_defs.1 h)
  · intro blk hblk d hm
    obtain ⟨j, hj⟩ := List.getElem?_of_mem hblk
    exact ((key j blk hj).2 d (moved hm)).1
  · intro j blk hj d hm k hk
    simp only [setAt] at hk
    cases hs : l[k]? with
    | none => rw [hs] at hk; simp at hk
    | some s =>
      rw [hs] at hk
      rcases ((key j blk hj).2 d (moved hm)).2 s k (mem_zipIdx hs) with h | h
      · exact absurd hk (not_contains h)
      · exact h

def callingB (f : Function) : Bool :=
  (f.blocks.all fun b => (b.instrs.all fun i => instrB f.types i && simpleB f.types i) && termB f b.term) && orderedB f

theorem callingB_sound {f : Function} (h : callingB f = true) : ∃ live, Calling f live := by
  simp only [callingB, Bool.and_eq_true, List.all_eq_true] at h
  obtain ⟨live, hl⟩ := orderedB_sound h.2
  exact ⟨live, fun b hb i hi => ⟨instrB_sound ((h.1 b hb).1 i hi).1, simpleB_sound ((h.1 b hb).1 i hi).2⟩,
    fun b hb => termB_sound (h.1 b hb).2, hl⟩

/-! ### Modules -/

def endsB (f : Function) : Bool :=
  match f.blocks.getLast? with
  | some ⟨_, .Unreachable⟩ => false
  | _ => true

theorem endsB_sound {f : Function} (h : endsB f = true) : EndsProperly f := by
  intro blk hb ht
  unfold endsB at h
  rw [hb] at h
  obtain ⟨is, t⟩ := blk
  simp only at ht
  subst ht
  cases h

def callMatchB (md : Module) : Instr → Bool
  | .Call _ c _ sig =>
    match md[c]? with
    | some g => areTys (g.params.map g.types) sig.params && areTys (g.returns.map g.types) sig.returns
    | none => false
  | _ => true

def numberedB (f : Function) : Bool :=
  (f.blocks.all fun b => (b.instrs.all fun i => (i.uses.all fun v => decide (v < f.nextValue)) &&
    i.destinations.all fun v => decide (v < f.nextValue)) && b.term.uses.all fun v => decide (v < f.nextValue)) &&
  (f.returns.all fun v => decide (v < f.nextValue)) && f.params.all fun v => decide (v < f.nextValue)

theorem numberedB_sound {f : Function} (h : numberedB f = true) : Numbered f ∧ ∀ v ∈ f.params, v < f.nextValue := by
  simp only [numberedB, Bool.and_eq_true, List.all_eq_true, decide_eq_true_eq] at h
  exact ⟨⟨fun b hb i hi => (h.1.1 b hb).1 i hi, fun b hb => (h.1.1 b hb).2, h.1.2⟩, h.2⟩

def moduleB (md : Module) : Bool :=
  md.all fun f => callingB f && endsB f && numberedB f && f.blocks.all fun b => b.instrs.all (callMatchB md)

theorem moduleB_sound {md : Module} (h : moduleB md = true) :
    ModuleOk md ∧ (∀ f ∈ md, Numbered f) ∧ ∀ f ∈ md, ∀ v ∈ f.params, v < f.nextValue := by
  simp only [moduleB, Bool.and_eq_true, List.all_eq_true] at h
  refine ⟨⟨fun f hf => callingB_sound (h f hf).1.1.1, fun f hf => endsB_sound (h f hf).1.1.2, ?_⟩,
    fun f hf => (numberedB_sound (h f hf).1.2).1, fun f hf => (numberedB_sound (h f hf).1.2).2⟩
  intro f hf b hb ds c args sig hi
  have := (h f hf).2 b hb _ hi
  simp only [callMatchB] at this
  split at this
  · rename_i g hg
    simp only [Bool.and_eq_true] at this
    exact ⟨g, hg, areTys_sound this.1, areTys_sound this.2⟩
  · cases this

end Codegen
end CairoM
