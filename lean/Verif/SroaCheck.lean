import Verif.AggSem
import Verif.Sroa

/-!
# Conditions on functions with aggregates

Checks under which the replacement of aggregates keeps the meaning of a function (`SroaProps`): the aggregate instructions
have consistent types, a block defines a name before it uses it, the names are below the next free one, and no name whose
definition was removed is used in the result.
-/

namespace CairoM
namespace Mir
namespace Sroa

open Agg

mutual
/-- Equality of types. -/
def tyEq : MirType → MirType → Bool
  | .Felt, .Felt => true
  | .Bool, .Bool => true
  | .U32, .U32 => true
  | .Unit, .Unit => true
  | .Error, .Error => true
  | .Unknown, .Unknown => true
  | .Tuple a, .Tuple b => tysEq a b
  | .Struct m a, .Struct n b => decide (m = n) && fieldsEq a b
  | .FixedArray a m, .FixedArray b n => tyEq a b && decide (m = n)
  | .Pointer a, .Pointer b => tyEq a b
  | .Function a r, .Function b s => tysEq a b && tyEq r s
  | _, _ => false
/-- Equality of lists of types. -/
def tysEq : List MirType → List MirType → Bool
  | [], [] => true
  | a :: as, b :: bs => tyEq a b && tysEq as bs
  | _, _ => false
/-- Equality of lists of fields. -/
def fieldsEq : List (Name × MirType) → List (Name × MirType) → Bool
  | [], [] => true
  | (m, a) :: as, (n, b) :: bs => decide (m = n) && tyEq a b && fieldsEq as bs
  | _, _ => false
end

mutual
theorem tyEq_sound : ∀ (a b : MirType), tyEq a b = true → a = b
  | .Felt, b, h => by cases b <;> simp [tyEq] at h; rfl
  | .Bool, b, h => by cases b <;> simp [tyEq] at h; rfl
  | .U32, b, h => by cases b <;> simp [tyEq] at h; rfl
  | .Unit, b, h => by cases b <;> simp [tyEq] at h; rfl
  | .Error, b, h => by cases b <;> simp [tyEq] at h; rfl
  | .Unknown, b, h => by cases b <;> simp [tyEq] at h; rfl
  | .Tuple a, b, h => by
    cases b <;> simp [tyEq] at h
    rw [tysEq_sound _ _ h]
  | .Struct m a, b, h => by
    cases b <;> simp [tyEq] at h
    rw [h.1, fieldsEq_sound _ _ h.2]
  | .FixedArray a m, b, h => by
    cases b <;> simp [tyEq] at h
    rw [h.2, tyEq_sound _ _ h.1]
  | .Pointer a, b, h => by
    cases b <;> simp [tyEq] at h
    rw [tyEq_sound _ _ h]
  | .Function a r, b, h => by
    cases b <;> simp [tyEq] at h
    rw [tysEq_sound _ _ h.1, tyEq_sound _ _ h.2]
theorem tysEq_sound : ∀ (a b : List MirType), tysEq a b = true → a = b
  | [], b, h => by cases b <;> simp [tysEq] at h; rfl
  | a :: as, b, h => by
    cases b <;> simp [tysEq] at h
    rw [tyEq_sound _ _ h.1, tysEq_sound _ _ h.2]
theorem fieldsEq_sound : ∀ (a b : List (Name × MirType)), fieldsEq a b = true → a = b
  | [], b, h => by cases b <;> simp [fieldsEq] at h; rfl
  | (m, a) :: as, b, h => by
    cases b with
    | nil => simp [fieldsEq] at h
    | cons c cs =>
      obtain ⟨n, b⟩ := c
      simp [fieldsEq] at h
      rw [h.1.1, tyEq_sound _ _ h.1.2, fieldsEq_sound _ _ h.2]
end

/-- A value that is a name has the type `t`. -/
def hasTyB (types : ValueId → Option MirType) (t : MirType) : Value → Bool
  | .Operand v =>
    match types v with
    | some s => tyEq s t
    | none => false
  | _ => true

/-- The values that are names have the given types. -/
def haveTysB (types : ValueId → Option MirType) : List MirType → List Value → Bool
  | [], [] => true
  | t :: ts, v :: vs => hasTyB types t v && haveTysB types ts vs
  | _, _ => false

/-- The name `d` has the type `t`. -/
def destTyB (types : ValueId → Option MirType) (t : MirType) (d : ValueId) : Bool := hasTyB types t (.Operand d)

/-- The names of the fields are distinct. -/
def distinctB : MirType → Bool
  | .Struct _ fs => decide (fs.map Prod.fst).Nodup
  | _ => true

/-- The `i`-th component of a type is `t`. -/
def componentB (ty : MirType) (i : ℕ) (t : MirType) : Bool :=
  match elementTys ty with
  | some ts =>
    match ts[i]? with
    | some s => tyEq s t
    | none => false
  | none => false

/-- The value, a name, has a type whose `i`-th component is `t`. -/
def sourceB (types : ValueId → Option MirType) (i : MirType → Option ℕ) (t : MirType) : Value → Bool
  | .Operand v =>
    match types v with
    | some ty =>
      match i ty with
      | some i => componentB ty i t
      | none => false
    | none => false
  | _ => false

/-- The arguments of a call that are names and expected to be aggregates have the types of the parameters. -/
def argsB (types : ValueId → Option MirType) : List MirType → List Value → Bool
  | t :: ts, v :: vs => (!isAgg t || (hasTyB types t v && distinctB t)) && argsB types ts vs
  | _, _ => true

/-- The types of an aggregate instruction are consistent. -/
def typedB (types : ValueId → Option MirType) : Instr → Bool
  | .Assign d v ty => !isAgg ty || (destTyB types ty d && hasTyB types ty v)
  | .MakeTuple d es =>
    match types d with
    | some (.Tuple ts) => haveTysB types ts es
    | _ => false
  | .MakeStruct d given (.Struct n fs) =>
    destTyB types (.Struct n fs) d &&
      match inOrder given fs with
      | some es => haveTysB types (fs.map Prod.snd) es
      | none => false
  | .ExtractTupleElement d t i ty => destTyB types ty d && sourceB types (fun _ => some i) ty t
  | .ExtractStructField d s name ty => destTyB types ty d && sourceB types (fieldIndex · name) ty s
  | .InsertTuple d t i v ty =>
    destTyB types ty d && hasTyB types ty t &&
      match (elementTys ty).bind (·[i]?) with
      | some et => hasTyB types et v
      | none => false
  | .InsertField d s name v ty =>
    destTyB types ty d && hasTyB types ty s &&
      match (fieldIndex ty name).bind fun i => (elementTys ty).bind (·[i]?) with
      | some et => hasTyB types et v
      | none => false
  | .Call _ _ args sig => argsB types sig.params args
  | _ => true

/-- A block defines a name before it uses it, and once (`seen`: the names used or defined before). -/
def freshB : List ValueId → List Instr → Bool
  | _, [] => true
  | seen, i :: is =>
    (i.destinations.all fun d => decide (d ∉ seen) && decide (d ∉ i.uses)) && freshB (i.uses ++ i.destinations ++ seen) is

/-- The names of an instruction are below `n`. -/
def belowB (n : ValueId) (i : Instr) : Bool := (i.uses ++ i.destinations).all fun v => decide (v < n)

/-- Returned names have types whose fields are distinct. -/
def returnsB (types : ValueId → Option MirType) : Terminator → Bool
  | .Return vs => vs.all fun
    | .Operand v =>
      match types v with
      | some ty => distinctB ty
      | none => true
    | _ => true
  | _ => true

/-- The conditions on a block. -/
def blockB (n : ValueId) (types : ValueId → Option MirType) (b : Block) : Bool :=
  b.instrs.all (belowB n) && b.term.uses.all (fun v => decide (v < n)) && b.instrs.all (typedB types) &&
    freshB [] (b.instrs.dropWhile isPhi) && returnsB types b.term

/-- The conditions on a function, before the pass. -/
def sourceOk (f : Function) : Bool :=
  f.blocks.all (blockB f.nextValue f.types) && f.params.all (fun v => decide (v < f.nextValue)) &&
    f.returns.all (fun v => decide (v < f.nextValue))

/-- The names whose definitions the pass removes. -/
def removedFrom (cross : List ValueId) : (ValueId → Option MirType) → ValueId → List Block → List ValueId
  | _, _, [] => []
  | types, next, b :: bs =>
    match block cross types next b with
    | none => []
    | some (_, st) =>
      (if st.modified then st.states.map Prod.fst else []) ++ removedFrom cross st.types st.next bs

/-- The names whose definitions the pass removes from a function. -/
def removed (f : Function) : List ValueId := removedFrom (crossBlock f.types f.blocks) f.types f.nextValue f.blocks

/-- No removed name is used. -/
def resultOk (R : List ValueId) (g : Function) : Bool := g.blocks.all fun b => (blockUses b).all fun v => decide (v ∉ R)

/-! ### Functions whose aggregates contain no aggregates -/

/-- A tuple or a struct. -/
def isTS : MirType → Bool
  | .Tuple _ | .Struct _ _ => true
  | _ => false

/-- The name is not known to be a tuple or a struct. -/
def plainB (types : ValueId → Option MirType) (v : ValueId) : Bool :=
  match types v with
  | some ty => !isTS ty
  | none => true

/-- The arguments that are not passed as aggregates. -/
def plainArgs : List Value → List MirType → List ValueId
  | [], _ => []
  | a :: as, [] => valuesIds (a :: as)
  | a :: as, p :: ps => (if isAgg p then [] else a.ids) ++ plainArgs as ps

/-- The names that an instruction uses where no aggregate is expected; the components of an aggregate are among them. -/
def plainUses : Instr → List ValueId
  | .Assign _ v ty => if isAgg ty then [] else v.ids
  | .Call _ _ args sig => plainArgs args sig.params
  | .InsertTuple _ _ _ v _ | .InsertField _ _ _ v _ => v.ids
  | .ExtractTupleElement _ _ _ _ | .ExtractStructField _ _ _ _ | .Debug _ | .Phi _ _ _ => []
  | i => i.uses

/-- No array is built, no aggregate contains an aggregate, and aggregates are used only where they are expected. -/
def flatB (types : ValueId → Option MirType) (i : Instr) : Bool :=
  (plainUses i).all (plainB types) &&
    match i with
    | .MakeFixedArray _ _ _ _ => false
    | .MakeStruct _ _ (.Struct _ _) => true
    | .MakeStruct _ _ _ => false
    | .Phi d ty sources => destTyB types ty d && (sources.map Prod.snd).all (hasTyB types ty)
    | _ => true

/-- The same for a terminator. -/
def flatTermB (types : ValueId → Option MirType) : Terminator → Bool
  | .Return _ => true
  | t => t.uses.all (plainB types)

/-- The aggregates of the function contain no aggregates. -/
def flatOk (f : Function) : Bool :=
  f.blocks.all fun b => b.instrs.all (flatB f.types) && (b.instrs.dropWhile isPhi).all (fun i => !isPhi i) &&
    flatTermB f.types b.term

end Sroa
end Mir
end CairoM
