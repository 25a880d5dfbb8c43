import Verif.MirPasses

/-!
# Scalar replacement of aggregates

Model of `crates/compiler/mir/src/passes/sroa.rs` with the configuration of the standard pipeline (`sroa.rs:132-147`:
tuples, structs and arrays of at most eight components). The statistics and the Boolean result, which nothing else
reads, are left out; hash maps are association lists whose first entry counts, hash sets are lists.
-/

namespace CairoM
namespace Mir
namespace Sroa

/-- `is_scalarizable` (`sroa.rs:172-186`). -/
def isScalarizable : MirType → Bool
  | .Tuple ts => ts.length ≤ 8
  | .Struct _ fs => fs.length ≤ 8
  | .FixedArray _ n => n ≤ 8
  | _ => false

/-- `matches!(ty, Tuple | Struct | FixedArray)` (`sroa.rs:1125-1130, 1160-1167, 1235, 1265-1270`). -/
def isAgg : MirType → Bool
  | .Tuple _ | .Struct _ _ | .FixedArray _ _ => true
  | _ => false

/-- `matches!(ty, Some(FixedArray))` (`sroa.rs:301-304`). -/
def isArray : Option MirType → Bool
  | some (.FixedArray _ _) => true
  | _ => false

/-- `AggState::from_struct_fields` (`sroa.rs:1395-1408`). -/
def fromStructFields (provided : List (Name × Value)) : List (Name × MirType) → Option (List Value)
  | [] => some []
  | (n, _) :: fs =>
    match provided.lookup n with
    | some v => (fromStructFields provided fs).map fun vs => v :: vs
    | none => none

/-- `function.get_value_type(dest).or(Some(struct_ty)).filter(Struct)` (`sroa.rs:235-243, 887-896`). -/
def structFields (recorded : Option MirType) (ty : MirType) : Option (List (Name × MirType)) :=
  match recorded.getD ty with
  | .Struct _ fs => some fs
  | _ => none

/-- `struct_field_index` (`sroa.rs:1411-1416`). -/
def structFieldIndex : MirType → Name → Option ℕ
  | .Struct _ fs, name => fs.findIdx? fun f => f.1 = name
  | _, _ => none

/-- The instruction builds the aggregate `d` (`sroa.rs:210-217`). -/
def builds (d : ValueId) : Instr → Bool
  | .MakeStruct e _ _ | .MakeTuple e _ | .MakeFixedArray e _ _ _ => e = d
  | _ => false

/-- Conditions 1 to 3 of `can_scalarize_aggregate` (`sroa.rs:195-404`). -/
def basicOk (types : ValueId → Option MirType) (cross : List ValueId) (d : ValueId) : Instr → Bool
  | .MakeStruct _ fields ty =>
    isScalarizable ty && decide (d ∉ cross) &&
      match structFields (types d) ty with
      | some fs => (fromStructFields fields fs).isSome
      | none => false
  | .MakeTuple _ _ =>
    match types d with
    | some (.Tuple ts) => isScalarizable (.Tuple ts) && decide (d ∉ cross)
    | _ => false
  | .MakeFixedArray _ _ _ _ =>
    match types d with
    | some (.FixedArray t n) => isScalarizable (.FixedArray t n) && decide (d ∉ cross)
    | _ => false
  | _ => false

/-- `matches!(v, Value::Literal(Literal::Integer(_)))` (`sroa.rs:391`). -/
def isIntLiteral : Value → Bool
  | .Literal (.Integer _) => true
  | _ => false

/-- A place based on `d` that the pass cannot follow (`sroa.rs:388-398`). -/
def blocksPlace (d : ValueId) (p : Place) : Bool :=
  decide (p.base = d) &&
    match p.projections with
    | [] => false
    | .Index v :: _ => !isIntLiteral v
    | _ :: _ => true

/-- The values of a parent aggregate: each occurrence of `d` asks for the parent to be replaced too (`sroa.rs:297-319,
332-352, 365-385`); `none` is the answer no, the list is the set of visited values. -/
def askParent (ask : List ValueId → Option (List ValueId)) (array : Bool) (d : ValueId) :
    List Value → List ValueId → Option (List ValueId)
  | [], visited => some visited
  | v :: vs, visited =>
    if v = .Operand d then
      if array then none
      else
        match ask visited with
        | none => none
        | some visited => askParent ask array d vs visited
    else askParent ask array d vs visited

/-- Condition 4 of `can_scalarize_aggregate` (`sroa.rs:195-404`), with the recursive call `ask`. -/
def askUses (ask : ValueId → List ValueId → Option (List ValueId)) (array : Bool) (d : ValueId) :
    List Instr → List ValueId → Option (List ValueId)
  | [], visited => some visited
  | i :: is, visited =>
    match (match i with
      | .Call _ _ args _ => if .Operand d ∈ args then none else some visited
      | .MakeStruct p fs _ => if p = d then some visited else askParent (ask p) array d (fs.map Prod.snd) visited
      | .MakeTuple p es => if p = d then some visited else askParent (ask p) array d es visited
      | .MakeFixedArray p es _ _ => if p = d then some visited else askParent (ask p) array d es visited
      | .Load _ p _ | .Store p _ _ => if blocksPlace d p then none else some visited
      | _ => some visited) with
    | none => none
    | some visited => askUses ask array d is visited

/-- `can_scalarize_aggregate` (`sroa.rs:195-404`). The visited set bounds the recursion by the number of instructions;
the fuel is larger. -/
def canScalarize (types : ValueId → Option MirType) (cross : List ValueId) (instrs : List Instr) :
    ℕ → ValueId → List ValueId → Option (List ValueId)
  | 0, _, _ => none
  | n + 1, d, visited =>
    if d ∈ visited then none
    else
      match instrs.find? (builds d) with
      | none => none
      | some mk =>
        if basicOk types cross d mk then
          askUses (canScalarize types cross instrs n) (isArray (types d)) d instrs (d :: visited)
        else none

/-- A call of `can_scalarize_aggregate` with an empty visited set (`sroa.rs:841-851, 872-879, 929-936`). -/
def can (types : ValueId → Option MirType) (cross : List ValueId) (instrs : List Instr) (d : ValueId) : Bool :=
  (canScalarize types cross instrs (instrs.length + 2) d []).isSome

/-- The same kind of aggregate (`sroa.rs:433-438`). -/
def sameKind : Option MirType → MirType → Bool
  | some (.FixedArray _ _), .FixedArray _ _ => true
  | some (.Tuple _), .Tuple _ => true
  | some (.Struct _ _), .Struct _ _ => true
  | _, _ => false

/-- One instruction in the loop of `build_aggregate_family` (`sroa.rs:410-473`). -/
def familyStep (rootTy : Option MirType) (family : List ValueId) : Instr → List ValueId
  | .Assign d (.Operand s) ty => if sameKind rootTy ty ∧ s ∈ family ∧ d ∉ family then d :: family else family
  | .InsertTuple d (.Operand s) _ _ _ => if s ∈ family ∧ d ∉ family then d :: family else family
  | .InsertField d (.Operand s) _ _ _ => if s ∈ family ∧ d ∉ family then d :: family else family
  | _ => family

/-- `build_aggregate_family` (`sroa.rs:410-473`). Each round that changes the family adds a destination, so as many rounds
as there are instructions reach the fixed point. -/
def family (types : ValueId → Option MirType) (root : ValueId) (instrs : List Instr) : List ValueId :=
  (fun fam => instrs.foldl (familyStep (types root)) fam)^[instrs.length + 1] [root]

/-- A load or store whose first index is not a literal (`sroa.rs:487-504`). -/
def dynamicIndex (fam : List ValueId) : Instr → Bool
  | .Load _ p _ | .Store p _ _ =>
    decide (p.base ∈ fam) &&
      match p.projections with
      | .Index v :: _ => !isIntLiteral v
      | _ => false
  | _ => false

/-- `array_family_has_dynamic_index_use` (`sroa.rs:476-509`). -/
def hasDynamicIndex (types : ValueId → Option MirType) (root : ValueId) (instrs : List Instr) : Bool :=
  instrs.any (dynamicIndex (family types root instrs))

/-- The roots of a block (`sroa.rs:524-538`). -/
def roots (types : ValueId → Option MirType) : List Instr → List ValueId
  | [] => []
  | i :: is =>
    match i with
    | .MakeTuple d _ | .MakeStruct d _ _ | .MakeFixedArray d _ _ _ =>
      match types d with
      | some ty => if isScalarizable ty then d :: roots types is else roots types is
      | none => roots types is
    | _ => roots types is

/-- The families with their blocks (`sroa.rs:516-546`); a value is built once. -/
def families (types : ValueId → Option MirType) (blocks : List Block) : List (BlockId × List ValueId) :=
  blocks.zipIdx.flatMap fun (b, k) => (roots types b.instrs).map fun r => (k, family types r b.instrs)

/-- `collect_value_uses_in_instruction` (`sroa.rs:586-719`). -/
def usesOf : Instr → List ValueId
  | .Debug _ => []
  | i => i.uses

/-- The uses of a block (`sroa.rs:551-578`, `collect_value_uses_in_terminator`, `sroa.rs:722-751`). -/
def blockUses (b : Block) : List ValueId := b.instrs.flatMap usesOf ++ b.term.uses

/-- `find_cross_block_aggregates` (`sroa.rs:513-582`). -/
def crossBlock (types : ValueId → Option MirType) (blocks : List Block) : List ValueId :=
  (families types blocks).flatMap fun (k, fam) =>
    if blocks.zipIdx.any fun (b, j) => j ≠ k && (blockUses b).any fun v => decide (v ∈ fam) then fam else []

/-- The state of the pass: the types and names of the function, the tracked aggregates, and whether the block was
changed (`sroa.rs:796-799`). -/
structure St where
  types : ValueId → Option MirType
  next : ValueId
  states : List (ValueId × List Value)
  modified : Bool

/-- `agg_states.insert`, with `block_modified = true`. -/
def St.track (st : St) (d : ValueId) (elems : List Value) : St :=
  { st with states := (d, elems) :: st.states, modified := true }

/-- `new_typed_value_id` (`mir/src/function.rs:142-146`). -/
def St.fresh (st : St) (ty : MirType) : St :=
  { st with types := fun v => if v = st.next then some ty else st.types v, next := st.next + 1, modified := true }

/-- The components with the names of the fields (`sroa.rs:1442-1446`). -/
def nameFields (elems : List Value) (fs : List (Name × MirType)) : List (Name × Value) :=
  fs.zipIdx.map fun (f, i) => (f.1, (elems[i]?).getD (.Literal .Unit))

/-- `materialize` (`sroa.rs:1420-1473`): the new instructions and the state; the new value is the old `next`. `none` is
the failed assertion on the length of an array. -/
def materialize (st : St) (elems : List Value) (ty : MirType) : Option (List Instr × St) :=
  match ty with
  | .Tuple ts =>
    some ([.MakeTuple st.next (elems.take ts.length ++ List.replicate (ts.length - elems.length) (.Literal .Unit))],
      st.fresh ty)
  | .Struct _ fs => some ([.MakeStruct st.next (nameFields elems fs) ty], st.fresh ty)
  | .FixedArray t n => if elems.length = n then some ([.MakeFixedArray st.next elems t false], st.fresh ty) else none
  | _ => some ([], st.fresh ty)

/-- The child of a tracked value (`sroa.rs:1500-1536, 1587-1601`). -/
def childIndex (st : St) (id : ValueId) : Projection → Option ℕ
  | .Index (.Literal (.Integer n)) => some n.toNat
  | .Index (.Literal (.Boolean b)) => some b.toNat
  | .Index _ => none
  | .Tuple i => some i
  | .Field name => (st.types id).bind fun ty => structFieldIndex ty name

/-- `forward_projection_chain` (`sroa.rs:1489-1539`). -/
def forwardChain (st : St) : List Projection → Value → Option Value
  | [], v => some v
  | p :: ps, .Operand id =>
    match childIndex st id p, st.states.lookup id with
    | some i, some elems =>
      match elems[i]? with
      | some v => forwardChain st ps v
      | none => none
    | _, _ => none
  | _ :: _, _ => none

/-- The loop of `try_forward_store_chain` (`sroa.rs:1548-1615`). -/
def storeChain (st : St) (new : Value) : List Projection → Value → Option St
  | p :: ps, .Operand id =>
    match childIndex st id p, st.states.lookup id with
    | some i, some elems =>
      if i < elems.length then
        if ps.isEmpty then some (st.track id (elems.set i new))
        else storeChain st new ps (elems[i]?.getD .Error)
      else none
    | _, _ => none
  | _, _ => none

/-- `try_forward_store_chain` (`sroa.rs:1548-1615`). -/
def tryStore (st : St) (p : Place) (new : Value) : Option St :=
  match p.projections with
  | .Index (.Literal (.Integer n)) :: ps =>
    match st.states.lookup p.base with
    | some elems =>
      if n.toNat < elems.length then
        if ps.isEmpty then some (st.track p.base (elems.set n.toNat new))
        else storeChain st new ps (elems[n.toNat]?.getD .Error)
      else none
    | none => none
  | _ => none

/-- The tracked components of an operand. -/
def St.look (st : St) : Value → Option (List Value)
  | .Operand v => st.states.lookup v
  | _ => none

/-- The arguments of a call (`sroa.rs:1256-1287`). -/
def callArgs (st : St) : List Value → List MirType → Option (List Instr × List Value × St)
  | [], _ => some ([], [], st)
  | a :: as, [] => some ([], a :: as, st)
  | a :: as, p :: ps =>
    match (if isAgg p then st.look a else none) with
    | some elems =>
      match materialize st elems p with
      | none => none
      | some (is, st') => (callArgs st' as ps).map fun (js, bs, st'') => (is ++ js, .Operand st.next :: bs, st'')
    | none => (callArgs st as ps).map fun (js, bs, st'') => (js, a :: bs, st'')

/-- The element a tracked aggregate gives (`sroa.rs:1032-1048, 1079-1095`): a tracked element gives its state, another one
an assignment. -/
def extract (st : St) (d : ValueId) (v : Value) (ty : MirType) : List Instr × St :=
  match st.look v with
  | some elems => ([], st.track d elems)
  | none => ([.Assign d v ty], { st with modified := true })

/-- A tuple can be replaced (`sroa.rs:809-859`). -/
def tupleOk (cross : List ValueId) (instrs : List Instr) (st : St) (d : ValueId) : Bool :=
  match st.types d with
  | some (.Tuple ts) =>
    isScalarizable (.Tuple ts) && decide (d ∉ cross) &&
      instrs.all fun
        | .MakeTuple p es => !(decide (p ≠ d) && decide (.Operand d ∈ es)) || can st.types cross instrs p
        | _ => true
  | _ => false

/-- An array can be replaced (`sroa.rs:911-948`). -/
def arrayOk (cross : List ValueId) (instrs : List Instr) (st : St) (d : ValueId) : Bool :=
  match st.types d with
  | some (.FixedArray t n) =>
    isScalarizable (.FixedArray t n) && decide (d ∉ cross) && can st.types cross instrs d &&
      !hasDynamicIndex st.types d instrs
  | _ => false

/-- One instruction after the phi nodes (`sroa.rs:805-1304`): the instructions that replace it and the new state. -/
def step (cross : List ValueId) (instrs : List Instr) (st : St) (i : Instr) : Option (List Instr × St) :=
  match i with
  | .MakeTuple d es => if tupleOk cross instrs st d then some ([], st.track d es) else some ([i], st)
  | .MakeStruct d fields ty =>
    if can st.types cross instrs d then
      match (structFields (st.types d) ty).bind (fromStructFields fields) with
      | some es => some ([], st.track d es)
      | none => some ([i], st)
    else some ([i], st)
  | .MakeFixedArray d es _ _ => if arrayOk cross instrs st d then some ([], st.track d es) else some ([i], st)
  | .InsertTuple d t k v _ =>
    match st.look t with
    | some es => if k < es.length then some ([], st.track d (es.set k v)) else some ([i], st)
    | none => some ([i], st)
  | .InsertField d s name v ty =>
    match st.look s, structFieldIndex ty name with
    | some es, some k => if k < es.length then some ([], st.track d (es.set k v)) else some ([i], st)
    | _, _ => some ([i], st)
  | .ExtractTupleElement d t k ty =>
    match st.look t with
    | some es =>
      match es[k]? with
      | some v => some (extract st d v ty)
      | none => some ([i], st)
    | none => some ([i], st)
  | .ExtractStructField d (.Operand s) name ty =>
    match (st.types s).bind (structFieldIndex · name), st.look (.Operand s) with
    | some k, some es =>
      match es[k]? with
      | some v => some (extract st d v ty)
      | none => some ([i], st)
    | _, _ => some ([i], st)
  | .Load d p ty =>
    match p.projections with
    | .Index (.Literal (.Integer _)) :: _ =>
      match st.states.lookup p.base, forwardChain st p.projections (.Operand p.base) with
      | some _, some v =>
        match st.look v with
        | some es => if isAgg ty then some ([], st.track d es) else some ([.Assign d v ty], { st with modified := true })
        | none => some ([.Assign d v ty], { st with modified := true })
      | _, _ => some ([i], st)
    | _ => some ([i], st)
  | .Store p v ty =>
    match tryStore st p v with
    | some st' => some ([], st')
    | none =>
      match (if isAgg ty then st.look v else none) with
      | some es => (materialize st es ty).map fun (is, st') => (is ++ [.Store p (.Operand st.next) ty], st')
      | none => some ([i], st)
  | .Assign d v ty =>
    match (if isAgg ty then st.look v else none) with
    | some es => some ([], st.track d es)
    | none => some ([i], st)
  | .Call ds callee args sig =>
    (callArgs st args sig.params).map fun (is, args', st') => (is ++ [.Call ds callee args' sig], st')
  | i => some ([i], st)

/-- The instructions after the phi nodes. -/
def steps (cross : List ValueId) (instrs : List Instr) : List Instr → St → Option (List Instr × St)
  | [], st => some ([], st)
  | i :: is, st =>
    match step cross instrs st i with
    | none => none
    | some (js, st) => (steps cross instrs is st).map fun (ks, st) => (js ++ ks, st)

/-- The returned values (`sroa.rs:1318-1346`), with the types before the new values. -/
def returnValues (types : ValueId → Option MirType) (st : St) : List Value → Option (List Instr × List Value × St)
  | [] => some ([], [], st)
  | v :: vs =>
    match v, st.look v with
    | .Operand id, some elems =>
      match types id with
      | some ty =>
        match materialize st elems ty with
        | none => none
        | some (is, st') => (returnValues types st' vs).map fun (js, ws, st'') => (is ++ js, .Operand st.next :: ws, st'')
      | none => (returnValues types st vs).map fun (js, ws, st') => (js, v :: ws, st')
    | _, _ => (returnValues types st vs).map fun (js, ws, st') => (js, v :: ws, st')

/-- The terminator (`sroa.rs:1306-1346`). -/
def terminator (st : St) : Terminator → Option (List Instr × Terminator × St)
  | .Return vs => (returnValues st.types st vs).map fun (is, vs, st) => (is, .Return vs, st)
  | t => some ([], t, st)

/-- A phi node. -/
def isPhi : Instr → Bool
  | .Phi _ _ _ => true
  | _ => false

/-- A phi node of tuple or struct type (`sroa.rs:771-781`). -/
def isAggPhi (types : ValueId → Option MirType) : Instr → Bool
  | .Phi d _ _ =>
    match types d with
    | some (.Tuple _) | some (.Struct _ _) => true
    | _ => false
  | _ => false

/-- The start of a block (`sroa.rs:796-799`). -/
def start (types : ValueId → Option MirType) (next : ValueId) : St := ⟨types, next, [], false⟩

/-- A block (`sroa.rs:764-1361`): the block and the state after it. -/
def block (cross : List ValueId) (types : ValueId → Option MirType) (next : ValueId) (b : Block) : Option (Block × St) :=
  let phis := b.instrs.takeWhile isPhi
  let body := b.instrs.dropWhile isPhi
  if phis.any (isAggPhi types) then some (b, start types next)
  else
    match steps cross body body (start types next) with
    | none => none
    | some (is, st) =>
      match terminator st b.term with
      | none => none
      | some (js, t, st) => if st.modified then some (⟨phis ++ is ++ js, t⟩, st) else some (b, st)

/-- The blocks in order. -/
def blocks (cross : List ValueId) : (ValueId → Option MirType) → ValueId → List Block →
    Option (List Block × (ValueId → Option MirType) × ValueId)
  | types, next, [] => some ([], types, next)
  | types, next, b :: bs =>
    match block cross types next b with
    | none => none
    | some (b', st) => (blocks cross st.types st.next bs).map fun (bs', types', next') => (b' :: bs', types', next')

/-- `ScalarReplacementOfAggregates::run` (`sroa.rs:756-1375`); `none` is a panic. -/
def sroa (f : Function) : Option Function :=
  (blocks (crossBlock f.types f.blocks) f.types f.nextValue f.blocks).map fun (bs, types, next) =>
    { f with blocks := bs, types := types, nextValue := next }

end Sroa
end Mir
end CairoM
