import Verif.SroaProps
import Verif.Lowering

/-!
# The lowering of scalar functions builds no aggregates

An invariant of the lowering: no instruction emitted so far builds a tuple, a struct or an array.
-/

namespace CairoM
namespace Lower

open Mir Mir.Sroa Lang Source

/-- No instruction emitted so far builds an aggregate. -/
def Plain (st : St) : Prop := ∀ b, ∀ i ∈ (st.blocks b).instrs, buildsNone i = true

/-- The result, if there is one, has the property. -/
def Gives {α : Type} (P : α → Prop) (r : Option α) : Prop := ∀ a, r = some a → P a

theorem Gives.bind {α β : Type} {P : α → Prop} {Q : β → Prop} {r : Option α} {f : α → Option β} (h : Gives P r)
    (hf : ∀ a, P a → Gives Q (f a)) : Gives Q (r >>= f) := by
  intro b hb
  cases r with
  | none => cases hb
  | some a => exact hf a (h a rfl) b hb

theorem Gives.any {α β : Type} {Q : β → Prop} {r : Option α} {f : α → Option β} (hf : ∀ a, Gives Q (f a)) :
    Gives Q (r >>= f) := Gives.bind (P := fun _ => True) (fun _ _ => trivial) fun a _ => hf a

theorem gives_some {α : Type} {P : α → Prop} {a : α} (h : P a) : Gives P (some a) := by
  intro b hb; cases hb; exact h

theorem gives_none {α : Type} {P : α → Prop} : Gives P (none : Option α) := by
  intro b hb; cases hb

variable {st : St}

theorem Plain.newId (h : Plain st) (ty : MirType) : Plain (st.newId ty).2 := h

theorem Plain.modify (h : Plain st) (b : BlockId) (f : BlockS → BlockS)
    (hf : ∀ i ∈ (f (st.blocks b)).instrs, buildsNone i = true) : Plain (st.modify b f) := by
  intro c i hi
  simp only [St.modify] at hi
  by_cases hc : c = b
  · subst hc
    rw [Function.update_self] at hi
    exact hf i hi
  · rw [Function.update_of_ne hc] at hi
    exact h c i hi

theorem Plain.emit (h : Plain st) {i : Instr} (hi : buildsNone i = true) : Plain (st.emit i) := by
  refine h.modify _ _ fun j hj => ?_
  simp only [List.mem_append, List.mem_singleton] at hj
  rcases hj with hj | rfl
  · exact h _ j hj
  · exact hi

theorem Plain.newBlock (h : Plain st) : Plain st.newBlock.2 := by
  intro c i hi
  simp only [St.newBlock] at hi
  by_cases hc : c = st.count
  · subst hc
    rw [Function.update_self] at hi
    simp [BlockS.empty] at hi
  · rw [Function.update_of_ne hc] at hi
    exact h c i hi

theorem Plain.switch (h : Plain st) (b : BlockId) : Plain (st.switch b) := h

theorem Plain.connect (h : Plain st) (a b : BlockId) : Gives Plain (st.connect a b) := by
  unfold St.connect
  split
  · exact gives_some (h.modify _ _ fun i hi => h b i hi)
  · exact gives_none

theorem foldlM_plain {α : Type} {f : St → α → Option St} (hf : ∀ st a, Plain st → Gives Plain (f st a)) :
    ∀ (l : List α) (st : St), Plain st → Gives Plain (l.foldlM f st)
  | [], st, h => gives_some h
  | a :: l, st, h => by
    rw [List.foldlM_cons]
    exact Gives.bind (hf st a h) fun st h => foldlM_plain hf l st h

theorem foldl_disconnect (a : BlockId) : ∀ (l : List BlockId) (st : St), Plain st →
    Plain (l.foldl (fun st b => st.disconnect a b) st)
  | [], _, h => h
  | b :: l, _, h => foldl_disconnect a l _ (h.modify _ _ fun i hi => h b i hi)

theorem Plain.setTerm (h : Plain st) (a : BlockId) (t : Terminator) : Gives Plain (st.setTerm a t) := by
  have h1 := foldl_disconnect a (st.blocks a).term.targets st h
  exact foldlM_plain (fun st b h => h.connect a b) _ _ (h1.modify a _ fun i hi => h1 a i hi)

theorem Plain.terminate (h : Plain st) (t : Terminator) : Gives Plain (st.terminate t) := by
  unfold St.terminate
  split
  · exact gives_none
  · exact h.setTerm _ _

theorem Plain.write (h : Plain st) (v : Var) (b : BlockId) (id : ValueId) : Plain (st.write v b id) := h

theorem Plain.newPhi (h : Plain st) (b : BlockId) (v : Var) : Gives (fun r => Plain r.2) (st.newPhi b v) := by
  unfold St.newPhi
  refine Gives.any fun id => Gives.any fun ty => gives_some ?_
  dsimp only
  refine Plain.modify ?_ b _ ?_
  · exact h
  · exact fun i hi => h b i hi

theorem Plain.setSources (h : Plain st) (b : BlockId) (p : ValueId) (ss : List (BlockId × ValueId)) :
    Plain (st.setSources b p ss) := h.modify _ _ fun i hi => h b i hi

theorem buildsNone_replace (p r : ValueId) (i : Instr) : buildsNone (i.replace p r) = buildsNone i := by
  cases i <;> rfl

theorem Plain.replaceUses (h : Plain st) (p r : ValueId) : Plain (st.replaceUses p r) := by
  intro b i hi
  simp only [St.replaceUses, List.mem_map] at hi
  obtain ⟨j, hj, rfl⟩ := hi
  rw [buildsNone_replace]
  exact h b j hj

theorem Plain.removeTrivial (h : Plain st) (b : BlockId) (p : ValueId) : Plain (st.removeTrivial b p).2 := by
  unfold St.removeTrivial
  split
  · rename_i r _
    have h1 := h.replaceUses p r
    exact Plain.modify (st := st.replaceUses p r) h1 b (fun blk => { blk with phis := blk.phis.filter fun φ => φ.dest ≠ p })
      fun i hi => h1 b i hi
  · exact h

theorem readPreds_plain {rd : BlockId → St → Option (ValueId × St)}
    (hrd : ∀ a st, Plain st → Gives (fun r => Plain r.2) (rd a st)) :
    ∀ (l : List BlockId) (st : St), Plain st → Gives (fun r => Plain r.2) (readPreds rd l st)
  | [], st, h => gives_some h
  | a :: l, st, h => by
    rw [readPreds]
    exact Gives.bind (hrd a st h) fun ⟨x, st⟩ h => Gives.bind (readPreds_plain hrd l st h) fun ⟨xs, st⟩ h => gives_some h

theorem addOperands_plain {rd : BlockId → St → Option (ValueId × St)}
    (hrd : ∀ a st, Plain st → Gives (fun r => Plain r.2) (rd a st)) (b : BlockId) (p : ValueId) (h : Plain st) :
    Gives (fun r => Plain r.2) (addOperands rd b p st) := by
  unfold addOperands
  exact Gives.bind (readPreds_plain hrd _ st h) fun ⟨ss, st⟩ h => gives_some ((Plain.setSources h b p ss).removeTrivial b p)

theorem readVar_plain : ∀ (n : ℕ) (v : Var) (b : BlockId) (st : St), Plain st → Gives (fun r => Plain r.2) (readVar n v b st)
  | 0, _, _, _, _ => gives_none
  | n + 1, v, b, st, h => by
    rw [readVar]
    split
    · exact gives_some h
    · split
      · split
        · exact Gives.bind (readVar_plain n v _ st h) fun ⟨id, st⟩ h => gives_some h
        · exact Gives.bind (h.newPhi b v) fun ⟨p, st⟩ h =>
            Gives.bind (addOperands_plain (readVar_plain n v) b p (Plain.write h v b p)) fun ⟨id, st⟩ h => gives_some h
      · exact Gives.bind (h.newPhi b v) fun ⟨p, st⟩ h => gives_some h

theorem completePhis_plain (n : ℕ) (b : BlockId) : ∀ (l : List (Var × ValueId)) (st : St), Plain st →
    Gives Plain (completePhis n b l st)
  | [], st, h => gives_some h
  | (v, p) :: l, st, h => by
    rw [completePhis]
    refine Gives.bind (addOperands_plain (readVar_plain n v) b p h) fun ⟨r, st⟩ h => ?_
    refine completePhis_plain n b l _ ?_
    split
    · exact h
    · exact h

theorem Plain.seal (h : Plain st) (o : Opts) (b : BlockId) : Gives Plain (st.seal o b) := completePhis_plain _ b _ _ h

theorem Plain.define (h : Plain st) (ty : MirType) {mk : ValueId → Instr} (hm : ∀ d, buildsNone (mk d) = true) :
    Plain (st.define ty mk).2 := Plain.emit (st := (st.newId ty).2) h (hm _)

theorem Plain.newIds : ∀ (l : List MirType) {st : St}, Plain st → Plain (st.newIds l).2
  | [], _, h => h
  | ty :: tys, st, h => Plain.newIds tys (st := (st.newId ty).2) h

mutual
theorem lowerExpr_plain (o : Opts) (S : Sem) : ∀ (e : Expr) (st : St), Plain st → Gives (fun r => Plain r.2) (lowerExpr o S e st)
  | .int _ _, _, h => by rw [lowerExpr]; exact gives_some h
  | .bool _, _, h => by rw [lowerExpr]; exact gives_some h
  | .var x, st, h => by
    rw [lowerExpr]; exact Gives.bind (readVar_plain _ x _ st h) fun ⟨_, _⟩ h => gives_some h
  | .un op e, st, h => by
    rw [lowerExpr]
    exact Gives.any fun t => Gives.bind (lowerExpr_plain o S e st h) fun ⟨x, st⟩ h =>
      gives_some (Plain.emit (Plain.newId h _) rfl)
  | .bin op l r, st, h => by
    rw [lowerExpr]
    exact Gives.any fun t => Gives.any fun tl => Gives.bind (lowerExpr_plain o S l st h) fun ⟨x, st⟩ h =>
      Gives.bind (lowerExpr_plain o S r st h) fun ⟨y, st⟩ h => Gives.any fun op' => gives_some (Plain.emit (Plain.newId h _) rfl)
  | .call f args, st, h => by
    rw [lowerExpr]
    exact Gives.any fun t => Gives.any fun ⟨ps, rs⟩ => Gives.bind (lowerArgs_plain o S args st h) fun ⟨x, st⟩ h =>
      gives_some (Plain.emit (Plain.newId h _) rfl)
  | .cast e t, st, h => by
    rw [lowerExpr]
    exact Gives.any fun s => Gives.bind (lowerExpr_plain o S e st h) fun ⟨x, st⟩ h =>
      gives_some (Plain.emit (Plain.newId h _) rfl)
theorem lowerArgs_plain (o : Opts) (S : Sem) : ∀ (es : List Expr) (st : St), Plain st →
    Gives (fun r => Plain r.2) (lowerArgs o S es st)
  | [], _, h => by rw [lowerArgs]; exact gives_some h
  | e :: es, st, h => by
    rw [lowerArgs]
    exact Gives.bind (lowerExpr_plain o S e st h) fun ⟨x, st⟩ h => Gives.bind (lowerArgs_plain o S es st h) fun ⟨xs, st⟩ h =>
      gives_some h
end

theorem Plain.bindVar (h : Plain st) (S : Sem) (x : Var) (v : Value) : Gives Plain (st.bindVar S x v) := by
  cases v with
  | Operand id => exact gives_some h
  | Literal l => exact gives_some (Plain.emit (Plain.newId h _) rfl)
  | Error => exact gives_none

theorem Plain.joins (h : Plain st) (bs : List BlockId) (m : BlockId) : Gives Plain (st.joins bs m) :=
  foldlM_plain (fun _ b h => h.setTerm b _) bs st h

theorem Plain.jumpIfOpen (h : Plain st) (b : BlockId) : Gives Plain (st.jumpIfOpen b) := by
  unfold St.jumpIfOpen
  split
  · exact gives_some h
  · exact h.terminate _

mutual
theorem lowerStmt_plain (o : Opts) (S : Sem) : ∀ (s : Stmt) (st : St), Plain st → Gives Plain (lowerStmt o S s st)
  | .letS x e, st, h => by
    rw [lowerStmt]; exact Gives.bind (lowerExpr_plain o S e st h) fun ⟨v, st⟩ h => Plain.bindVar h S x v
  | .assign x e, st, h => by
    rw [lowerStmt]; exact Gives.bind (lowerExpr_plain o S e st h) fun ⟨v, st⟩ h => Plain.bindVar h S x v
  | .ret, st, h => by rw [lowerStmt]; exact h.terminate _
  | .retE e, st, h => by
    rw [lowerStmt]; exact Gives.bind (lowerExpr_plain o S e st h) fun ⟨v, st⟩ h => Plain.terminate h _
  | .expr e, st, h => by
    rw [lowerStmt]; exact Gives.bind (lowerExpr_plain o S e st h) fun ⟨v, st⟩ h => gives_some h
  | .call f args, st, h => by
    rw [lowerStmt]
    exact Gives.any fun ⟨ps, rs⟩ => Gives.bind (lowerArgs_plain o S args st h) fun ⟨x, st⟩ h =>
      gives_some (Plain.emit (Plain.newIds _ h) rfl)
  | .assert e, st, h => by
    rw [lowerStmt]
    exact Gives.bind (lowerExpr_plain o S e st h) fun ⟨v, st⟩ h => gives_some (Plain.emit h rfl)
  | .ifElse c t e, st, h => by
    rw [lowerStmt]
    refine Gives.bind (lowerExpr_plain o S c st h) fun ⟨v, st⟩ h => ?_
    refine Gives.bind (Plain.terminate (Plain.newBlock (Plain.newBlock h)) _) fun st h => ?_
    refine Gives.bind (h.seal o _) fun st h => Gives.bind (h.seal o _) fun st h => ?_
    refine Gives.bind (lowerStmt_plain o S t _ (h.switch _)) fun st h => ?_
    refine Gives.bind (lowerStmt_plain o S e _ (h.switch _)) fun st h => ?_
    dsimp only
    split
    · exact gives_some h
    · exact Gives.bind (Plain.joins (Plain.newBlock h) _ _) fun st h => Gives.bind (h.seal o _) fun st h => gives_some (h.switch _)
  | .ifThen c t, st, h => by
    rw [lowerStmt]
    refine Gives.bind (lowerExpr_plain o S c st h) fun ⟨v, st⟩ h => ?_
    refine Gives.bind (Plain.terminate (Plain.newBlock (Plain.newBlock h)) _) fun st h => ?_
    refine Gives.bind (h.seal o _) fun st h => Gives.bind (h.seal o _) fun st h => ?_
    exact Gives.bind (lowerStmt_plain o S t _ (h.switch _)) fun st h => Plain.joins (h.switch _) _ _
  | .block ss, st, h => by rw [lowerStmt]; exact lowerStmts_plain o S ss st h
  | .while c body, st, h => by
    rw [lowerStmt]
    refine Gives.bind (Plain.terminate (Plain.newBlock (Plain.newBlock (Plain.newBlock h))) _) fun st h => ?_
    refine Gives.bind (lowerExpr_plain o S c _ h) fun ⟨v, st⟩ h => ?_
    refine Gives.bind (Plain.terminate h _) fun st h => ?_
    refine Gives.bind (h.seal o _) fun st h => Gives.bind (h.seal o _) fun st h => ?_
    refine Gives.bind (lowerStmt_plain o S body _ (h.switch _)) fun st h => ?_
    exact Gives.bind (h.jumpIfOpen _) fun st h => Gives.bind (h.seal o _) fun st h => gives_some h
  | .loop body, st, h => by
    rw [lowerStmt]
    refine Gives.bind (Plain.terminate (Plain.newBlock (Plain.newBlock h)) _) fun st h => ?_
    refine Gives.bind (h.seal o _) fun st h => ?_
    refine Gives.bind (lowerStmt_plain o S body _ h) fun st h => ?_
    exact Gives.bind (h.jumpIfOpen _) fun st h => Gives.bind (h.seal o _) fun st h => gives_some h
  | .for init c step body, st, h => by
    rw [lowerStmt]
    refine Gives.bind (lowerStmt_plain o S init st h) fun st h => ?_
    split
    · exact gives_some h
    · refine Gives.bind (Plain.terminate (Plain.newBlock (Plain.newBlock (Plain.newBlock (Plain.newBlock h)))) _) fun st h => ?_
      refine Gives.bind (lowerExpr_plain o S c _ h) fun ⟨v, st⟩ h => ?_
      refine Gives.bind (Plain.terminate h _) fun st h => ?_
      refine Gives.bind (h.seal o _) fun st h => Gives.bind (h.seal o _) fun st h => ?_
      refine Gives.bind (lowerStmt_plain o S body _ (h.switch _)) fun st h => ?_
      refine Gives.bind (h.jumpIfOpen _) fun st h => Gives.bind (h.seal o _) fun st h => ?_
      refine Gives.bind (lowerStmt_plain o S step _ (h.switch _)) fun st h => ?_
      exact Gives.bind (h.jumpIfOpen _) fun st h => Gives.bind (h.seal o _) fun st h => gives_some h
  | .break, st, h => by rw [lowerStmt]; exact Gives.any fun l => h.terminate _
  | .continue, st, h => by rw [lowerStmt]; exact Gives.any fun l => h.terminate _
theorem lowerStmts_plain (o : Opts) (S : Sem) : ∀ (ss : List Stmt) (st : St), Plain st → Gives Plain (lowerStmts o S ss st)
  | [], st, h => by rw [lowerStmts]; exact gives_some h
  | s :: ss, st, h => by
    rw [lowerStmts]
    refine Gives.bind (lowerStmt_plain o S s st h) fun st h => ?_
    split
    · exact gives_some h
    · exact lowerStmts_plain o S ss st h
end

theorem lowerParams_plain (S : Sem) : ∀ (xs : List Var) (st : St), Plain st → Plain (lowerParams S xs st).2
  | [], _, h => h
  | x :: xs, st, h => lowerParams_plain S xs _ (Plain.write (st := (st.newId (mirTy (S.varTy x))).2) h x _ _)

/-- Lowered functions build no aggregates. -/
theorem lowerFn_plain (o : Opts) (S : Sem) (name : Name) (f : Fn) (F : Function) (h : lowerFn o S name f = some F) :
    F.blocks.all (fun b => b.instrs.all buildsNone) = true := by
  have h0 : Plain St.initial := by intro b i hi; simp [St.initial, BlockS.empty] at hi
  have : Gives (fun F : Function => F.blocks.all (fun b => b.instrs.all buildsNone) = true) (lowerFn o S name f) := by
    unfold lowerFn
    refine Gives.bind (Plain.seal (lowerParams_plain S f.params _ h0) o 0) fun st h => ?_
    refine Gives.bind (lowerStmts_plain o S f.body st h) fun st h => gives_some ?_
    have h1 := Plain.newIds (f.rets.map mirTy) h
    simp only [List.all_eq_true, List.mem_map]
    rintro b ⟨k, -, rfl⟩ i hi
    simp only [BlockS.done, List.mem_append, List.mem_map] at hi
    rcases hi with ⟨φ, -, rfl⟩ | hi
    · rfl
    · exact h1 k i hi
  exact this F h

end Lower
end CairoM
