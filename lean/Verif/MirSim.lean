import Verif.MirSem
import Verif.MirPasses
import Mathlib.Tactic.Common

/-!
# Simulation between functions of the mid-level representation

Helper lemmas: an execution only depends on the values it reads, and block-wise simulations lift to executions.
-/

namespace CairoM
namespace Lang

open Mir

/-- Both fail, or both succeed with related results. -/
def OptRel {α β : Type} (R : α → β → Prop) : Option α → Option β → Prop
  | some a, some b => R a b
  | none, none => True
  | _, _ => False

/-- If the first succeeds so does the second, with a related result. -/
def OptFwd {α β : Type} (R : α → β → Prop) : Option α → Option β → Prop
  | some a, some b => R a b
  | none, _ => True
  | some _, none => False

theorem OptRel.fwd {α β : Type} {R : α → β → Prop} {a : Option α} {b : Option β} (h : OptRel R a b) :
    OptFwd R a b := by
  cases a <;> cases b <;> simp_all [OptRel, OptFwd]

theorem OptRel.bind {α β γ δ : Type} {R : α → β → Prop} {S : γ → δ → Prop} {a : Option α} {b : Option β}
    {k : α → Option γ} {l : β → Option δ} (h : OptRel R a b) (hk : ∀ x y, R x y → OptRel S (k x) (l y)) :
    OptRel S (a.bind k) (b.bind l) := by
  cases a <;> cases b <;> simp_all [OptRel]

theorem OptFwd.bind {α β γ δ : Type} {R : α → β → Prop} {S : γ → δ → Prop} {a : Option α} {b : Option β}
    {k : α → Option γ} {l : β → Option δ} (h : OptFwd R a b) (hk : ∀ x y, R x y → OptFwd S (k x) (l y)) :
    OptFwd S (a.bind k) (b.bind l) := by
  cases a <;> cases b <;> simp_all [OptFwd]

theorem OptRel.mono {α β : Type} {R S : α → β → Prop} {a : Option α} {b : Option β} (h : OptRel R a b)
    (hk : ∀ x y, R x y → S x y) : OptRel S a b := by
  cases a <;> cases b <;> simp_all [OptRel]

theorem OptFwd.mono {α β : Type} {R S : α → β → Prop} {a : Option α} {b : Option β} (h : OptFwd R a b)
    (hk : ∀ x y, R x y → S x y) : OptFwd S a b := by
  cases a <;> cases b <;> simp_all [OptFwd]

theorem OptRel.of_eq {α : Type} {a b : Option α} (h : a = b) : OptRel Eq a b := by
  subst h; cases a <;> simp [OptRel]

theorem OptRel.same {α : Type} {a : Option α} : OptRel Eq a a := OptRel.of_eq rfl

theorem OptFwd.same {α : Type} {a : Option α} : OptFwd Eq a a := OptRel.same.fwd

/-- Two environments agree on a set of names. -/
def Agree (S : ValueId → Prop) (env env' : Env) : Prop := ∀ v, S v → env v = env' v

theorem Agree.refl {S : ValueId → Prop} {env : Env} : Agree S env env := fun _ _ => rfl

theorem Agree.trans {S : ValueId → Prop} {a b c : Env} (h : Agree S a b) (h' : Agree S b c) : Agree S a c :=
  fun v hv => (h v hv).trans (h' v hv)

theorem Agree.symm {S : ValueId → Prop} {a b : Env} (h : Agree S a b) : Agree S b a :=
  fun v hv => (h v hv).symm

theorem Agree.mono {S T : ValueId → Prop} {a b : Env} (h : Agree S a b) (hs : ∀ v, T v → S v) : Agree T a b :=
  fun v hv => h v (hs v hv)

theorem Agree.update {S : ValueId → Prop} {a b : Env} (h : Agree S a b) (d : ValueId) (x : Option Val) :
    Agree S (Function.update a d x) (Function.update b d x) := by
  intro v hv
  by_cases hd : v = d
  · subst hd; simp
  · simp [Function.update_of_ne hd, h v hv]

theorem Agree.update_left {S : ValueId → Prop} {a b : Env} (h : Agree S a b) {d : ValueId} (hd : ¬ S d)
    (x : Option Val) : Agree S (Function.update a d x) b := by
  intro v hv
  rw [Function.update_of_ne (by rintro rfl; exact hd hv), h v hv]

variable {S : ValueId → Prop} {a b : Env} {calls : Calls}

theorem readAt_agree (h : Agree S a b) {t : Ty} {v : Value} (hv : ∀ x ∈ v.ids, S x) : readAt a t v = readAt b t v := by
  cases v with
  | Operand v => exact h v (hv v (by simp [Value.ids]))
  | _ => rfl

theorem operand_agree (h : Agree S a b) {op : BinaryOp} {v : Value} (hv : ∀ x ∈ v.ids, S x) :
    operand a op v = operand b op v := by
  cases v with
  | Operand v => exact h v (hv v (by simp [Value.ids]))
  | _ => rfl

theorem readPlain_agree (h : Agree S a b) {v : Value} (hv : ∀ x ∈ v.ids, S x) : readPlain a v = readPlain b v := by
  cases v with
  | Operand v => exact h v (hv v (by simp [Value.ids]))
  | _ => rfl

theorem readAll_agree (h : Agree S a b) {ts : List (Option MirType)} {vs : List Value}
    (hv : ∀ x ∈ valuesIds vs, S x) : readAll a ts vs = readAll b ts vs := by
  induction vs generalizing ts with
  | nil => cases ts <;> rfl
  | cons v vs ih =>
    cases ts with
    | nil => rfl
    | cons t ts =>
      simp only [readAll]
      rw [ih (fun x hx => hv x (by simp only [valuesIds, List.flatMap_cons, List.mem_append]; exact Or.inr hx))]
      congr 1; funext t'
      rw [readAt_agree h (fun x hx => hv x (by simp only [valuesIds, List.flatMap_cons, List.mem_append]; exact Or.inl hx))]

theorem bind_agree (h : Agree S a b) {ds : List ValueId} {xs : List Val} :
    OptRel (Agree S) (bind a ds xs) (bind b ds xs) := by
  induction ds generalizing a b xs with
  | nil => cases xs <;> simp [bind, OptRel, h]
  | cons d ds ih =>
    cases xs with
    | nil => simp [bind, OptRel]
    | cons x xs => exact ih (h.update _ _)

theorem update_agree {o : Option Val} (h : Agree S a b) (d : ValueId) :
    OptRel (Agree S) (o.bind fun x => some (Function.update a d (some x)))
      (o.bind fun x => some (Function.update b d (some x))) := by
  cases o with
  | none => trivial
  | some x => exact h.update d (some x)

theorem evalInstr_agree (h : Agree S a b) {i : Instr} (hu : ∀ v ∈ i.uses, S v) :
    OptRel (Agree S) (evalInstr calls i a) (evalInstr calls i b) := by
  cases i with
  | Assign d v ty =>
    simp only [evalInstr, Option.bind_eq_bind]
    rw [Option.bind_congr' rfl (fun t _ => by rw [readAt_agree (t := t) h hu])]
    cases scalarTy ty with
    | none => trivial
    | some t => exact update_agree h d
  | UnaryOp op d v =>
    simp only [evalInstr, Option.bind_eq_bind]
    rw [readPlain_agree h hu]
    cases readPlain b v with
    | none => trivial
    | some x => exact update_agree h d
  | BinaryOp op d l r =>
    simp only [evalInstr, Option.bind_eq_bind]
    rw [operand_agree h (fun x hx => hu x (by simp [Instr.uses, hx])),
      operand_agree h (v := r) (fun x hx => hu x (by simp [Instr.uses, hx]))]
    cases operand b op l with
    | none => trivial
    | some x =>
      cases operand b op r with
      | none => trivial
      | some y => exact update_agree h d
  | Call ds c args sig =>
    simp only [evalInstr, Option.bind_eq_bind]
    rw [readAll_agree h hu]
    cases readAll b (sig.params.map some) args with
    | none => trivial
    | some xs =>
      simp only [Option.bind_some]
      cases calls c xs with
      | none => trivial
      | some ys => exact bind_agree h
  | Cast d v s t =>
    simp only [evalInstr, Option.bind_eq_bind]
    cases scalarTy s with
    | none => trivial
    | some s =>
      cases scalarTy t with
      | none => trivial
      | some t =>
        simp only [Option.bind_some]
        rw [readAt_agree h hu]
        cases readAt b s v with
        | none => trivial
        | some x => exact update_agree h d
  | AssertEq l r =>
    simp only [evalInstr, Option.bind_eq_bind]
    rw [readPlain_agree h (fun x hx => hu x (by simp [Instr.uses, hx])),
      readPlain_agree h (v := r) (fun x hx => hu x (by simp [Instr.uses, hx]))]
    cases readPlain b l with
    | none => trivial
    | some x =>
      cases readPlain b r with
      | none => trivial
      | some y =>
        simp only [Option.bind_some]
        split_ifs
        · exact h
        · trivial
  | Debug _ => exact h
  | Nop => exact h
  | _ => trivial

theorem evalInstrs_agree (h : Agree S a b) {is : List Instr} (hu : ∀ i ∈ is, ∀ v ∈ i.uses, S v) :
    OptRel (Agree S) (evalInstrs calls is a) (evalInstrs calls is b) := by
  induction is generalizing a b with
  | nil => exact h
  | cons i is ih =>
    exact (evalInstr_agree h (hu i (by simp))).bind fun x y hxy => ih hxy (fun j hj => hu j (by simp [hj]))

theorem evalInstrs_append {is js : List Instr} {env : Env} :
    evalInstrs calls (is ++ js) env = (evalInstrs calls is env).bind (evalInstrs calls js) := by
  induction is generalizing env with
  | nil => rfl
  | cons i is ih =>
    simp only [List.cons_append, evalInstrs, Option.bind_eq_bind, Option.bind_assoc]
    congr 1; funext e; exact ih

theorem mem_lookup {α β : Type} [BEq α] [LawfulBEq α] {l : List (α × β)} {k : α} {v : β} (h : l.lookup k = some v) :
    (k, v) ∈ l := by
  induction l with
  | nil => simp at h
  | cons p l ih =>
    obtain ⟨x, y⟩ := p
    simp only [List.lookup_cons] at h
    split at h
    · rename_i hk; simp only [Option.some.injEq] at h; subst h
      have : k = x := by simpa using hk
      subst this; simp
    · exact List.mem_cons_of_mem _ (ih h)

theorem phiValue_agree (h : Agree S a b) {p : BlockId} {ty : MirType} {ss : List (BlockId × Value)}
    (hu : ∀ v ∈ valuesIds (ss.map Prod.snd), S v) : phiValue a p ty ss = phiValue b p ty ss := by
  unfold phiValue
  cases scalarTy ty with
  | none => rfl
  | some t =>
    simp only [Option.bind_eq_bind, Option.bind_some]
    cases hl : ss.lookup p with
    | none => rfl
    | some v =>
      simp only [Option.bind_some]
      refine readAt_agree h fun x hx => hu x ?_
      simp only [valuesIds, List.mem_flatMap, List.mem_map]
      exact ⟨v, ⟨(p, v), mem_lookup hl, rfl⟩, hx⟩

/-- Related results of the phi nodes: the environments agree and the remaining instructions are the same, taken
from the block. -/
def PhiRel (S : ValueId → Prop) (is : List Instr) (x y : Env × List Instr) : Prop :=
  Agree S x.1 y.1 ∧ x.2 = y.2 ∧ ∀ i ∈ x.2, i ∈ is

theorem evalPhis_agree {a' b' : Env} (h : Agree S a b) (h' : Agree S a' b') {p : Option BlockId} {is : List Instr}
    (hu : ∀ i ∈ is, ∀ v ∈ i.uses, S v) :
    OptRel (PhiRel S is) (evalPhis a p is a') (evalPhis b p is b') := by
  induction is generalizing a' b' with
  | nil => exact ⟨h', rfl, by simp⟩
  | cons i is ih =>
    cases i with
    | Phi d ty ss =>
      simp only [evalPhis, Option.bind_eq_bind]
      cases p with
      | none => trivial
      | some p =>
        simp only [Option.bind_some]
        rw [phiValue_agree h (ss := ss) (hu (.Phi d ty ss) (by simp))]
        cases phiValue b p ty ss with
        | none => trivial
        | some x =>
          simp only [Option.bind_some]
          refine (ih (h'.update d (some x)) (fun j hj => hu j (by simp [hj]))).mono ?_
          rintro x y ⟨h1, h2, h3⟩
          exact ⟨h1, h2, fun i hi => List.mem_cons_of_mem _ (h3 i hi)⟩
    | _ => exact ⟨h', rfl, fun i hi => hi⟩

theorem evalTerm_agree (h : Agree S a b) {ts : List (Option MirType)} {t : Terminator} (hu : ∀ v ∈ t.uses, S v) :
    evalTerm ts a t = evalTerm ts b t := by
  cases t with
  | If c x y => simp only [evalTerm]; rw [readPlain_agree h hu]
  | BranchCmp op l r x y =>
    simp only [evalTerm]
    rw [operand_agree h (fun x hx => hu x (by simp [Terminator.uses, hx])),
      operand_agree h (v := r) (fun x hx => hu x (by simp [Terminator.uses, hx]))]
  | Return vs => simp only [evalTerm]; rw [readAll_agree h hu]
  | _ => rfl

/-- Related results of blocks: same exit, related environments. -/
def ExitRel (R : Env → Env → Prop) (x y : Exit × Env) : Prop := x.1 = y.1 ∧ R x.2 y.2

theorem evalBlock_agree (h : Agree S a b) {ts : List (Option MirType)} {blk : Block} {p : Option BlockId}
    (hu : ∀ i ∈ blk.instrs, ∀ v ∈ i.uses, S v) (ht : ∀ v ∈ blk.term.uses, S v) :
    OptRel (ExitRel (Agree S)) (evalBlock calls ts blk p a) (evalBlock calls ts blk p b) := by
  refine (evalPhis_agree h h hu).bind ?_
  rintro ⟨e, is⟩ ⟨e', is'⟩ ⟨h1, h2, h3⟩
  simp only at h1 h2 h3
  subst h2
  refine (evalInstrs_agree h1 (fun i hi => hu i (h3 i hi))).bind ?_
  intro x y hxy
  rw [evalTerm_agree hxy ht]
  cases evalTerm ts y blk.term with
  | none => trivial
  | some z => exact ⟨rfl, hxy⟩

/-- A block-wise simulation that also preserves faults lifts to executions. -/
theorem exec_rel {f g : Function} {R : Env → Env → Prop}
    (hb : ∀ id : ℕ, OptRel (fun b b' => ∀ p e e', R e e' →
      OptRel (ExitRel R) (evalBlock calls (returnTys f) b p e) (evalBlock calls (returnTys g) b' p e'))
      f.blocks[id]? g.blocks[id]?)
    (n : ℕ) (p : Option BlockId) (id : BlockId) {e e' : Env} (h : R e e') :
    exec calls f n p id e = exec calls g n p id e' := by
  induction n generalizing p id e e' with
  | zero => rfl
  | succ n ih =>
    simp only [exec]
    have hid := hb id
    cases hf : f.blocks[id]? with
    | none =>
      cases hg : g.blocks[id]? with
      | none => rfl
      | some b' => rw [hf, hg] at hid; exact hid.elim
    | some b =>
      cases hg : g.blocks[id]? with
      | none => rw [hf, hg] at hid; exact hid.elim
      | some b' =>
        rw [hf, hg] at hid
        have := hid p e e' h
        simp only
        cases h1 : evalBlock calls (returnTys f) b p e with
        | none =>
          cases h2 : evalBlock calls (returnTys g) b' p e' with
          | none => rfl
          | some y => rw [h1, h2] at this; exact this.elim
        | some x =>
          cases h2 : evalBlock calls (returnTys g) b' p e' with
          | none => rw [h1, h2] at this; exact this.elim
          | some y =>
            rw [h1, h2] at this
            obtain ⟨x1, x2⟩ := x
            obtain ⟨y1, y2⟩ := y
            obtain ⟨h3, h4⟩ := this
            simp only at h3 h4
            subst h3
            cases x1 with
            | ret vs => rfl
            | goto t => exact ih _ _ h4

/-- A block-wise simulation of the steps that do not fault lifts to executions that do not fault. -/
theorem exec_fwd {f g : Function} {R : Env → Env → Prop}
    (hb : ∀ id : ℕ, OptFwd (fun b b' => ∀ p e e', R e e' →
      OptFwd (ExitRel R) (evalBlock calls (returnTys f) b p e) (evalBlock calls (returnTys g) b' p e'))
      f.blocks[id]? g.blocks[id]?)
    (n : ℕ) (p : Option BlockId) (id : BlockId) {e e' : Env} (h : R e e')
    (hf : exec calls f n p id e ≠ .fault) : exec calls f n p id e = exec calls g n p id e' := by
  induction n generalizing p id e e' with
  | zero => rfl
  | succ n ih =>
    simp only [exec] at hf ⊢
    have hid := hb id
    cases hf1 : f.blocks[id]? with
    | none => rw [hf1] at hf; exact absurd rfl hf
    | some b =>
      cases hg : g.blocks[id]? with
      | none => rw [hf1, hg] at hid; exact hid.elim
      | some b' =>
        rw [hf1, hg] at hid
        rw [hf1] at hf
        have := hid p e e' h
        simp only at hf ⊢
        cases h1 : evalBlock calls (returnTys f) b p e with
        | none => rw [h1] at hf; exact absurd rfl hf
        | some x =>
          cases h2 : evalBlock calls (returnTys g) b' p e' with
          | none => rw [h1, h2] at this; exact this.elim
          | some y =>
            rw [h1, h2] at this
            rw [h1] at hf
            obtain ⟨x1, x2⟩ := x
            obtain ⟨y1, y2⟩ := y
            obtain ⟨h3, h4⟩ := this
            simp only at h3 h4
            subst h3
            cases x1 with
            | ret vs => rfl
            | goto t => exact ih _ _ h4 hf

end Lang
end CairoM
