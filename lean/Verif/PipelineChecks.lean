import Verif.CopyProps
import Verif.MirBranchProps
import Verif.MirFoldProps
import Verif.PhiElimLemmas
import Verif.PhiProps
import Verif.ProgramSpec
import Verif.LegalizeProps
import Verif.ProgramUnits

/-!
# Decidable conditions of the passes

The theorems on the passes and on the code generator have conditions on the function they work on: typing, static
single assignment form, liveness. Here each condition gets a check that can be evaluated, with the proof that the
condition holds when the check succeeds. The sets of available and live names are computed, but nothing is assumed
about how: the checks verify them.
-/

namespace CairoM
namespace Lang

open Mir

/-! ### Typing -/

/-- The type is the given scalar type. -/
def isTy (o : Option MirType) (t : MirType) : Bool :=
  match o with
  | some u => (scalarTy u).isSome && decide (scalarTy u = scalarTy t)
  | none => false

theorem scalarTy_injective {t u : MirType} {a : Ty} (h : scalarTy t = some a) (h' : scalarTy u = some a) : t = u := by
  cases t <;> simp only [scalarTy, Option.some.injEq, reduceCtorEq] at h <;> subst h <;>
    cases u <;> simp [scalarTy] at h' <;> rfl

theorem isTy_sound {o : Option MirType} {t : MirType} (h : isTy o t = true) : o = some t := by
  cases o with
  | none => cases h
  | some u =>
    simp only [isTy, Bool.and_eq_true, decide_eq_true_eq, Option.isSome_iff_exists] at h
    obtain ⟨⟨a, ha⟩, h⟩ := h
    rw [scalarTy_injective ha (h ▸ ha)]

/-- The types are the given scalar types. -/
def areTys : List (Option MirType) → List MirType → Bool
  | [], [] => true
  | o :: os, t :: ts => isTy o t && areTys os ts
  | _, _ => false

theorem areTys_sound : ∀ {os : List (Option MirType)} {ts : List MirType}, areTys os ts = true → os = ts.map some
  | [], [], _ => rfl
  | o :: os, t :: ts, h => by
    simp only [areTys, Bool.and_eq_true] at h
    rw [isTy_sound h.1, areTys_sound h.2]; rfl
  | [], _ :: _, h => by cases h
  | _ :: _, [], h => by cases h

def literalB (l : Literal) (t : MirType) : Bool :=
  match scalarTy t with
  | some ty => (denote ty l).isSome && (decide (ty ≠ .felt) || decide (Canon l))
  | none => false

theorem literalB_sound {l : Literal} {t : MirType} (h : literalB l t = true) : LiteralTy l t := by
  unfold literalB at h
  split at h
  · rename_i ty hty
    simp only [Bool.and_eq_true, Bool.or_eq_true, decide_eq_true_eq, Option.isSome_iff_exists] at h
    obtain ⟨⟨x, hx⟩, h2⟩ := h
    refine ⟨ty, x, hty, hx, fun hf => ?_⟩
    rcases h2 with h2 | h2
    · exact absurd hf h2
    · exact h2
  · cases h

def hasTypeB (types : ValueId → Option MirType) (v : Value) (t : MirType) : Bool :=
  match v with
  | .Literal l => literalB l t
  | .Operand v => isTy (types v) t
  | .Error => false

theorem hasTypeB_sound {types : ValueId → Option MirType} {v : Value} {t : MirType} (h : hasTypeB types v t = true) :
    HasType types v t := by
  cases v with
  | Literal l => exact literalB_sound h
  | Operand v => exact isTy_sound h
  | Error => cases h

def literalOkB (op : BinaryOp) : Value → Bool
  | .Literal l => decide (literalTy op l ≠ .felt) || decide (Canon l)
  | _ => true

theorem literalOkB_sound {op : BinaryOp} {v : Value} (h : literalOkB op v = true) : LiteralOk op v := by
  cases v with
  | Literal l =>
    simp only [literalOkB, Bool.or_eq_true, decide_eq_true_eq] at h
    intro hf
    rcases h with h | h
    · exact absurd hf h
    · exact h
  | _ => trivial

/-- The operands of a list have the types of another. -/
def allTypedB (types : ValueId → Option MirType) : List Value → List MirType → Bool
  | [], [] => true
  | v :: vs, t :: ts => hasTypeB types v t && allTypedB types vs ts
  | _, _ => false

theorem allTypedB_sound {types : ValueId → Option MirType} : ∀ {vs : List Value} {ts : List MirType},
    allTypedB types vs ts = true → List.Forall₂ (HasType types) vs ts
  | [], [], _ => .nil
  | v :: vs, t :: ts, h => by
    simp only [allTypedB, Bool.and_eq_true] at h
    exact .cons (hasTypeB_sound h.1) (allTypedB_sound h.2)
  | [], _ :: _, h => by cases h
  | _ :: _, [], h => by cases h

def instrB (types : ValueId → Option MirType) : Instr → Bool
  | .Assign d v ty => isTy (types d) ty && hasTypeB types v ty
  | .UnaryOp op d v => isTy (types d) (unaryTy op) && hasTypeB types v (unaryTy op)
  | .BinaryOp op d l r => isTy (types d) (resultType op) && (literalOkB op l && literalOkB op r)
  | .Call ds _ args sig => areTys (ds.map types) sig.returns && allTypedB types args sig.params
  | .Cast d v s t => isTy (types d) t && hasTypeB types v s
  | .Phi d ty ss => isTy (types d) ty && ss.all fun s => hasTypeB types s.2 ty
  | _ => true

theorem instrB_sound {types : ValueId → Option MirType} {i : Instr} (h : instrB types i = true) :
    InstrTyped types i := by
  cases i <;> simp only [instrB, Bool.and_eq_true, List.all_eq_true] at h <;>
    simp only [InstrTyped]
  case Assign => exact ⟨isTy_sound h.1, hasTypeB_sound h.2⟩
  case UnaryOp => exact ⟨isTy_sound h.1, hasTypeB_sound h.2⟩
  case BinaryOp => exact ⟨isTy_sound h.1, literalOkB_sound h.2.1, literalOkB_sound h.2.2⟩
  case Call => exact ⟨areTys_sound h.1, allTypedB_sound h.2⟩
  case Cast => exact ⟨isTy_sound h.1, hasTypeB_sound h.2⟩
  case Phi => exact ⟨isTy_sound h.1, fun s hs => hasTypeB_sound (h.2 s hs)⟩

def typedB (f : Function) : Bool := f.blocks.all fun b => b.instrs.all (instrB f.types)

theorem typedB_sound {f : Function} (h : typedB f = true) : FunctionTyped f := by
  simp only [typedB, List.all_eq_true] at h
  exact fun b hb i hi => instrB_sound (h b hb i hi)

/-! ### Conditions of the simplifications -/

def simplifiableB : Instr → Bool
  | .BinaryOp op _ l r =>
    (match l with
      | .Literal (.Integer n) =>
        (decide (op ≠ .Sub ∧ op ≠ .U32Sub) || decide (n ≠ 0)) && (decide (op ≠ .Div ∧ op ≠ .U32Div) || decide (n ≠ 1))
      | _ => true) &&
    (decide (op ≠ .Eq ∧ op ≠ .Neq) ||
      ((match l with | .Literal a => decide (Canon a) | _ => true) &&
        (match r with | .Literal a => decide (Canon a) | _ => true)))
  | _ => true

theorem simplifiableB_sound {op : BinaryOp} {d : ValueId} {l r : Value} (h : simplifiableB (.BinaryOp op d l r) = true) :
    Simplifiable op l r := by
  simp only [simplifiableB, Bool.and_eq_true, Bool.or_eq_true, decide_eq_true_eq] at h
  obtain ⟨h1, h2⟩ := h
  constructor
  · rintro n rfl
    simp only [Bool.and_eq_true, Bool.or_eq_true, decide_eq_true_eq] at h1
    refine ⟨fun ho => ?_, fun ho => ?_⟩
    · rcases h1.1 with h | h
      · rcases ho with ho | ho
        · exact absurd ho h.1
        · exact absurd ho h.2
      · exact h
    · rcases h1.2 with h | h
      · rcases ho with ho | ho
        · exact absurd ho h.1
        · exact absurd ho h.2
      · exact h
  · intro a ho ha
    rcases h2 with h | ⟨ha', hb'⟩
    · rcases ho with ho | ho
      · exact absurd ho h.1
      · exact absurd ho h.2
    · rcases ha with rfl | rfl
      · simpa using ha'
      · simpa using hb'

def foldableB : Instr → Bool
  | .BinaryOp op _ (.Literal a) (.Literal b) =>
    decide (op ≠ .Eq ∧ op ≠ .Neq) || (decide (Canon a) && decide (Canon b))
  | _ => true

theorem foldableB_sound {op : BinaryOp} {d : ValueId} {a a' : Literal}
    (h : foldableB (.BinaryOp op d (.Literal a) (.Literal a')) = true) (ho : op = .Eq ∨ op = .Neq) :
    Canon a ∧ Canon a' := by
  simp only [foldableB, Bool.or_eq_true, Bool.and_eq_true, decide_eq_true_eq] at h
  rcases h with h | h
  · rcases ho with ho | ho
    · exact absurd ho h.1
    · exact absurd ho h.2
  · exact h

def termCanonB : Terminator → Bool
  | .If (.Literal l) _ _ => decide (Canon l)
  | .BranchCmp op (.Literal a) (.Literal b) _ _ =>
    decide (op ≠ .Eq ∧ op ≠ .Neq) || (decide (Canon a) && decide (Canon b))
  | _ => true

theorem termCanonB_sound {t : Terminator} (h : termCanonB t = true) : TermCanon t := by
  unfold termCanonB at h
  split at h
  · simpa [TermCanon] using h
  · simp only [Bool.or_eq_true, Bool.and_eq_true, decide_eq_true_eq] at h
    intro ho
    rcases h with h | h
    · rcases ho with ho | ho
      · exact absurd ho h.1
      · exact absurd ho h.2
    · exact h
  · rename_i h1 h2
    unfold TermCanon
    split
    · exact absurd rfl (h1 _ _ _)
    · exact absurd rfl (h2 _ _ _ _ _)
    · trivial

def fusableB : Instr → Bool
  | .BinaryOp op _ (.Literal _) (.Literal _) => decide (op ≠ .U32Eq ∧ op ≠ .U32Neq)
  | _ => true

theorem fusableB_sound {op : BinaryOp} {d : ValueId} {l r : Value} (h : fusableB (.BinaryOp op d l r) = true) :
    ¬ ((op = .U32Eq ∨ op = .U32Neq) ∧ (∃ a, l = .Literal a) ∧ ∃ a, r = .Literal a) := by
  rintro ⟨ho, ⟨a, rfl⟩, b, rfl⟩
  simp only [fusableB, decide_eq_true_eq] at h
  rcases ho with ho | ho
  · exact h.1 ho
  · exact h.2 ho

/-! ### Static single assignment form -/

/-- The names of a certificate for a block. -/
def setAt (s : List (List ValueId)) (b : BlockId) : List ValueId := (s[b]?).getD []

/-- One step of the computation of the names available at the start of each block. -/
def availStep (f : Function) (s : List (List ValueId)) : List (List ValueId) :=
  s.zipIdx.map fun (l, t) => l.filter fun v => f.blocks.zipIdx.all fun (b, p) =>
    !b.term.targets.contains t || (setAt s p).contains v || (defs b.instrs).contains v

def iterate {α : Type} (g : α → α) : ℕ → α → α
  | 0, x => x
  | n + 1, x => iterate g n (g x)

/-- Names available at the start of each block. -/
def available (f : Function) : List (List ValueId) :=
  iterate (availStep f) (f.blocks.length + 1)
    (f.blocks.zipIdx.map fun (_, t) => if t = 0 then f.params else f.params ++ defs (f.blocks.flatMap Block.instrs))

/-- The operands of the instructions other than phi instructions are among the names defined so far. -/
def usesB : List ValueId → List Instr → Bool
  | _, [] => true
  | s, i :: is => (isPhi i || i.uses.all fun v => s.contains v) && usesB (s ++ i.destinations) is

theorem usesB_sound : ∀ {is : List Instr} {s : List ValueId}, usesB s is = true → ∀ pre i post, is = pre ++ i :: post →
    isPhi i = false → ∀ v ∈ i.uses, v ∈ s ∨ v ∈ defs pre
  | [], _, _, pre, i, post, h, _, _, _ => by simp at h
  | j :: js, s, h, pre, i, post, he, hi, v, hv => by
    simp only [usesB, Bool.and_eq_true, Bool.or_eq_true, List.all_eq_true, List.contains_iff_mem] at h
    cases pre with
    | nil =>
      simp only [List.nil_append, List.cons.injEq] at he
      obtain ⟨rfl, rfl⟩ := he
      rcases h.1 with h | h
      · rw [hi] at h; cases h
      · exact .inl (h v hv)
    | cons k pre =>
      simp only [List.cons_append, List.cons.injEq] at he
      obtain ⟨rfl, rfl⟩ := he
      rcases usesB_sound h.2 pre i post rfl hi v hv with hx | hx
      · rcases List.mem_append.1 hx with hx | hx
        · exact .inl hx
        · exact .inr (by rw [defs_cons]; exact List.mem_append_left _ hx)
      · exact .inr (by rw [defs_cons]; exact List.mem_append_right _ hx)

def phisAvailB (f : Function) (a : List (List ValueId)) (t : ℕ) (i : Instr) : Bool :=
  match i with
  | .Phi _ _ ss => ss.all fun s =>
    match s.2 with
    | .Operand v =>
      match f.blocks[s.1]? with
      | some bp => !bp.term.targets.contains t || (setAt a s.1).contains v || (defs bp.instrs).contains v
      | none => true
    | _ => true
  | _ => true

def ssaB (f : Function) : Bool :=
  let a := available f
  decide ((f.params ++ defs (f.blocks.flatMap Block.instrs)).Nodup) &&
  (f.blocks.all fun b => (b.instrs.dropWhile isPhi).all fun i => !isPhi i) &&
  ((setAt a 0).all fun v => f.params.contains v) &&
  (f.blocks.zipIdx.all fun (b, p) =>
    (b.term.targets.all fun t => (setAt a t).all fun v => (setAt a p).contains v || (defs b.instrs).contains v) &&
    usesB (setAt a p) b.instrs &&
    (b.instrs.all (phisAvailB f a p)) &&
    (b.term.uses.all fun v => (setAt a p).contains v || (defs b.instrs).contains v)) &&
  (f.returns.all fun r => !(defs (f.blocks.flatMap Block.instrs)).contains r)

theorem mem_zipIdx {α : Type} {l : List α} {k : ℕ} {x : α} (h : l[k]? = some x) : (x, k) ∈ l.zipIdx := by
  rw [List.mem_zipIdx_iff_getElem?]; exact h

theorem takeWhile_all {α : Type} {p : α → Bool} {x : α} : ∀ {l : List α}, x ∈ l.takeWhile p → p x = true
  | [], h => by simp at h
  | y :: l, h => by
    rw [List.takeWhile_cons] at h
    split at h
    · rename_i hy
      rcases List.mem_cons.1 h with rfl | h
      · exact hy
      · exact takeWhile_all h
    · simp at h

theorem not_contains {l : List ValueId} {v : ValueId} (h : l.contains v = false) : v ∉ l := by
  intro hv
  rw [List.contains_iff_mem.2 hv] at h
  cases h

theorem ssaB_sound {f : Function} (h : ssaB f = true) : Ssa f := by
  simp only [ssaB, Bool.and_eq_true, decide_eq_true_eq, List.all_eq_true, Bool.or_eq_true, List.contains_iff_mem,
    Bool.not_eq_true', Prod.forall] at h
  obtain ⟨⟨⟨⟨h1, h2⟩, h3⟩, h4⟩, h5⟩ := h
  generalize available f = a at h3 h4
  have hav : ∀ v b, Avoids f v b → v ∉ setAt a b := by
    intro v b hb
    induction hb with
    | entry hv => exact fun hx => hv (h3 v hx)
    | step _ hb hv ht ih =>
      intro hx
      rcases (h4 _ _ (mem_zipIdx hb)).1.1.1 _ ht v hx with hx | hx
      · exact ih hx
      · exact hv hx
  refine ⟨h1, ?_, ?_, ?_, ?_, ?_⟩
  · intro blk hb
    refine ⟨blk.instrs.takeWhile isPhi, blk.instrs.dropWhile isPhi, (List.takeWhile_append_dropWhile).symm, ?_, ?_⟩
    · exact fun i hi => takeWhile_all hi
    · exact fun i hi => h2 blk hb i hi
  · intro b blk hb pre i post he hi v hv ha
    rcases usesB_sound (h4 _ _ (mem_zipIdx hb)).1.1.2 pre i post he hi v hv with hx | hx
    · exact absurd hx (hav v b ha)
    · exact hx
  · intro b blk hb d ty ss hi p v hs bp hbp ht ha
    have := (h4 _ _ (mem_zipIdx hb)).1.2 _ hi
    simp only [phisAvailB, List.all_eq_true] at this
    have := this _ hs
    simp only [hbp, Bool.or_eq_true, List.contains_iff_mem, Bool.not_eq_true'] at this
    rcases this with (h | h) | h
    · exact absurd ht (not_contains h)
    · exact absurd h (hav v p ha)
    · exact h
  · intro b blk hb v hv ha
    rcases (h4 _ _ (mem_zipIdx hb)).2 v hv with hx | hx
    · exact absurd hx (hav v b ha)
    · exact hx
  · intro r hr hx
    exact not_contains (h5 r hr) hx

/-! ### Removal of phi instructions -/

def phiDests (b : Block) : List ValueId := b.instrs.filterMap phiDest

theorem mem_phiDests {b : Block} {v : ValueId} : v ∈ phiDests b ↔ some v ∈ b.instrs.map phiDest := by
  simp [phiDests, List.mem_filterMap, List.mem_map]

/-- One step of the computation of the names that may be needed in a block after its phi instructions. -/
def liveStep (f : Function) (s : List (List ValueId)) : List (List ValueId) :=
  s.zipIdx.map fun (l, p) =>
    match f.blocks[p]? with
    | none => l
    | some bp => (l ++ bp.term.targets.flatMap fun t =>
        match f.blocks[t]? with
        | none => []
        | some b => (setAt s t).filter fun v => !(phiDests b).contains v).dedup

/-- Names that may be needed in each block after its phi instructions. -/
def needed (f : Function) : List (List ValueId) :=
  iterate (liveStep f) (f.blocks.length + 1)
    (f.blocks.zipIdx.map fun (b, p) =>
      ((b.instrs.filter notPhi).flatMap Instr.uses ++ b.term.uses ++ (phiCopies f.blocks p).flatMap fun c =>
        match c.source with
        | .Operand v => [v]
        | _ => []).dedup)

/-- One step of the computation of the ranks of the destinations of copies. -/
def rankStep (cs : List Copy) (r : List (ValueId × ℕ)) : List (ValueId × ℕ) :=
  cs.map fun c => (c.dest,
    match c.source with
    | .Operand d => if (cs.map Copy.dest).contains d then (r.lookup d).getD 0 + 1 else 0
    | _ => 0)

def ranks (cs : List Copy) : List (ValueId × ℕ) := iterate (rankStep cs) (cs.length + 1) []

/-- The source of a copy. -/
def sourceId (c : Copy) : Option ValueId :=
  match c.source with
  | .Operand d => some d
  | _ => none

theorem sourceId_of {c : Copy} {d : ValueId} (h : c.source = .Operand d) : sourceId c = some d := by rw [sourceId, h]

/-- No copy reads the destination of an earlier copy. -/
def inOrderB : List Copy → Bool
  | [] => true
  | c :: cs => (cs.all fun c' => decide (sourceId c' ≠ some c.dest)) && inOrderB cs

theorem inOrderB_sound : ∀ {cs : List Copy}, inOrderB cs = true → InOrder cs
  | [], _ => .nil
  | c :: cs, h => by
    simp only [inOrderB, Bool.and_eq_true, List.all_eq_true, decide_eq_true_eq] at h
    exact .cons (fun c' hc' hs => h.1 c' hc' (sourceId_of hs)) (inOrderB_sound h.2)

def orderB (cs : List Copy) : Bool :=
  ((cs.all fun c =>
    match c.source with
    | .Operand d => !(cs.map Copy.dest).contains d || decide (((ranks cs).lookup d).getD 0 < ((ranks cs).lookup c.dest).getD 0)
    | _ => true) || inOrderB cs) &&
  cs.all fun c =>
    match c.source with
    | .Operand d => cs.all fun c' => decide (c'.dest ≠ d) || (match c'.source with | .Operand _ => true | _ => false)
    | _ => true

theorem orderB_sound {cs : List Copy} (h : orderB cs = true) : (Orderable cs ∨ InOrder cs) ∧ NoLiteralHazard cs := by
  simp only [orderB, Bool.and_eq_true, Bool.or_eq_true, List.all_eq_true] at h
  obtain ⟨h, h'⟩ := h
  constructor
  · refine h.imp (fun h => ⟨fun v => ((ranks cs).lookup v).getD 0, fun c hc d hd hs => ?_⟩) inOrderB_sound
    have := h c hc
    rw [hs] at this
    simp only [Bool.or_eq_true, Bool.not_eq_true', decide_eq_true_eq] at this
    rcases this with h | h
    · exact absurd hd (not_contains h)
    · exact h
  · intro c hc c' hc' hs
    have := h' c hc
    rw [hs] at this
    simp only [List.all_eq_true, Bool.or_eq_true, decide_eq_true_eq] at this
    have := this c' hc'
    rcases this with h | h
    · exact absurd rfl h
    · split at h
      · rename_i s hs'; exact ⟨s, hs'⟩
      · cases h

def phiPredsB (f : Function) (l : List (List ValueId)) (t : ℕ) : Instr → Bool
  | .Phi d _ ss => decide (ss.map Prod.fst).Nodup && ss.all fun s =>
    match f.blocks[s.1]? with
    | some bp => bp.term.targets.contains t && !bp.term.uses.contains d &&
        bp.term.targets.all fun t' => decide (t' = t) || !(setAt l t').contains d
    | none => false
  | _ => true

def sourceB (l a : List (List ValueId)) (p : ℕ) (bp : Block) (c : Copy) : Bool :=
  match c.source with
  | .Operand s => (scalarTy c.ty).isSome && (setAt l p).contains s &&
      ((setAt a p).contains s || (defs bp.instrs).contains s)
  | .Literal x =>
    match scalarTy c.ty with
    | some t => (denote t x).isSome
    | none => false
  | .Error => false

def phiB (f : Function) : Bool :=
  let a := available f
  let l := needed f
  decide (((f.blocks.flatMap Block.instrs).filterMap phiDest).Nodup) &&
  ((setAt a 0).all fun v => f.params.contains v) &&
  ((f.blocks[0]?).all fun b => (phiDests b).isEmpty) &&
  f.blocks.zipIdx.all fun (b, p) =>
    (b.term.targets.all fun t => decide (t < f.blocks.length)) &&
    (b.instrs.all (phiPredsB f l p)) &&
    (b.instrs.all fun i => !notPhi i || i.uses.all fun v => (setAt l p).contains v) &&
    (b.term.uses.all fun v => (setAt l p).contains v) &&
    (b.term.targets.all fun t => (f.blocks[t]?).all fun bt =>
      (setAt l t).all fun v => (phiDests bt).contains v || (setAt l p).contains v) &&
    ((phiCopies f.blocks p).all (sourceB l a p b)) &&
    (b.term.targets.all fun t => (setAt a t).all fun v => (setAt a p).contains v || (defs b.instrs).contains v) &&
    orderB (phiCopies f.blocks p)

theorem mem_defs_cases {b : Block} {v : ValueId} (h : v ∈ defs b.instrs) :
    some v ∈ b.instrs.map phiDest ∨ ∃ i ∈ b.instrs, notPhi i = true ∧ v ∈ i.destinations := by
  obtain ⟨i, hi, hv⟩ := mem_defs.1 h
  cases hn : notPhi i with
  | true => exact .inr ⟨i, hi, hn, hv⟩
  | false =>
    cases i <;> simp [notPhi] at hn
    simp only [Instr.destinations, List.mem_cons, List.not_mem_nil, or_false] at hv
    subst hv
    exact .inl (List.mem_map.2 ⟨_, hi, rfl⟩)

theorem phiB_sound {f : Function} (h : phiB f = true) : ∃ Live Defined, PhiOk f Live Defined := by
  simp only [phiB, Bool.and_eq_true, decide_eq_true_eq, List.all_eq_true, Prod.forall, Option.all_eq_true,
    List.contains_iff_mem] at h
  obtain ⟨⟨⟨h1, h2⟩, h3⟩, h4⟩ := h
  generalize available f = a at h2 h4
  generalize needed f = l at h4
  refine ⟨fun t v => v ∈ setAt l t,
    fun t v => v ∈ setAt a t ∨ ∃ b, f.blocks[t]? = some b ∧ some v ∈ b.instrs.map phiDest, ?_⟩
  have key := fun (p : ℕ) (b : Block) (hb : f.blocks[p]? = some b) => h4 b p (mem_zipIdx hb)
  have hpreds : ∀ (t : ℕ) (b : Block), f.blocks[t]? = some b → ∀ d ty ss, Instr.Phi d ty ss ∈ b.instrs → ∀ p v,
      (p, v) ∈ ss → ∃ bp, f.blocks[p]? = some bp ∧ t ∈ bp.term.targets ∧ d ∉ bp.term.uses ∧
        ∀ t' ∈ bp.term.targets, t' ≠ t → ¬ d ∈ setAt l t' := by
    intro t b hb d ty ss hi p v hs
    have := (key t b hb).1.1.1.1.1.1.2 _ hi
    simp only [phiPredsB, Bool.and_eq_true, List.all_eq_true, decide_eq_true_eq] at this
    have := this.2 _ hs
    simp only at this
    split at this
    · rename_i bp hbp
      simp only [Bool.and_eq_true, List.contains_iff_mem, Bool.not_eq_true', List.all_eq_true, Bool.or_eq_true,
        decide_eq_true_eq] at this
      refine ⟨bp, hbp, this.1.1, not_contains this.1.2, fun t' ht' hne => ?_⟩
      rcases this.2 t' ht' with h | h
      · exact absurd h hne
      · exact not_contains h
    · cases this
  refine ⟨?_, h1, ?_, hpreds, ?_, ?_, ?_, ?_, ?_, ?_⟩
  · intro b hb t ht
    obtain ⟨p, hp⟩ := List.getElem?_of_mem hb
    exact (key p b hp).1.1.1.1.1.1.1 t ht
  · intro b hb d ty ss hi
    obtain ⟨p, hp⟩ := List.getElem?_of_mem hb
    have := (key p b hp).1.1.1.1.1.1.2 _ hi
    simp only [phiPredsB, Bool.and_eq_true, decide_eq_true_eq] at this
    exact this.1
  · intro t b hb
    refine ⟨fun i hi hn v hv => ?_, fun v hv => (key t b hb).1.1.1.1.2 v hv⟩
    have := (key t b hb).1.1.1.1.1.2 i hi
    simp only [hn, Bool.not_true, Bool.false_or, List.all_eq_true, List.contains_iff_mem] at this
    exact this v hv
  · intro p bp hbp t ht b hb v hv hnp
    have := (key p bp hbp).1.1.1.2 t ht b hb v hv
    simp only [Bool.or_eq_true, List.contains_iff_mem] at this
    rcases this with h | h
    · exact absurd (mem_phiDests.1 h) hnp
    · exact h
  · intro c p bp hbp hc
    have := (key p bp hbp).1.1.2 c hc
    unfold sourceB at this
    split at this
    · rename_i s hs
      simp only [Bool.and_eq_true, Bool.or_eq_true, List.contains_iff_mem] at this
      refine .inl ⟨s, hs, this.1.1, this.1.2, ?_⟩
      rcases this.2 with h | h
      · exact .inl (.inl h)
      · rcases mem_defs_cases h with h | h
        · exact .inl (.inr ⟨bp, hbp, h⟩)
        · exact .inr h
    · rename_i x hx
      split at this
      · rename_i t ht
        exact .inr ⟨x, t, hx, ht, this⟩
      · cases this
    · cases this
  · intro p bp hbp t ht b hb v hv
    rcases hv with hv | ⟨b', hb', hv⟩
    · have := (key p bp hbp).1.2 t ht v hv
      simp only [Bool.or_eq_true, List.contains_iff_mem] at this
      rcases this with h | h
      · exact .inr (.inl (.inl h))
      · rcases mem_defs_cases h with h | h
        · exact .inr (.inl (.inr ⟨bp, hbp, h⟩))
        · exact .inr (.inr h)
    · rw [hb] at hb'
      cases hb'
      exact .inl hv
  · intro v hv
    rcases hv with hv | ⟨b, hb, hv⟩
    · exact h2 v hv
    · have := h3 b hb
      rw [List.isEmpty_iff] at this
      rw [← mem_phiDests, this] at hv
      cases hv
  · intro p
    cases hp : f.blocks[p]? with
    | some b => exact orderB_sound (key p b hp).2
    | none =>
      have : phiCopies f.blocks p = [] := by
        rw [List.eq_nil_iff_forall_not_mem]
        intro c hc
        obtain ⟨t, b, ss, hb, hi, hs⟩ := mem_phiCopies hc
        obtain ⟨bp, hbp, _⟩ := hpreds t b hb _ _ _ hi p _ hs
        rw [hp] at hbp; cases hbp
      rw [this]
      exact ⟨.inl ⟨fun _ => 0, by simp⟩, by simp [NoLiteralHazard]⟩

end Lang
end CairoM
