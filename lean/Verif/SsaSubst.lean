import Verif.SsaLemmas

/-!
# Lemmas: renaming operands and dropping instructions in static single assignment form

A function obtained by renaming operands to names with the same value and dropping instructions whose results are
not used returns the same values, and is in static single assignment form again.
-/

namespace CairoM
namespace Lang

open Mir

/-- Renaming of an operand. -/
def Value.rename (τ : ValueId → ValueId) : Value → Value
  | .Operand v => .Operand (τ v)
  | v => v

/-- Renaming of the operands of a place. -/
def Place.rename (τ : ValueId → ValueId) (p : Place) : Place :=
  { base := τ p.base
    projections := p.projections.map fun
      | .Index v => .Index (Value.rename τ v)
      | q => q }

/-- Renaming of the operands of an instruction. -/
def Instr.rename (τ : ValueId → ValueId) : Instr → Instr
  | .Assign d v t => .Assign d (Value.rename τ v) t
  | .UnaryOp op d v => .UnaryOp op d (Value.rename τ v)
  | .BinaryOp op d l r => .BinaryOp op d (Value.rename τ l) (Value.rename τ r)
  | .Call ds f args s => .Call ds f (args.map (Value.rename τ)) s
  | .Cast d v s t => .Cast d (Value.rename τ v) s t
  | .Load d p t => .Load d (Place.rename τ p) t
  | .Store p v t => .Store (Place.rename τ p) (Value.rename τ v) t
  | .Debug vs => .Debug (vs.map (Value.rename τ))
  | .Nop => .Nop
  | .Phi d t sources => .Phi d t (sources.map fun s => (s.1, Value.rename τ s.2))
  | .MakeTuple d vs => .MakeTuple d (vs.map (Value.rename τ))
  | .ExtractTupleElement d v i t => .ExtractTupleElement d (Value.rename τ v) i t
  | .MakeStruct d fs t => .MakeStruct d (fs.map fun s => (s.1, Value.rename τ s.2)) t
  | .ExtractStructField d v n t => .ExtractStructField d (Value.rename τ v) n t
  | .InsertField d s n v t => .InsertField d (Value.rename τ s) n (Value.rename τ v) t
  | .InsertTuple d s i v t => .InsertTuple d (Value.rename τ s) i (Value.rename τ v) t
  | .MakeFixedArray d vs t c => .MakeFixedArray d (vs.map (Value.rename τ)) t c
  | .AssertEq l r => .AssertEq (Value.rename τ l) (Value.rename τ r)
  | .HeapAllocCells d v => .HeapAllocCells d (Value.rename τ v)

/-- Renaming of the operands of a terminator. -/
def Terminator.rename (τ : ValueId → ValueId) : Terminator → Terminator
  | .Jump t => .Jump t
  | .If c t e => .If (Value.rename τ c) t e
  | .BranchCmp op l r t e => .BranchCmp op (Value.rename τ l) (Value.rename τ r) t e
  | .Return vs => .Return (vs.map (Value.rename τ))
  | .Unreachable => .Unreachable

variable {τ : ValueId → ValueId}

theorem rename_dests (i : Instr) : (Instr.rename τ i).destinations = i.destinations := by cases i <;> rfl

theorem rename_isPhi (i : Instr) : isPhi (Instr.rename τ i) = isPhi i := by cases i <;> rfl

theorem rename_targets (t : Terminator) : (Terminator.rename τ t).targets = t.targets := by cases t <;> rfl

theorem rename_ids (v : Value) : (Value.rename τ v).ids = v.ids.map τ := by cases v <;> rfl

theorem rename_valuesIds (vs : List Value) : valuesIds (vs.map (Value.rename τ)) = (valuesIds vs).map τ := by
  simp only [valuesIds, List.flatMap_map, List.map_flatMap, rename_ids]

theorem rename_place (p : Place) : (Place.rename τ p).ids = p.ids.map τ := by
  simp only [Place.ids, Place.rename, List.map_cons, List.flatMap_map, List.map_flatMap]
  congr 2
  funext q
  cases q with
  | Index v => exact rename_ids v
  | _ => rfl

theorem rename_pairs {α : Type} (ss : List (α × Value)) :
    valuesIds ((ss.map fun s => (s.1, Value.rename τ s.2)).map Prod.snd) = (valuesIds (ss.map Prod.snd)).map τ := by
  rw [← rename_valuesIds, List.map_map, List.map_map]; rfl

theorem rename_uses (i : Instr) : (Instr.rename τ i).uses = i.uses.map τ := by
  cases i <;> simp only [Instr.rename, Instr.uses, rename_ids, rename_valuesIds, rename_place, rename_pairs,
    List.map_append, List.map_nil]

theorem rename_term_uses (t : Terminator) : (Terminator.rename τ t).uses = t.uses.map τ := by
  cases t <;> simp only [Terminator.rename, Terminator.uses, rename_ids, rename_valuesIds, List.map_append,
    List.map_nil]

section reads

variable {e e' : Env} {calls : Calls}

theorem readAt_rename {t : Ty} {v : Value} (h : ∀ x ∈ v.ids, e x = e' (τ x)) :
    readAt e' t (Value.rename τ v) = readAt e t v := by
  cases v with
  | Operand v => exact (h v (by simp [Value.ids])).symm
  | _ => rfl

theorem operand_rename {op : BinaryOp} {v : Value} (h : ∀ x ∈ v.ids, e x = e' (τ x)) :
    operand e' op (Value.rename τ v) = operand e op v := by
  cases v with
  | Operand v => exact (h v (by simp [Value.ids])).symm
  | _ => rfl

theorem readPlain_rename {v : Value} (h : ∀ x ∈ v.ids, e x = e' (τ x)) :
    readPlain e' (Value.rename τ v) = readPlain e v := by
  cases v with
  | Operand v => exact (h v (by simp [Value.ids])).symm
  | _ => rfl

theorem readAll_rename {ts : List (Option MirType)} {vs : List Value} (h : ∀ x ∈ valuesIds vs, e x = e' (τ x)) :
    readAll e' ts (vs.map (Value.rename τ)) = readAll e ts vs := by
  induction vs generalizing ts with
  | nil => cases ts <;> rfl
  | cons v vs ih =>
    cases ts with
    | nil => rfl
    | cons t ts =>
      simp only [List.map_cons, readAll]
      rw [ih (fun x hx => h x (by simp only [valuesIds, List.flatMap_cons, List.mem_append]; exact Or.inr hx))]
      congr 1; funext t'
      rw [readAt_rename (fun x hx => h x (by simp only [valuesIds, List.flatMap_cons, List.mem_append]; exact Or.inl hx))]

theorem evalInstr_rename {S : ValueId → Prop} (hag : Agree S e e') {i : Instr} (h : ∀ x ∈ i.uses, e x = e' (τ x)) :
    OptRel (Agree S) (evalInstr calls i e) (evalInstr calls (Instr.rename τ i) e') := by
  cases i with
  | Assign d v ty =>
    simp only [Instr.rename, evalInstr, Option.bind_eq_bind]
    cases scalarTy ty with
    | none => trivial
    | some t => simp only [Option.bind_some]; rw [readAt_rename h]; exact update_agree hag d
  | UnaryOp op d v =>
    simp only [Instr.rename, evalInstr, Option.bind_eq_bind]
    rw [readPlain_rename h]
    cases readPlain e v with
    | none => trivial
    | some x => exact update_agree hag d
  | BinaryOp op d l r =>
    simp only [Instr.rename, evalInstr, Option.bind_eq_bind]
    rw [operand_rename (fun x hx => h x (by simp [Instr.uses, hx])),
      operand_rename (v := r) (fun x hx => h x (by simp [Instr.uses, hx]))]
    cases operand e op l with
    | none => trivial
    | some x =>
      cases operand e op r with
      | none => trivial
      | some y => exact update_agree hag d
  | Call ds c args sig =>
    simp only [Instr.rename, evalInstr, Option.bind_eq_bind]
    rw [readAll_rename h]
    cases readAll e (sig.params.map some) args with
    | none => trivial
    | some xs =>
      simp only [Option.bind_some]
      cases calls c xs with
      | none => trivial
      | some ys => exact bind_agree hag
  | Cast d v s t =>
    simp only [Instr.rename, evalInstr, Option.bind_eq_bind]
    cases scalarTy s with
    | none => trivial
    | some s =>
      cases scalarTy t with
      | none => trivial
      | some t =>
        simp only [Option.bind_some]
        rw [readAt_rename h]
        cases readAt e s v with
        | none => trivial
        | some x => exact update_agree hag d
  | AssertEq l r =>
    simp only [Instr.rename, evalInstr, Option.bind_eq_bind]
    rw [readPlain_rename (fun x hx => h x (by simp [Instr.uses, hx])),
      readPlain_rename (v := r) (fun x hx => h x (by simp [Instr.uses, hx]))]
    cases readPlain e l with
    | none => trivial
    | some x =>
      cases readPlain e r with
      | none => trivial
      | some y =>
        simp only [Option.bind_some]
        split_ifs
        · exact hag
        · trivial
  | Debug _ => exact hag
  | Nop => exact hag
  | _ => trivial

theorem lookup_rename {ss : List (BlockId × Value)} {p : BlockId} :
    (ss.map fun x => (x.1, Value.rename τ x.2)).lookup p = (ss.lookup p).map (Value.rename τ) := by
  induction ss with
  | nil => rfl
  | cons s ss ih =>
    obtain ⟨k, v⟩ := s
    simp only [List.map_cons, List.lookup_cons]
    split
    · rfl
    · exact ih

theorem phiValue_rename {p : BlockId} {ty : MirType} {ss : List (BlockId × Value)}
    (h : ∀ v, (p, Value.Operand v) ∈ ss → e v = e' (τ v)) :
    phiValue e' p ty (ss.map fun x => (x.1, Value.rename τ x.2)) = phiValue e p ty ss := by
  unfold phiValue
  rw [lookup_rename]
  cases scalarTy ty with
  | none => rfl
  | some t =>
    simp only [Option.bind_eq_bind, Option.bind_some]
    cases hl : ss.lookup p with
    | none => rfl
    | some v =>
      simp only [Option.map_some, Option.bind_some]
      refine readAt_rename fun x hx => ?_
      cases v with
      | Operand w => simp only [Value.ids, List.mem_singleton] at hx; subst hx; exact h x (mem_lookup hl)
      | _ => simp [Value.ids] at hx

theorem evalTerm_rename {ts : List (Option MirType)} {t : Terminator} (h : ∀ v ∈ t.uses, e v = e' (τ v)) :
    evalTerm ts e' (Terminator.rename τ t) = evalTerm ts e t := by
  cases t with
  | If c x y => simp only [Terminator.rename, evalTerm]; rw [readPlain_rename h]
  | BranchCmp op l r x y =>
    simp only [Terminator.rename, evalTerm]
    rw [operand_rename (fun x hx => h x (by simp [Terminator.uses, hx])),
      operand_rename (v := r) (fun x hx => h x (by simp [Terminator.uses, hx]))]
  | Return vs => simp only [Terminator.rename, evalTerm]; rw [readAll_rename h]
  | _ => rfl

end reads

/-- A dropped name: it is defined by an instruction that is not kept. -/
def Dropped (f : Function) (keep : BlockId → Instr → Bool) (v : ValueId) : Prop :=
  ∃ (b : ℕ) (blk : Block), f.blocks[b]? = some blk ∧ ∃ i ∈ blk.instrs, keep b i = false ∧ v ∈ i.destinations

/-- `g` is `f` with operands renamed by `τ` and the instructions outside `keep` dropped. -/
structure Renames (calls : Calls) (f g : Function) (τ : ValueId → ValueId) (keep : BlockId → Instr → Bool) : Prop where
  params : g.params = f.params
  returns : g.returns = f.returns
  types : ∀ r ∈ f.returns, g.types r = f.types r
  blocks : ∀ b : ℕ, g.blocks[b]? = (f.blocks[b]?).map fun blk =>
    ⟨(blk.instrs.filter (keep b)).map (Instr.rename τ), Terminator.rename τ blk.term⟩
  /-- The new name has the value of the old one wherever the old one is available. -/
  same : ∀ (b : ℕ) (blk : Block) pre post, Reaches f b → f.blocks[b]? = some blk → blk.instrs = pre ++ post →
    ∀ v, Avail f b pre v → Avail f b pre (τ v) ∧ ∀ e, Facts calls f b pre e → e v = e (τ v)
  instrs : ∀ (b : ℕ) (blk : Block), Reaches f b → f.blocks[b]? = some blk → ∀ i ∈ blk.instrs, keep b i = true →
    isPhi i = false → ∀ v ∈ i.uses, ¬ Dropped f keep (τ v)
  phis : ∀ (b : ℕ) (blk : Block), f.blocks[b]? = some blk → ∀ d ty ss, Instr.Phi d ty ss ∈ blk.instrs →
    keep b (.Phi d ty ss) = true → ∀ p v, (p, Value.Operand v) ∈ ss → ∀ bp, Reaches f p → f.blocks[p]? = some bp →
      b ∈ bp.term.targets → ¬ Dropped f keep (τ v)
  term : ∀ (b : ℕ) (blk : Block), Reaches f b → f.blocks[b]? = some blk → ∀ v ∈ blk.term.uses, ¬ Dropped f keep (τ v)

section simulation

variable {calls : Calls} {f g : Function} {keep : BlockId → Instr → Bool}

/-- The environments of the two functions agree outside the dropped names. -/
abbrev Kin (f : Function) (keep : BlockId → Instr → Bool) (e e' : Env) : Prop := Agree (fun v => ¬ Dropped f keep v) e e'

theorem rename_instrs (hs : Ssa f) (h : Renames calls f g τ keep) {b : ℕ} {blk : Block} (hr : Reaches f b)
    (hb : f.blocks[b]? = some blk) {pre post : List Instr} (hp : blk.instrs = pre ++ post)
    (hn : ∀ i ∈ post, isPhi i = false) {e e' e1 : Env} (hf : Facts calls f b pre e) (hk : Kin f keep e e')
    (he : evalInstrs calls post e = some e1) :
    Facts calls f b blk.instrs e1 ∧
      ∃ e1', evalInstrs calls ((post.filter (keep b)).map (Instr.rename τ)) e' = some e1' ∧ Kin f keep e1 e1' := by
  induction post generalizing pre e e' with
  | nil =>
    simp only [evalInstrs, Option.some.injEq] at he; subst he
    rw [hp, List.append_nil]
    exact ⟨hf, e', rfl, hk⟩
  | cons i post ih =>
    simp only [evalInstrs, Option.bind_eq_bind, Option.bind_eq_some_iff] at he
    obtain ⟨e2, he2, he⟩ := he
    have hf2 : Facts calls f b (pre ++ [i]) e2 := facts_step hs hr hb hp hf (fun v hv => evalInstr_outside he2 hv)
      (fun d hd hdu => evalInstr_settles hd hdu he2)
    have hp' : blk.instrs = (pre ++ [i]) ++ post := by rw [hp]; simp
    have hi : i ∈ blk.instrs := by rw [hp]; simp
    by_cases hki : keep b i = true
    · rw [List.filter_cons_of_pos hki]
      have hu : ∀ x ∈ i.uses, e x = e' (τ x) := fun x hx => by
        rw [← hk (τ x) (h.instrs b blk hr hb i hi hki (hn i (by simp)) x hx)]
        exact (h.same b blk pre (i :: post) hr hb hp x (hs.avail_use hb hp (hn i (by simp)) hx)).2 e hf
      have hrel := evalInstr_rename (calls := calls) hk hu
      rw [he2] at hrel
      cases he2' : evalInstr calls (Instr.rename τ i) e' with
      | none => rw [he2'] at hrel; exact hrel.elim
      | some e2' =>
        rw [he2'] at hrel
        obtain ⟨g1, e1', g2, g3⟩ := ih hp' (fun j hj => hn j (by simp [hj])) hf2 hrel he
        exact ⟨g1, e1', by simp [evalInstrs, he2', g2], g3⟩
    · rw [List.filter_cons_of_neg hki]
      refine ih hp' (fun j hj => hn j (by simp [hj])) hf2 (fun v hv => ?_) he
      rw [evalInstr_outside he2 (fun hd => hv ⟨b, blk, hb, i, hi, by simpa using hki, hd⟩)]
      exact hk v hv

/-- What is known of the predecessor when a block is entered. -/
def From (calls : Calls) (f : Function) (keep : BlockId → Instr → Bool) (b : BlockId) (p : Option BlockId)
    (e e' : Env) : Prop :=
  Kin f keep e e' ∧ ∀ q, p = some q → Reaches f q ∧ ∃ bq, f.blocks[q]? = some bq ∧ b ∈ bq.term.targets ∧
    Facts calls f q bq.instrs e

theorem rename_phis (hs : Ssa f) (h : Renames calls f g τ keep) {b : ℕ} {blk : Block} (hr : Reaches f b)
    (hb : f.blocks[b]? = some blk) {p : Option BlockId} {env env' : Env} (hfrom : From calls f keep b p env env')
    {pre phis rest : List Instr} (hp : blk.instrs = pre ++ (phis ++ rest)) (hphi : ∀ i ∈ phis, isPhi i = true)
    (hn : ∀ i ∈ rest, isPhi i = false) {e e' e1 : Env} {rest' : List Instr} (hf : Facts calls f b pre e)
    (hk : Kin f keep e e') (he : evalPhis env p (phis ++ rest) e = some (e1, rest')) :
    rest' = rest ∧ Facts calls f b (pre ++ phis) e1 ∧
      ∃ e1', evalPhis env' p (((phis ++ rest).filter (keep b)).map (Instr.rename τ)) e' =
        some (e1', (rest.filter (keep b)).map (Instr.rename τ)) ∧ Kin f keep e1 e1' := by
  have hrest : ∀ is : List Instr, (∀ i ∈ is, isPhi i = false) → ∀ (x : Env) a, evalPhis x p is a = some (a, is) := by
    intro is his x a
    refine evalPhis_noPhi fun i hi d ty ss hc => ?_
    have := his i hi
    rw [hc] at this; simp [isPhi] at this
  induction phis generalizing pre e e' with
  | nil =>
    rw [List.nil_append] at he ⊢
    rw [hrest rest hn] at he
    simp only [Option.some.injEq, Prod.mk.injEq] at he
    obtain ⟨rfl, rfl⟩ := he
    refine ⟨rfl, by rw [List.append_nil]; exact hf, e', hrest _ ?_ _ _, hk⟩
    intro i hi
    obtain ⟨j, hj, rfl⟩ := List.mem_map.1 hi
    rw [rename_isPhi]; exact hn j (List.mem_of_mem_filter hj)
  | cons i phis ih =>
    have hi : i ∈ blk.instrs := by rw [hp]; simp
    have hiphi := hphi i (by simp)
    cases i <;> simp only [isPhi, reduceCtorEq] at hiphi
    case Phi d ty ss =>
      simp only [List.cons_append, evalPhis, Option.bind_eq_bind, Option.bind_eq_some_iff] at he
      obtain ⟨q, rfl, x, hx, he⟩ := he
      have hp' : blk.instrs = (pre ++ [.Phi d ty ss]) ++ (phis ++ rest) := by rw [hp]; simp
      have hf2 : Facts calls f b (pre ++ [.Phi d ty ss]) (Function.update e d (some x)) :=
        facts_step hs hr hb (by rw [hp]; rfl) hf
          (fun v hv => Function.update_of_ne (by simpa [Instr.destinations] using hv) _ _)
          (fun d' hd' => by have := hd'.2.1; simp [isPhi] at this)
      have happ : pre ++ Instr.Phi d ty ss :: phis = (pre ++ [.Phi d ty ss]) ++ phis := by simp
      rw [happ]
      by_cases hki : keep b (.Phi d ty ss) = true
      · obtain ⟨hrq, bq, hbq, hbt, hfq⟩ := hfrom.2 q rfl
        have hv : phiValue env' q ty (ss.map fun x => (x.1, Value.rename τ x.2)) = some x := by
          rw [phiValue_rename (e := env), hx]
          intro v hv
          rw [← hfrom.1 (τ v) (h.phis b blk hb d ty ss hi hki q v hv bq hrq hbq hbt)]
          exact (h.same q bq bq.instrs [] hrq hbq (by simp) v
            (hs.phis b blk hb d ty ss hi q v hv bq hbq hbt)).2 env hfq
        obtain ⟨g1, g2, e1', g3, g4⟩ := ih hp' (fun j hj => hphi j (by simp [hj])) hf2 (hk.update d (some x)) he
        refine ⟨g1, g2, e1', ?_, g4⟩
        rw [List.cons_append, List.filter_cons_of_pos hki, List.map_cons]
        simp only [Instr.rename, evalPhis, Option.bind_eq_bind, Option.bind_some, hv]
        exact g3
      · obtain ⟨g1, g2, e1', g3, g4⟩ := ih hp' (fun j hj => hphi j (by simp [hj])) hf2
          (hk.update_left (d := d) (fun hnd => hnd ⟨b, blk, hb, _, hi, by simpa using hki, by simp [Instr.destinations]⟩)
            (some x)) he
        refine ⟨g1, g2, e1', ?_, g4⟩
        rw [List.cons_append, List.filter_cons_of_neg hki]
        exact g3

theorem rename_exec (hs : Ssa f) (h : Renames calls f g τ keep) (n : ℕ) {b : ℕ} {p : Option BlockId} {e e' : Env}
    (hr : Reaches f b) (hf : Facts calls f b [] e) (hfrom : From calls f keep b p e e')
    (hne : exec calls f n p b e ≠ .fault) : exec calls g n p b e' = exec calls f n p b e := by
  have hret : returnTys g = returnTys f := by
    unfold returnTys
    rw [h.returns]
    exact List.map_congr_left fun r hr => h.types r hr
  induction n generalizing b p e e' with
  | zero => rfl
  | succ n ih =>
    have hg := h.blocks b
    cases hb : f.blocks[b]? with
    | none => simp only [exec, hb] at hne; exact absurd rfl hne
    | some blk =>
      rw [hb, Option.map_some] at hg
      simp only [exec, hb, hg] at hne ⊢
      obtain ⟨phis, rest, hsplit, hph, hre⟩ := hs.head blk (List.mem_of_getElem? hb)
      rw [hret]
      cases hev : evalBlock calls (returnTys f) blk p e with
      | none => rw [hev] at hne; exact absurd rfl hne
      | some r =>
        obtain ⟨x, e2⟩ := r
        rw [hev] at hne
        have hev' := hev
        unfold evalBlock at hev'
        simp only [Option.bind_eq_bind, Option.bind_eq_some_iff, Prod.exists, Option.some.injEq, Prod.mk.injEq] at hev'
        obtain ⟨e1, rest', h1, e2', h2, x', h3, rfl, rfl⟩ := hev'
        rw [hsplit] at h1
        obtain ⟨rfl, hf1, e1', h1', hk1⟩ := rename_phis hs h hr hb hfrom (pre := []) (by rw [hsplit]; rfl) hph hre hf
          hfrom.1 h1
        obtain ⟨hf2, e2'', h2', hk2⟩ := rename_instrs hs h hr hb (pre := phis) hsplit hre (by simpa using hf1) hk1 h2
        have hterm : ∀ v ∈ blk.term.uses, e2' v = e2'' (τ v) := fun v hv => by
          rw [← hk2 (τ v) (h.term b blk hr hb v hv)]
          exact (h.same b blk blk.instrs [] hr hb (by simp) v (hs.term b blk hb v hv)).2 e2' hf2
        have hev2 : evalBlock calls (returnTys f)
            ⟨(blk.instrs.filter (keep b)).map (Instr.rename τ), Terminator.rename τ blk.term⟩ p e' = some (x', e2'') := by
          unfold evalBlock
          simp only [Option.bind_eq_bind]
          rw [hsplit, h1', Option.bind_some, h2', Option.bind_some, evalTerm_rename hterm, h3, Option.bind_some]
        rw [hev2]
        cases x' with
        | ret vs => rfl
        | goto t =>
          have ht : t ∈ blk.term.targets := evalTerm_target h3
          exact ih (.step hr hb ht) (facts_edge hb hf2 ht)
            ⟨hk2, fun q hq => by injection hq with hq; subst hq; exact ⟨hr, blk, hb, ht, hf2⟩⟩ hne

theorem rename_run (hs : Ssa f) (h : Renames calls f g τ keep) (n : ℕ) {args : List Val}
    (hne : run calls f n args ≠ .fault) : run calls g n args = run calls f n args := by
  unfold run at hne ⊢
  rw [h.params]
  cases hbind : bind (fun _ => none) f.params args with
  | none => rfl
  | some env =>
    rw [hbind] at hne
    exact rename_exec hs h n .entry (facts_entry hs env) ⟨Agree.refl, fun q hq => by cases hq⟩ hne

/-! ### The result is in static single assignment form -/

theorem filter_map_split {α β : Type} {k : α → Bool} {r : α → β} {is : List α} {pre' post' : List β} {i' : β}
    (h : (is.filter k).map r = pre' ++ i' :: post') :
    ∃ pre i post, is = pre ++ i :: post ∧ k i = true ∧ r i = i' ∧ (pre.filter k).map r = pre' := by
  induction is generalizing pre' with
  | nil => simp at h
  | cons j is ih =>
    by_cases hj : k j = true
    · rw [List.filter_cons_of_pos hj, List.map_cons] at h
      cases pre' with
      | nil =>
        simp only [List.nil_append, List.cons.injEq] at h
        exact ⟨[], j, is, rfl, hj, h.1, rfl⟩
      | cons a pre' =>
        simp only [List.cons_append, List.cons.injEq] at h
        obtain ⟨pre, i, post, rfl, h2, h3, h4⟩ := ih h.2
        exact ⟨j :: pre, i, post, rfl, h2, h3, by rw [List.filter_cons_of_pos hj, List.map_cons, h4, h.1]⟩
    · rw [List.filter_cons_of_neg hj] at h
      obtain ⟨pre, i, post, rfl, h2, h3, h4⟩ := ih h
      exact ⟨j :: pre, i, post, rfl, h2, h3, by rw [List.filter_cons_of_neg hj, h4]⟩

theorem defs_rename (is : List Instr) : defs (is.map (Instr.rename τ)) = defs is := by
  simp only [defs, List.flatMap_map, rename_dests]

theorem defs_kept {b : ℕ} {blk : Block} (hb : f.blocks[b]? = some blk) {pre post : List Instr}
    (hp : blk.instrs = pre ++ post) {v : ValueId} (hv : ¬ Dropped f keep v) (h : v ∈ defs pre) :
    v ∈ defs ((pre.filter (keep b)).map (Instr.rename τ)) := by
  rw [defs_rename]
  obtain ⟨i, hi, hvi⟩ := mem_defs.1 h
  refine mem_defs.2 ⟨i, List.mem_filter.2 ⟨hi, ?_⟩, hvi⟩
  by_contra hk
  exact hv ⟨b, blk, hb, i, by rw [hp]; simp [hi], by simpa using hk, hvi⟩

theorem Renames.get (h : Renames calls f g τ keep) {b : ℕ} {blk' : Block} (hb : g.blocks[b]? = some blk') :
    ∃ blk, f.blocks[b]? = some blk ∧
      blk' = ⟨(blk.instrs.filter (keep b)).map (Instr.rename τ), Terminator.rename τ blk.term⟩ := by
  rw [h.blocks b] at hb
  obtain ⟨blk, h1, h2⟩ := Option.map_eq_some_iff.1 hb
  exact ⟨blk, h1, h2.symm⟩

theorem Renames.avoids (h : Renames calls f g τ keep) {v : ValueId} (hv : ¬ Dropped f keep v) {b : BlockId}
    (ha : Avoids g v b) : Avoids f v b := by
  induction ha with
  | entry hp => exact .entry (by rw [← h.params]; exact hp)
  | @step b blk' t _ hb hn ht ih =>
    obtain ⟨blk, hblk, rfl⟩ := h.get hb
    refine .step ih hblk (fun hd => hn ?_) (by simpa only [rename_targets] using ht)
    exact defs_kept hblk (List.append_nil _).symm hv hd

theorem Renames.reaches (h : Renames calls f g τ keep) {b : BlockId} (ha : Reaches g b) : Reaches f b := by
  induction ha with
  | entry => exact .entry
  | @step b blk' t _ hb ht ih =>
    obtain ⟨blk, hblk, rfl⟩ := h.get hb
    exact .step ih hblk (by simpa only [rename_targets] using ht)

theorem Avoids.reach {v : ValueId} {b : BlockId} (h : Avoids f v b) : Reaches f b := h.reaches

theorem mem_rename_sources {ss : List (BlockId × Value)} {p : BlockId} {w : ValueId}
    (h : (p, Value.Operand w) ∈ ss.map fun s => (s.1, Value.rename τ s.2)) :
    ∃ v, (p, Value.Operand v) ∈ ss ∧ τ v = w := by
  obtain ⟨⟨q, x⟩, hx, heq⟩ := List.mem_map.1 h
  simp only [Prod.mk.injEq] at heq
  obtain ⟨rfl, heq⟩ := heq
  cases x <;> simp only [Value.rename, Value.Operand.injEq, reduceCtorEq] at heq
  subst heq
  exact ⟨_, hx, rfl⟩

theorem rename_phi {i : Instr} {d : ValueId} {ty : MirType} {ss' : List (BlockId × Value)}
    (h : Instr.rename τ i = .Phi d ty ss') :
    ∃ ss, i = .Phi d ty ss ∧ ss' = ss.map fun s => (s.1, Value.rename τ s.2) := by
  cases i <;> simp only [Instr.rename, reduceCtorEq] at h
  case Phi d' ty' ss =>
    injection h with h1 h2 h3
    subst h1 h2 h3
    exact ⟨ss, rfl, rfl⟩

theorem rename_ssa (hs : Ssa f) (h : Renames calls f g τ keep) : Ssa g where
  single := by
    rw [h.params, defs_flatMap]
    have hsub : ∀ (b : ℕ) blk', g.blocks[b]? = some blk' → ∃ blk, f.blocks[b]? = some blk ∧
        (defs blk'.instrs).Sublist (defs blk.instrs) := by
      intro b blk' hb
      obtain ⟨blk, hblk, rfl⟩ := h.get hb
      refine ⟨blk, hblk, ?_⟩
      rw [defs_rename]
      exact List.filter_sublist.flatMap _
    refine List.nodup_append.2 ⟨(List.nodup_append.1 hs.single).1, List.nodup_flatMap.2 ⟨?_, ?_⟩, ?_⟩
    · intro blk' hm
      obtain ⟨b, hb⟩ := List.getElem?_of_mem hm
      obtain ⟨blk, hblk, hsl⟩ := hsub b blk' hb
      exact hsl.nodup (hs.nodup hblk)
    · rw [List.pairwise_iff_getElem]
      intro b c hb hc hlt v hv hv'
      obtain ⟨blk, hblk, hsl⟩ := hsub b _ (List.getElem?_eq_getElem hb)
      obtain ⟨blk2, hblk2, hsl2⟩ := hsub c _ (List.getElem?_eq_getElem hc)
      exact absurd (hs.unique hblk hblk2 (hsl.subset hv) (hsl2.subset hv')) (Nat.ne_of_lt hlt)
    · rintro v hv w hw rfl
      obtain ⟨blk', hm, hvb⟩ := List.mem_flatMap.1 hw
      obtain ⟨b, hb⟩ := List.getElem?_of_mem hm
      obtain ⟨blk, hblk, hsl⟩ := hsub b blk' hb
      exact hs.param hblk (hsl.subset hvb) hv
  head := by
    intro blk' hm
    obtain ⟨b, hb⟩ := List.getElem?_of_mem hm
    obtain ⟨blk, hblk, rfl⟩ := h.get hb
    obtain ⟨phis, rest, h1, h2, h3⟩ := hs.head blk (List.mem_of_getElem? hblk)
    refine ⟨(phis.filter (keep b)).map (Instr.rename τ), (rest.filter (keep b)).map (Instr.rename τ), ?_, ?_, ?_⟩
    · simp only [h1, List.filter_append, List.map_append]
    · intro i hi
      obtain ⟨j, hj, rfl⟩ := List.mem_map.1 hi
      rw [rename_isPhi]; exact h2 j (List.mem_of_mem_filter hj)
    · intro i hi
      obtain ⟨j, hj, rfl⟩ := List.mem_map.1 hi
      rw [rename_isPhi]; exact h3 j (List.mem_of_mem_filter hj)
  instrs := by
    intro b blk' hb pre' i' post' hp' hphi v' hv' ha
    obtain ⟨blk, hblk, rfl⟩ := h.get hb
    obtain ⟨pre, i, post, hp, hk, rfl, rfl⟩ := filter_map_split hp'
    rw [rename_isPhi] at hphi
    rw [rename_uses] at hv'
    obtain ⟨v, hv, rfl⟩ := List.mem_map.1 hv'
    have hr := h.reaches ha.reaches
    have hnd := h.instrs b blk hr hblk i (by rw [hp]; simp) hk hphi v hv
    exact defs_kept hblk hp hnd
      ((h.same b blk pre (i :: post) hr hblk hp v (hs.avail_use hblk hp hphi hv)).1 (h.avoids hnd ha))
  phis := by
    intro b blk' hb d ty ss' hm p w hw bp' hbp ht ha
    obtain ⟨blk, hblk, rfl⟩ := h.get hb
    obtain ⟨bp, hbpf, rfl⟩ := h.get hbp
    obtain ⟨j, hj, hji⟩ := List.mem_map.1 hm
    obtain ⟨ss, rfl, rfl⟩ := rename_phi hji
    obtain ⟨v, hv, rfl⟩ := mem_rename_sources hw
    rw [rename_targets] at ht
    obtain ⟨hj1, hj2⟩ := List.mem_filter.1 hj
    have hr := h.reaches ha.reaches
    have hnd := h.phis b blk hblk d ty ss hj1 hj2 p v hv bp hr hbpf ht
    exact defs_kept hbpf (List.append_nil _).symm hnd
      ((h.same p bp bp.instrs [] hr hbpf (by simp) v (hs.phis b blk hblk d ty ss hj1 p v hv bp hbpf ht)).1
        (h.avoids hnd ha))
  term := by
    intro b blk' hb v' hv' ha
    obtain ⟨blk, hblk, rfl⟩ := h.get hb
    rw [rename_term_uses] at hv'
    obtain ⟨v, hv, rfl⟩ := List.mem_map.1 hv'
    have hr := h.reaches ha.reaches
    have hnd := h.term b blk hr hblk v hv
    exact defs_kept hblk (List.append_nil _).symm hnd
      ((h.same b blk blk.instrs [] hr hblk (by simp) v (hs.term b blk hblk v hv)).1 (h.avoids hnd ha))
  returns := by
    intro r hr hd
    rw [h.returns] at hr
    refine hs.returns r hr ?_
    rw [defs_flatMap] at hd ⊢
    obtain ⟨blk', hm, hvb⟩ := List.mem_flatMap.1 hd
    obtain ⟨b, hb⟩ := List.getElem?_of_mem hm
    obtain ⟨blk, hblk, rfl⟩ := h.get hb
    rw [defs_rename] at hvb
    refine List.mem_flatMap.2 ⟨blk, List.mem_of_getElem? hblk, ?_⟩
    obtain ⟨i, hi, hvi⟩ := mem_defs.1 hvb
    exact mem_defs.2 ⟨i, List.mem_of_mem_filter hi, hvi⟩

end simulation

/-! ### Successive replacements -/

theorem replace_rename (a b : ValueId) (i : Instr) :
    i.replace a b = Instr.rename (fun v => if v = a then b else v) i := by
  have hv : Value.replace a b = Value.rename fun v => if v = a then b else v := by funext v; cases v <;> rfl
  have hp : Place.replace a b = Place.rename fun v => if v = a then b else v := by
    funext p
    simp only [Place.replace, Place.rename, hv]
    rfl
  cases i <;> simp only [Instr.replace, Instr.rename, hv, hp]

theorem replace_rename_term (a b : ValueId) (t : Terminator) :
    t.replace a b = Terminator.rename (fun v => if v = a then b else v) t := by
  have hv : Value.replace a b = Value.rename fun v => if v = a then b else v := by funext v; cases v <;> rfl
  cases t <;> simp only [Terminator.replace, Terminator.rename, hv]

theorem rename_rename (σ τ : ValueId → ValueId) (i : Instr) :
    Instr.rename σ (Instr.rename τ i) = Instr.rename (σ ∘ τ) i := by
  have hv : ∀ v, Value.rename σ (Value.rename τ v) = Value.rename (σ ∘ τ) v := fun v => by cases v <;> rfl
  have hp : ∀ p, Place.rename σ (Place.rename τ p) = Place.rename (σ ∘ τ) p := fun p => by
    simp only [Place.rename, List.map_map, Function.comp_apply]
    congr 2
    funext q
    cases q with
    | Index v => exact congrArg Projection.Index (hv v)
    | _ => rfl
  cases i <;> simp [Instr.rename, hv, hp, Function.comp_def]

theorem rename_rename_term (σ τ : ValueId → ValueId) (t : Terminator) :
    Terminator.rename σ (Terminator.rename τ t) = Terminator.rename (σ ∘ τ) t := by
  have hv : ∀ v, Value.rename σ (Value.rename τ v) = Value.rename (σ ∘ τ) v := fun v => by cases v <;> rfl
  cases t <;> simp [Terminator.rename, hv, Function.comp_def]

theorem rename_id (i : Instr) : Instr.rename id i = i := by
  have hv : Value.rename id = id := by funext v; cases v <;> rfl
  have hp : Place.rename id = id := by
    funext p
    obtain ⟨b, ps⟩ := p
    simp only [Place.rename, id, hv]
    congr 1
    conv_rhs => rw [← List.map_id ps]
    congr 1
    funext q; cases q <;> rfl
  cases i <;> simp [Instr.rename, hv, hp]

theorem rename_id_term (t : Terminator) : Terminator.rename id t = t := by
  have hv : Value.rename id = id := by funext v; cases v <;> rfl
  cases t <;> simp [Terminator.rename, hv]

/-- The renaming made by a list of replacements, applied from left to right. -/
def renamed : List (ValueId × ValueId) → ValueId → ValueId
  | [], v => v
  | c :: cs, v => renamed cs (if v = c.1 then c.2 else v)

/-- Successive replacements. -/
def replaceList (rs : List (ValueId × ValueId)) (f : Function) : Function :=
  rs.foldl (fun g c => replaceAllUses c.1 c.2 g) f

theorem renamed_of_not_mem {rs : List (ValueId × ValueId)} {v : ValueId} (h : v ∉ rs.map Prod.fst) :
    renamed rs v = v := by
  induction rs with
  | nil => rfl
  | cons c rs ih =>
    simp only [List.map_cons, List.mem_cons, not_or] at h
    rw [renamed, if_neg h.1, ih h.2]

theorem renamed_of_mem {rs : List (ValueId × ValueId)} (hn : (rs.map Prod.fst).Nodup) {v w : ValueId}
    (h : (v, w) ∈ rs) (hw : w ∉ rs.map Prod.fst) : renamed rs v = w := by
  induction rs with
  | nil => simp at h
  | cons c rs ih =>
    simp only [List.map_cons, List.nodup_cons, List.mem_cons, not_or] at hn hw
    rcases List.mem_cons.1 h with rfl | h
    · rw [renamed, if_pos rfl, renamed_of_not_mem hw.2]
    · have : v ≠ c.1 := fun hc => hn.1 (hc ▸ List.mem_map_of_mem (f := Prod.fst) h)
      rw [renamed, if_neg this, ih hn.2 h hw.2]

theorem replaceList_blocks (rs : List (ValueId × ValueId)) (f : Function) :
    (replaceList rs f).blocks = f.blocks.map fun blk =>
      ⟨blk.instrs.map (Instr.rename (renamed rs)), Terminator.rename (renamed rs) blk.term⟩ := by
  induction rs generalizing f with
  | nil =>
    have h1 : renamed [] = id := rfl
    have h2 : Instr.rename id = id := funext rename_id
    simp [replaceList, h1, h2, rename_id_term]
  | cons c rs ih =>
    have hstep : replaceList (c :: rs) f = replaceList rs (replaceAllUses c.1 c.2 f) := rfl
    have hτ : renamed (c :: rs) = renamed rs ∘ fun v => if v = c.1 then c.2 else v := rfl
    rw [hstep, ih, hτ]
    unfold replaceAllUses
    split_ifs with hc
    · have : (fun v => if v = c.1 then c.2 else v) = id := by funext v; split_ifs with hv <;> simp [hv, hc]
      rw [this, Function.comp_id]
    · simp only [List.map_map, Function.comp_def]
      refine List.map_congr_left fun blk _ => ?_
      simp only [replace_rename, replace_rename_term, rename_rename, rename_rename_term]
      rfl

theorem map_if_id {l : List ValueId} {a b : ValueId} (h : a ∉ l) : (l.map fun p => if p = a then b else p) = l := by
  conv_rhs => rw [← List.map_id l]
  refine List.map_congr_left fun p hp => ?_
  rw [if_neg (by rintro rfl; exact h hp)]; rfl

theorem replaceList_params {rs : List (ValueId × ValueId)} {f : Function} (h : ∀ p ∈ f.params, p ∉ rs.map Prod.fst) :
    (replaceList rs f).params = f.params := by
  induction rs generalizing f with
  | nil => rfl
  | cons c rs ih =>
    have h1 : (replaceAllUses c.1 c.2 f).params = f.params := by
      unfold replaceAllUses
      split_ifs
      · rfl
      · exact map_if_id fun hp => h c.1 hp (by simp)
    have hstep : replaceList (c :: rs) f = replaceList rs (replaceAllUses c.1 c.2 f) := rfl
    rw [hstep, ih (by rw [h1]; exact fun p hp hm => h p hp (by simp only [List.map_cons, List.mem_cons]; exact Or.inr hm)), h1]

theorem replaceList_returns {rs : List (ValueId × ValueId)} {f : Function}
    (h : ∀ p ∈ f.returns, p ∉ rs.map Prod.fst) : (replaceList rs f).returns = f.returns := by
  induction rs generalizing f with
  | nil => rfl
  | cons c rs ih =>
    have h1 : (replaceAllUses c.1 c.2 f).returns = f.returns := by
      unfold replaceAllUses
      split_ifs
      · rfl
      · exact map_if_id fun hp => h c.1 hp (by simp)
    have hstep : replaceList (c :: rs) f = replaceList rs (replaceAllUses c.1 c.2 f) := rfl
    rw [hstep, ih (by rw [h1]; exact fun p hp hm => h p hp (by simp only [List.map_cons, List.mem_cons]; exact Or.inr hm)), h1]

theorem replaceList_types {rs : List (ValueId × ValueId)} {f : Function} {r : ValueId} (h : r ∉ rs.map Prod.fst)
    (h' : (f.types r).isSome ∨ r ∉ rs.map Prod.snd) : (replaceList rs f).types r = f.types r := by
  induction rs generalizing f with
  | nil => rfl
  | cons c rs ih =>
    simp only [List.map_cons, List.mem_cons, not_or] at h h'
    have h1 : (replaceAllUses c.1 c.2 f).types r = f.types r := by
      unfold replaceAllUses
      split_ifs
      · rfl
      · simp only [if_neg h.1]
        split_ifs with hr
        · rcases h' with h' | h'
          · rw [hr] at h' ⊢
            obtain ⟨t, ht⟩ := Option.isSome_iff_exists.1 h'
            rw [ht]
          · exact absurd hr h'.1
        · rfl
    have hstep : replaceList (c :: rs) f = replaceList rs (replaceAllUses c.1 c.2 f) := rfl
    rw [hstep, ih h.2 (by rw [h1]; exact h'.imp_right And.right), h1]

end Lang
end CairoM
