import Verif.MirBranchLemmas
import Verif.MirFoldProps

/-!
# Dead code elimination: helper lemmas
-/

namespace CairoM
namespace Lang

open Mir

variable {S : ValueId → Prop} {calls : Calls}

/-- Phi nodes followed by the other instructions. -/
def evalBody (calls : Calls) (env : Env) (p : Option BlockId) (is : List Instr) (acc : Env) : Option Env :=
  (evalPhis env p is acc).bind fun r => evalInstrs calls r.2 r.1

theorem evalBlock_body {ts : List (Option MirType)} {b : Block} {p : Option BlockId} {env : Env} :
    evalBlock calls ts b p env =
      (evalBody calls env p b.instrs env).bind fun e => (evalTerm ts e b.term).map fun x => (x, e) := by
  unfold evalBlock evalBody
  simp only [Option.bind_eq_bind, Option.bind_assoc]
  congr 1; funext r; congr 1; funext e
  cases evalTerm ts e b.term <;> rfl

/-- The instructions without a phi node. -/
def NoPhi (is : List Instr) : Prop := ∀ i ∈ is, ∀ d ty ss, i ≠ .Phi d ty ss

theorem evalInstrs_noPhi {is : List Instr} {env env' : Env} (h : evalInstrs calls is env = some env') : NoPhi is := by
  induction is generalizing env with
  | nil => intro i hi; simp at hi
  | cons i is ih =>
    simp only [evalInstrs, Option.bind_eq_bind, Option.bind_eq_some_iff] at h
    obtain ⟨e, h1, h2⟩ := h
    intro j hj
    rcases List.mem_cons.1 hj with rfl | hj
    · rintro d ty ss rfl; simp [evalInstr] at h1
    · exact ih h2 j hj

theorem evalPhis_noPhi {is : List Instr} (h : NoPhi is) {env acc : Env} {p : Option BlockId} :
    evalPhis env p is acc = some (acc, is) := by
  cases is with
  | nil => rfl
  | cons i is =>
    cases i <;> first | rfl | exact absurd rfl (h _ List.mem_cons_self _ _ _)

/-- An instruction without side effects whose destination is not in `S`. -/
theorem evalInstr_dead {i : Instr} {a a' b : Env} (h : Agree S a b) (hs : i.hasSideEffects = false)
    (hd : i = .Nop ∨ ∃ d, i.destination = some d ∧ ¬ S d) (he : evalInstr calls i a = some a') : Agree S a' b := by
  cases i with
  | Assign d v ty =>
    simp only [evalInstr, Option.bind_eq_bind, Option.bind_eq_some_iff, Option.some.injEq] at he
    obtain ⟨t, -, x, -, rfl⟩ := he
    obtain ⟨d', h1, h2⟩ := hd.resolve_left (by simp)
    simp only [Instr.destination, Instr.destinations, Option.some.injEq] at h1; subst h1
    exact h.update_left h2 _
  | UnaryOp op d v =>
    simp only [evalInstr, Option.bind_eq_bind, Option.bind_eq_some_iff, Option.some.injEq] at he
    obtain ⟨t, -, x, -, rfl⟩ := he
    obtain ⟨d', h1, h2⟩ := hd.resolve_left (by simp)
    simp only [Instr.destination, Instr.destinations, Option.some.injEq] at h1; subst h1
    exact h.update_left h2 _
  | BinaryOp op d l r =>
    simp only [evalInstr, Option.bind_eq_bind, Option.bind_eq_some_iff, Option.some.injEq] at he
    obtain ⟨x, -, y, -, z, -, rfl⟩ := he
    obtain ⟨d', h1, h2⟩ := hd.resolve_left (by simp)
    simp only [Instr.destination, Instr.destinations, Option.some.injEq] at h1; subst h1
    exact h.update_left h2 _
  | Cast d v s t =>
    simp only [evalInstr, Option.bind_eq_bind, Option.bind_eq_some_iff, Option.some.injEq] at he
    obtain ⟨s, -, t, -, x, -, y, -, rfl⟩ := he
    obtain ⟨d', h1, h2⟩ := hd.resolve_left (by simp)
    simp only [Instr.destination, Instr.destinations, Option.some.injEq] at h1; subst h1
    exact h.update_left h2 _
  | Call ds c args sig => simp [Instr.hasSideEffects] at hs
  | AssertEq l r =>
    obtain ⟨d', h1, h2⟩ := hd.resolve_left (by simp)
    simp [Instr.destination, Instr.destinations] at h1
  | Debug vs => simp [Instr.hasSideEffects] at hs
  | Nop => simp only [evalInstr, Option.some.injEq] at he; subst he; exact h
  | _ => simp [evalInstr] at he

/-- What is removed: instructions without side effects whose destination is not in `S`. -/
def DropsDead (S : ValueId → Prop) (keep : Instr → Bool) : Prop :=
  ∀ i, keep i = false → i.hasSideEffects = false ∧ (i = .Nop ∨ ∃ d, i.destination = some d ∧ ¬ S d)

theorem evalInstrs_filter {keep : Instr → Bool} (hk : DropsDead S keep) {is : List Instr}
    (hu : ∀ i ∈ is, keep i = true → ∀ v ∈ i.uses, S v) {a b : Env} (h : Agree S a b) :
    OptFwd (Agree S) (evalInstrs calls is a) (evalInstrs calls (is.filter keep) b) := by
  induction is generalizing a b with
  | nil => exact h
  | cons i is ih =>
    have hu' : ∀ j ∈ is, keep j = true → ∀ v ∈ j.uses, S v := fun j hj => hu j (by simp [hj])
    cases hi : keep i with
    | true =>
      rw [List.filter_cons_of_pos hi]
      exact (evalInstr_agree h (hu i (by simp) hi)).fwd.bind fun x y hxy => ih hu' hxy
    | false =>
      rw [List.filter_cons_of_neg (by simp [hi])]
      simp only [evalInstrs, Option.bind_eq_bind]
      cases he : evalInstr calls i a with
      | none => trivial
      | some a' => exact ih hu' (evalInstr_dead h (hk i hi).1 (hk i hi).2 he)

theorem evalBody_filter {keep : Instr → Bool} (hk : DropsDead S keep) {is : List Instr}
    (hu : ∀ i ∈ is, keep i = true → ∀ v ∈ i.uses, S v) {a b a' b' : Env} (h : Agree S a b) (h' : Agree S a' b')
    {p : Option BlockId} :
    OptFwd (Agree S) (evalBody calls a p is a') (evalBody calls b p (is.filter keep) b') := by
  induction is generalizing a' b' with
  | nil => exact h'
  | cons i is ih =>
    have hu' : ∀ j ∈ is, keep j = true → ∀ v ∈ j.uses, S v := fun j hj => hu j (by simp [hj])
    by_cases hp : ∃ d ty ss, i = .Phi d ty ss
    · obtain ⟨d, ty, ss, rfl⟩ := hp
      cases p with
      | none => trivial
      | some p =>
        cases hx : phiValue a p ty ss with
        | none => simp [evalBody, evalPhis, hx, OptFwd]
        | some x =>
          have e1 : evalBody calls a (some p) (.Phi d ty ss :: is) a' =
              evalBody calls a (some p) is (Function.update a' d (some x)) := by
            simp [evalBody, evalPhis, hx]
          rw [e1]
          cases hi : keep (.Phi d ty ss) with
          | true =>
            have hx' := phiValue_agree (p := p) (ty := ty) h (ss := ss) (hu (.Phi d ty ss) (by simp) hi)
            rw [List.filter_cons_of_pos hi]
            have e2 : evalBody calls b (some p) (.Phi d ty ss :: is.filter keep) b' =
                evalBody calls b (some p) (is.filter keep) (Function.update b' d (some x)) := by
              simp [evalBody, evalPhis, ← hx', hx]
            rw [e2]
            exact ih hu' (h'.update d _)
          | false =>
            rw [List.filter_cons_of_neg (by simp [hi])]
            obtain ⟨d', h1, h2⟩ := (hk _ hi).2.resolve_left (by simp)
            simp only [Instr.destination, Instr.destinations, Option.some.injEq] at h1
            subst h1
            exact ih hu' (h'.update_left h2 _)
    · have e1 : evalPhis a p (i :: is) a' = some (a', i :: is) := by
        cases i <;> first | rfl | exact absurd ⟨_, _, _, rfl⟩ hp
      have e3 : evalBody calls a p (i :: is) a' = evalInstrs calls (i :: is) a' := by simp [evalBody, e1]
      rw [e3]
      cases he : evalInstrs calls (i :: is) a' with
      | none => trivial
      | some e =>
        have hn : NoPhi ((i :: is).filter keep) := fun j hj => evalInstrs_noPhi he j (List.mem_of_mem_filter hj)
        have e4 : evalBody calls b p ((i :: is).filter keep) b' = evalInstrs calls ((i :: is).filter keep) b' := by
          simp [evalBody, evalPhis_noPhi hn]
        rw [e4, ← he]
        exact evalInstrs_filter hk hu h'

theorem drops_isLive (bs : List Block) : DropsDead (fun v => 0 < useCount bs v) (isLive (useCount bs)) := by
  intro i hi
  unfold isLive at hi
  cases hs : i.hasSideEffects with
  | true => simp [hs] at hi
  | false =>
    refine ⟨rfl, ?_⟩
    simp only [hs, Bool.false_eq_true, if_false] at hi
    by_cases hn : i = .Nop
    · exact Or.inl hn
    · right
      cases hd : i.destination with
      | none => cases i <;> simp_all
      | some d => exact ⟨d, rfl, by cases i <;> simp_all⟩

theorem dropDeadOnce_run {f : Function} (n : ℕ) {args : List Val} (hf : run calls f n args ≠ .fault) :
    run calls { f with blocks := dropDeadOnce f.blocks } n args = run calls f n args := by
  unfold run at hf ⊢
  show (match bind (fun _ => none) f.params args with | none => _ | some env => _) = _
  cases hbd : bind (fun _ => none) f.params args with
  | none => rfl
  | some env =>
    rw [hbd] at hf
    simp only at hf ⊢
    refine (exec_fwd (R := Agree (fun v => 0 < useCount f.blocks v)) ?_ n none 0 Agree.refl hf).symm
    intro id
    show OptFwd _ f.blocks[id]? (dropDeadOnce f.blocks)[id]?
    unfold dropDeadOnce
    rw [List.getElem?_map]
    cases hb : f.blocks[id]? with
    | none => trivial
    | some b =>
      have hm := List.mem_of_getElem? hb
      intro p e e' h
      rw [evalBlock_body, evalBlock_body]
      refine (evalBody_filter (drops_isLive f.blocks)
        (fun i hi _ v hv => useCount_pos_instr hm hi hv) h h).bind ?_
      intro x y hxy
      show OptFwd _ _ ((evalTerm (returnTys f) y b.term).map _)
      rw [evalTerm_agree hxy (fun v hv => useCount_pos_term hm hv)]
      cases evalTerm (returnTys f) y b.term with
      | none => trivial
      | some z => exact ⟨rfl, hxy⟩

theorem dropDead_run (m : ℕ) {f : Function} (n : ℕ) {args : List Val} (hf : run calls f n args ≠ .fault) :
    run calls { f with blocks := dropDead m f.blocks } n args = run calls f n args := by
  induction m generalizing f with
  | zero => rfl
  | succ m ih =>
    have h1 := dropDeadOnce_run n hf
    exact (ih (f := { f with blocks := dropDeadOnce f.blocks }) (by rw [h1]; exact hf)).trans h1

/-! ### Unreachable blocks -/

theorem reach_mono {blocks : List Block} {n : ℕ} {stack seen : List BlockId} {b : BlockId} (h : b ∈ seen) :
    b ∈ reach blocks n stack seen := by
  induction n generalizing stack seen with
  | zero => exact h
  | succ n ih =>
    cases stack with
    | nil => exact h
    | cons c stack =>
      simp only [reach]
      split_ifs
      · exact ih h
      · split
        · exact ih (by simp [h])
        · exact ih (by simp [h])

/-- Number of blocks not seen yet. -/
def unseen (blocks : List Block) (seen : List BlockId) : ℕ :=
  ((List.range blocks.length).filter fun i => decide (i ∉ seen)).length

theorem filter_length_lt {α : Type} {p q : α → Bool} {l : List α} (h : ∀ a ∈ l, q a = true → p a = true)
    {a : α} (ha : a ∈ l) (hp : p a = true) (hq : q a = false) : (l.filter q).length < (l.filter p).length := by
  induction l with
  | nil => simp at ha
  | cons b l ih =>
    have hle : ∀ l : List α, (∀ a ∈ l, q a = true → p a = true) → (l.filter q).length ≤ (l.filter p).length := by
      intro l hl
      rw [← List.countP_eq_length_filter, ← List.countP_eq_length_filter]
      exact List.countP_mono_left (fun x hx hq => hl x hx hq)
    rcases List.mem_cons.1 ha with rfl | ha
    · rw [List.filter_cons_of_pos hp, List.filter_cons_of_neg (by simp [hq])]
      have := hle l (fun x hx => h x (by simp [hx]))
      simp only [List.length_cons]; omega
    · have := ih (fun x hx => h x (by simp [hx])) ha
      by_cases hqb : q b = true
      · rw [List.filter_cons_of_pos hqb, List.filter_cons_of_pos (h b (by simp) hqb)]
        simp only [List.length_cons]; omega
      · rw [List.filter_cons_of_neg hqb]
        by_cases hpb : p b = true
        · rw [List.filter_cons_of_pos hpb]; simp only [List.length_cons]; omega
        · rw [List.filter_cons_of_neg hpb]; exact this

theorem unseen_cons {blocks : List Block} {seen : List BlockId} {b : BlockId} (hb : b ∉ seen) (hl : b < blocks.length) :
    unseen blocks (b :: seen) < unseen blocks seen := by
  unfold unseen
  refine filter_length_lt ?_ (List.mem_range.2 hl) (by simpa using hb) (by simp)
  intro a _ h
  simp only [List.mem_cons, not_or, decide_eq_true_eq] at h ⊢
  exact h.2

theorem unseen_le {blocks : List Block} {seen : List BlockId} {b : BlockId} :
    unseen blocks (b :: seen) ≤ unseen blocks seen := by
  unfold unseen
  rw [← List.countP_eq_length_filter, ← List.countP_eq_length_filter]
  refine List.countP_mono_left ?_
  intro a _ h
  simp only [List.mem_cons, not_or, decide_eq_true_eq] at h ⊢
  exact h.2

theorem targets_length (t : Terminator) : t.targets.length ≤ 2 := by cases t <;> simp [Terminator.targets]

theorem reach_closed {blocks : List Block} {n : ℕ} {stack seen : List BlockId}
    (hn : stack.length + 2 * unseen blocks seen < n)
    (hc : ∀ b ∈ seen, ∀ blk, blocks[b]? = some blk → ∀ t ∈ blk.term.targets, t ∈ seen ∨ t ∈ stack) :
    (∀ b ∈ stack, b ∈ reach blocks n stack seen) ∧
    ∀ b ∈ reach blocks n stack seen, ∀ blk, blocks[b]? = some blk → ∀ t ∈ blk.term.targets,
      t ∈ reach blocks n stack seen := by
  induction n generalizing stack seen with
  | zero => omega
  | succ n ih =>
    cases stack with
    | nil =>
      refine ⟨by simp, ?_⟩
      intro b hb blk hblk t ht
      exact (hc b hb blk hblk t ht).resolve_right (by simp)
    | cons c stack =>
      simp only [List.length_cons] at hn
      simp only [reach]
      split_ifs with hcs
      · have := ih (stack := stack) (seen := seen) (by omega) (by
          intro b hb blk hblk t ht
          rcases hc b hb blk hblk t ht with h | h
          · exact Or.inl h
          · rcases List.mem_cons.1 h with rfl | h
            · exact Or.inl hcs
            · exact Or.inr h)
        refine ⟨?_, this.2⟩
        intro b hb
        rcases List.mem_cons.1 hb with rfl | hb
        · exact reach_mono hcs
        · exact this.1 b hb
      · split
        · rename_i blk hblk
          have hlt := unseen_cons hcs (by
            rcases Nat.lt_or_ge c blocks.length with h | h
            · exact h
            · rw [List.getElem?_eq_none_iff.2 h] at hblk; cases hblk)
          have hl := targets_length blk.term
          have := ih (stack := blk.term.targets.reverse ++ stack) (seen := c :: seen) (by
              simp only [List.length_append, List.length_reverse]; omega) (by
            intro b hb blk' hblk' t ht
            rcases List.mem_cons.1 hb with rfl | hb
            · rw [hblk, Option.some.injEq] at hblk'; subst hblk'
              right; simp [ht]
            · rcases hc b hb blk' hblk' t ht with h | h
              · left; simp [h]
              · rcases List.mem_cons.1 h with rfl | h
                · left; simp
                · right; simp [h])
          refine ⟨?_, this.2⟩
          intro b hb
          rcases List.mem_cons.1 hb with rfl | hb
          · exact reach_mono (by simp)
          · exact this.1 b (by simp [hb])
        · rename_i hblk
          have hle := unseen_le (blocks := blocks) (seen := seen) (b := c)
          have := ih (stack := stack) (seen := c :: seen) (by omega) (by
            intro b hb blk' hblk' t ht
            rcases List.mem_cons.1 hb with rfl | hb
            · rw [hblk] at hblk'; cases hblk'
            · rcases hc b hb blk' hblk' t ht with h | h
              · left; simp [h]
              · rcases List.mem_cons.1 h with rfl | h
                · left; simp
                · right; exact h)
          refine ⟨?_, this.2⟩
          intro b hb
          rcases List.mem_cons.1 hb with rfl | hb
          · exact reach_mono (by simp)
          · exact this.1 b hb

theorem reachable_closed (f : Function) : 0 ∈ reachable f ∧
    ∀ b ∈ reachable f, ∀ blk, f.blocks[b]? = some blk → ∀ t ∈ blk.term.targets, t ∈ reachable f := by
  have := reach_closed (blocks := f.blocks) (n := 3 * f.blocks.length + 2) (stack := [0]) (seen := []) (by
    have : unseen f.blocks [] ≤ f.blocks.length := by
      unfold unseen; exact (List.length_filter_le _ _).trans (by simp)
    simp only [List.length_singleton]; omega) (by simp)
  exact ⟨this.1 0 (by simp), this.2⟩

theorem filterMap_getElem? {α β : Type} {l : List α} {g : α → Option β} (h : ∀ a ∈ l, (g a).isSome) (i : ℕ) :
    (l.filterMap g)[i]? = l[i]?.bind g := by
  induction l generalizing i with
  | nil => simp
  | cons a l ih =>
    obtain ⟨b, hb⟩ := Option.isSome_iff_exists.1 (h a (by simp))
    rw [List.filterMap_cons_some hb]
    cases i with
    | zero => simp [hb]
    | succ i => simpa using ih (fun x hx => h x (by simp [hx])) i

theorem keptBlocks_lt {f : Function} {i : BlockId} (h : i ∈ keptBlocks f) : i < f.blocks.length ∧ i ∈ reachable f := by
  simp only [keptBlocks, List.mem_filter, List.mem_range, decide_eq_true_eq] at h
  exact h

theorem dropUnreachable_get (f : Function) (k : ℕ) :
    (dropUnreachable f).blocks[k]? = (keptBlocks f)[k]?.bind fun i => (f.blocks[i]?).map fun b =>
      { b with term := remapTerm (newIndex (keptBlocks f)) b.term } := by
  refine filterMap_getElem? ?_ k
  intro i hi
  have := (keptBlocks_lt hi).1
  simp [this]

/-- The block with the new number of a reachable block. -/
theorem dropUnreachable_new {f : Function} {i : BlockId} (h : i ∈ reachable f) :
    (dropUnreachable f).blocks[newIndex (keptBlocks f) i]? = (f.blocks[i]?).map fun b =>
      { b with term := remapTerm (newIndex (keptBlocks f)) b.term } := by
  rw [dropUnreachable_get]
  by_cases hi : i < f.blocks.length
  · have hk : i ∈ keptBlocks f := by
      simp only [keptBlocks, List.mem_filter, List.mem_range, decide_eq_true_eq]; exact ⟨hi, h⟩
    have : (keptBlocks f)[newIndex (keptBlocks f) i]? = some i := by
      unfold newIndex
      exact List.getElem?_idxOf hk
    rw [this]; rfl
  · have hk : i ∉ keptBlocks f := fun h => hi (keptBlocks_lt h).1
    have h1 : newIndex (keptBlocks f) i = (keptBlocks f).length := List.idxOf_eq_length_iff.2 hk
    rw [h1, List.getElem?_eq_none_iff.2 (by omega)]
    rw [List.getElem?_eq_none_iff.2 (Nat.le_of_not_lt hi)]
    rfl

/-- An exit with renumbered target. -/
def Exit.map (g : BlockId → BlockId) : Exit → Exit
  | .goto t => .goto (g t)
  | .ret vs => .ret vs

theorem evalTerm_remap {ts : List (Option MirType)} {env : Env} {t : Terminator} (g : BlockId → BlockId) :
    evalTerm ts env (remapTerm g t) = (evalTerm ts env t).map (Exit.map g) := by
  cases t with
  | Jump t => rfl
  | If c t e =>
    simp only [remapTerm, evalTerm, Option.bind_eq_bind]
    cases readPlain env c with
    | none => rfl
    | some x =>
      simp only [Option.bind_some]
      cases truthy x with
      | none => rfl
      | some b => cases b <;> rfl
  | BranchCmp op l r t e =>
    simp only [remapTerm, evalTerm, Option.bind_eq_bind]
    cases operand env op l with
    | none => rfl
    | some x =>
      cases operand env op r with
      | none => rfl
      | some y =>
        simp only [Option.bind_some]
        cases binary op x y with
        | none => rfl
        | some z =>
          simp only [Option.bind_some]
          cases truthy z with
          | none => rfl
          | some b => cases b <;> rfl
  | Return vs =>
    simp only [remapTerm, evalTerm]
    cases readAll env ts vs <;> rfl
  | Unreachable => rfl

theorem evalTerm_target {ts : List (Option MirType)} {env : Env} {t : Terminator} {b : BlockId}
    (h : evalTerm ts env t = some (.goto b)) : b ∈ t.targets := by
  have hch : ∀ (c : Bool) (x y : BlockId), choose c x y = .goto b → b = x ∨ b = y := by
    intro c x y hc; cases c <;> simp [choose] at hc <;> simp [hc]
  cases t with
  | Jump t => simp [evalTerm] at h; simp [Terminator.targets, h]
  | If c t e =>
    simp only [evalTerm, Option.bind_eq_bind, Option.bind_eq_some_iff, Option.some.injEq] at h
    obtain ⟨x, -, c, -, h⟩ := h
    simpa [Terminator.targets] using hch c t e h
  | BranchCmp op l r t e =>
    simp only [evalTerm, Option.bind_eq_bind, Option.bind_eq_some_iff, Option.some.injEq] at h
    obtain ⟨x, -, y, -, z, -, c, -, h⟩ := h
    simpa [Terminator.targets] using hch c t e h
  | Return vs => simp [evalTerm] at h
  | Unreachable => simp [evalTerm] at h

/-- Phi nodes that do not depend on the numbering. -/
theorem evalBlock_pred {ts : List (Option MirType)} {b : Block} (hn : NoPhi b.instrs) {p p' : Option BlockId} {env : Env} :
    evalBlock calls ts b p env = evalBlock calls ts b p' env := by
  unfold evalBlock
  rw [evalPhis_noPhi hn, evalPhis_noPhi hn]

theorem evalBlock_remap {ts : List (Option MirType)} {b : Block} {p : Option BlockId} {env : Env}
    (g : BlockId → BlockId) :
    evalBlock calls ts { b with term := remapTerm g b.term } p env =
      (evalBlock calls ts b p env).map fun x => (x.1.map g, x.2) := by
  rw [evalBlock_body, evalBlock_body]
  show Option.bind (evalBody calls env p b.instrs env) _ = _
  cases evalBody calls env p b.instrs env with
  | none => rfl
  | some e =>
    simp only [Option.bind_some]
    rw [evalTerm_remap]
    cases evalTerm ts e b.term <;> rfl

theorem exec_dropUnreachable {f : Function} (hn : ∀ i ∈ reachable f, ∀ b, f.blocks[i]? = some b → NoPhi b.instrs)
    (n : ℕ) {p p' : Option BlockId} {i : BlockId} (hi : i ∈ reachable f) (env : Env) :
    exec calls (dropUnreachable f) n p' (newIndex (keptBlocks f) i) env = exec calls f n p i env := by
  induction n generalizing p p' i env with
  | zero => rfl
  | succ n ih =>
    simp only [exec]
    rw [dropUnreachable_new hi]
    cases hb : f.blocks[i]? with
    | none => rfl
    | some b =>
      simp only [Option.map_some]
      have : returnTys (dropUnreachable f) = returnTys f := rfl
      rw [this, evalBlock_remap, evalBlock_pred (hn i hi b hb) (p' := p)]
      cases he : evalBlock calls (returnTys f) b p env with
      | none => rfl
      | some x =>
        obtain ⟨x, e⟩ := x
        cases x with
        | ret vs => rfl
        | goto t =>
          simp only [Option.map_some, Exit.map]
          refine ih ?_ e
          refine (reachable_closed f).2 i hi b hb t ?_
          rw [evalBlock_body] at he
          simp only [Option.bind_eq_some_iff, Option.map_eq_some_iff, Prod.mk.injEq] at he
          obtain ⟨e', -, y, hy, rfl, -⟩ := he
          exact evalTerm_target hy

theorem newIndex_zero {f : Function} : newIndex (keptBlocks f) 0 = 0 := by
  unfold newIndex keptBlocks
  have h0 := (reachable_closed f).1
  cases hl : f.blocks.length with
  | zero => rfl
  | succ n =>
    rw [List.range_succ_eq_map, List.filter_cons_of_pos (by simpa using h0)]
    simp

end Lang
end CairoM
