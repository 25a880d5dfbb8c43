import Verif.PhiLemmas

/-!
# Elimination of phi nodes in a function: helper lemmas
-/

namespace CairoM
namespace Lang

open Mir

/-- The destination of a phi instruction. -/
def phiDest : Instr → Option ValueId
  | .Phi d _ _ => some d
  | _ => none

/-- Whether an instruction is not a phi instruction. -/
def notPhi : Instr → Bool
  | .Phi .. => false
  | _ => true

/-- What makes the phi instructions of a function removable. `Live t v`: the value `v` may be needed in block `t`
after its phi instructions; `Defined t v`: `v` has a value there, whatever path was taken. -/
structure PhiOk (f : Function) (Live Defined : BlockId → ValueId → Prop) : Prop where
  /-- Jumps lead to blocks of the function. -/
  targets : ∀ b ∈ f.blocks, ∀ t ∈ b.term.targets, t < f.blocks.length
  /-- Phi instructions have distinct destinations. -/
  dests : ((f.blocks.flatMap Block.instrs).filterMap phiDest).Nodup
  /-- A phi instruction has at most one source per predecessor. -/
  keys : ∀ b ∈ f.blocks, ∀ d ty ss, Instr.Phi d ty ss ∈ b.instrs → (ss.map Prod.fst).Nodup
  /-- The sources of a phi instruction are predecessors; its destination is not needed at the end of the
  predecessor, nor in its other successors. -/
  preds : ∀ (t : ℕ) (b : Block), f.blocks[t]? = some b → ∀ d ty ss, Instr.Phi d ty ss ∈ b.instrs → ∀ p v, (p, v) ∈ ss →
    ∃ bp, f.blocks[p]? = some bp ∧ t ∈ bp.term.targets ∧ d ∉ bp.term.uses ∧
      ∀ t' ∈ bp.term.targets, t' ≠ t → ¬ Live t' d
  /-- The values used by the instructions and the terminator of a block are live in it. -/
  uses : ∀ (t : ℕ) (b : Block), f.blocks[t]? = some b → (∀ i ∈ b.instrs, notPhi i = true → ∀ v ∈ i.uses, Live t v) ∧
    ∀ v ∈ b.term.uses, Live t v
  /-- The values live in a successor are live, except the destinations of its phi instructions. -/
  through : ∀ (p : ℕ) (bp : Block), f.blocks[p]? = some bp → ∀ t ∈ bp.term.targets, ∀ b, f.blocks[t]? = some b → ∀ v, Live t v →
    some v ∉ b.instrs.map phiDest → Live p v
  /-- The sources of phi instructions are live and defined at the end of the predecessor. -/
  sources : ∀ c p bp, f.blocks[p]? = some bp → c ∈ phiCopies f.blocks p →
    (∃ s, c.source = .Operand s ∧ (scalarTy c.ty).isSome ∧ Live p s ∧
      (Defined p s ∨ ∃ i ∈ bp.instrs, notPhi i = true ∧ s ∈ i.destinations)) ∨
    ∃ l t, c.source = .Literal l ∧ scalarTy c.ty = some t ∧ (denote t l).isSome
  /-- What is defined in a block is defined in all its predecessors or by its phi instructions. -/
  defined : ∀ (p : ℕ) (bp : Block), f.blocks[p]? = some bp → ∀ t ∈ bp.term.targets, ∀ b, f.blocks[t]? = some b → ∀ v, Defined t v →
    some v ∈ b.instrs.map phiDest ∨ Defined p v ∨ ∃ i ∈ bp.instrs, notPhi i = true ∧ v ∈ i.destinations
  /-- On entry only the parameters are defined. -/
  entry : ∀ v, Defined 0 v → v ∈ f.params
  /-- The copies for each predecessor can be ordered, or are in order. -/
  order : ∀ p, (Orderable (phiCopies f.blocks p) ∨ InOrder (phiCopies f.blocks p)) ∧ NoLiteralHazard (phiCopies f.blocks p)

/-! ### Copies and phi instructions -/

theorem mem_phiCopies {bs : List Block} {p : BlockId} {c : Copy} (h : c ∈ phiCopies bs p) :
    ∃ (t : ℕ) (b : Block) (ss : List (BlockId × Value)), bs[t]? = some b ∧ Instr.Phi c.dest c.ty ss ∈ b.instrs ∧
      (p, c.source) ∈ ss := by
  simp only [phiCopies, List.mem_flatMap] at h
  obtain ⟨i, ⟨b, hb, hi⟩, hc⟩ := h
  obtain ⟨t, ht⟩ := List.getElem?_of_mem hb
  cases i with
  | Phi d ty ss =>
    simp only [List.mem_map, List.mem_filter, decide_eq_true_eq] at hc
    obtain ⟨⟨q, v⟩, ⟨hs, hq⟩, rfl⟩ := hc
    simp only at hq
    subst hq
    exact ⟨t, b, ss, ht, hi, hs⟩
  | _ => simp at hc

theorem phiCopies_mem {bs : List Block} {b : Block} (hb : b ∈ bs) {d : ValueId} {ty : MirType}
    {ss : List (BlockId × Value)} (hi : Instr.Phi d ty ss ∈ b.instrs) {p : BlockId} {v : Value} (hs : (p, v) ∈ ss) :
    (⟨d, v, ty⟩ : Copy) ∈ phiCopies bs p := by
  simp only [phiCopies, List.mem_flatMap]
  refine ⟨_, ⟨b, hb, hi⟩, ?_⟩
  exact List.mem_map.2 ⟨(p, v), List.mem_filter.2 ⟨hs, by simp⟩, rfl⟩

theorem lookup_of_mem {ss : List (BlockId × Value)} (hn : (ss.map Prod.fst).Nodup) {p : BlockId} {v : Value}
    (h : (p, v) ∈ ss) : ss.lookup p = some v := by
  induction ss with
  | nil => simp at h
  | cons x ss ih =>
    obtain ⟨q, w⟩ := x
    simp only [List.map_cons, List.nodup_cons] at hn
    rcases List.mem_cons.1 h with h | h
    · simp only [Prod.mk.injEq] at h; obtain ⟨rfl, rfl⟩ := h; simp
    · have : p ≠ q := by intro e; subst e; exact hn.1 (List.mem_map.2 ⟨(p, v), by assumption, rfl⟩)
      rw [List.lookup_cons, show (p == q) = false by simpa using this]
      exact ih hn.2 h

theorem phiCopies_nodup {f : Function} {Live Defined : BlockId → ValueId → Prop} (h : PhiOk f Live Defined)
    (p : BlockId) : ((phiCopies f.blocks p).map Copy.dest).Nodup := by
  have key : ∀ is : List Instr, (is.filterMap phiDest).Nodup →
      (∀ d ty ss, Instr.Phi d ty ss ∈ is → (ss.map Prod.fst).Nodup) →
      ((is.flatMap fun
        | .Phi d ty sources => (sources.filter fun s => decide (s.1 = p)).map fun s =>
            ({ dest := d, source := s.2, ty := ty } : Copy)
        | _ => []).map Copy.dest).Nodup := by
    intro is
    induction is with
    | nil => intro _ _; simp
    | cons i is ih =>
      intro hn hk
      cases i with
      | Phi d ty ss =>
        simp only [List.filterMap_cons, phiDest, List.nodup_cons] at hn
        have hrest := ih hn.2 (fun d ty ss hm => hk d ty ss (by simp [hm]))
        simp only [List.flatMap_cons, List.map_append, List.map_map]
        rw [List.nodup_append]
        refine ⟨?_, hrest, ?_⟩
        · have hss := hk d ty ss (by simp)
          have hle : (ss.filter fun s => decide (s.1 = p)).length ≤ 1 := by
            by_contra hlt
            obtain ⟨a, b, rest, hf⟩ : ∃ a b rest, ss.filter (fun s => decide (s.1 = p)) = a :: b :: rest := by
              generalize ss.filter (fun s => decide (s.1 = p)) = l at hlt
              match l, hlt with
              | a :: b :: rest, _ => exact ⟨a, b, rest, rfl⟩
              | [_], h => simp at h
              | [], h => simp at h
            have hsub : (a :: b :: rest).Sublist ss := by rw [← hf]; exact List.filter_sublist
            have hnd := (hsub.map Prod.fst).nodup hss
            have ha : a ∈ ss.filter (fun s => decide (s.1 = p)) := by rw [hf]; simp
            have hb : b ∈ ss.filter (fun s => decide (s.1 = p)) := by rw [hf]; simp
            have ha := (List.mem_filter.1 ha).2
            have hb := (List.mem_filter.1 hb).2
            simp only [decide_eq_true_eq] at ha hb
            simp [ha, hb] at hnd
          generalize ss.filter (fun s => decide (s.1 = p)) = l at hle ⊢
          match l, hle with
          | [], _ => exact List.nodup_nil
          | [_], _ => exact List.nodup_singleton _
          | _ :: _ :: _, h => simp at h
        · intro a ha b hb hab
          subst hab
          simp only [List.mem_map, Function.comp_apply] at ha
          obtain ⟨_, _, rfl⟩ := ha
          simp only [List.mem_map, List.mem_flatMap] at hb
          obtain ⟨c, ⟨j, hj, hc⟩, hcd⟩ := hb
          apply hn.1
          cases j with
          | Phi d' ty' ss' =>
            simp only [List.mem_map] at hc
            obtain ⟨_, _, rfl⟩ := hc
            simp only at hcd
            exact List.mem_filterMap.2 ⟨_, hj, by simp [phiDest, hcd]⟩
          | _ => simp at hc
      | _ => exact ih (by rwa [List.filterMap_cons_none rfl] at hn) (fun d ty ss hm => hk d ty ss (by simp [hm]))
  refine key _ h.dests ?_
  intro d ty ss hm
  obtain ⟨b, hb, hi⟩ := List.mem_flatMap.1 hm
  exact h.keys b hb d ty ss hi

/-- What the phi instructions at the head of a block do. -/
theorem evalPhis_spec {env acc e : Env} {p : Option BlockId} {is rest : List Instr}
    (h : evalPhis env p is acc = some (e, rest)) (hn : NoPhi rest) (hd : (is.filterMap phiDest).Nodup) :
    rest = is.filter notPhi ∧
    (∀ d ty ss, Instr.Phi d ty ss ∈ is → ∃ q, p = some q ∧ (phiValue env q ty ss).isSome ∧ e d = phiValue env q ty ss) ∧
    ∀ v, some v ∉ is.map phiDest → e v = acc v := by
  induction is generalizing acc with
  | nil =>
    simp only [evalPhis, Option.some.injEq, Prod.mk.injEq] at h
    obtain ⟨rfl, rfl⟩ := h
    simp
  | cons i is ih =>
    by_cases hp : ∃ d ty ss, i = .Phi d ty ss
    · obtain ⟨d, ty, ss, rfl⟩ := hp
      simp only [evalPhis, Option.bind_eq_bind, Option.bind_eq_some_iff] at h
      obtain ⟨q, hq, x, hx, h⟩ := h
      simp only [List.filterMap_cons, phiDest, List.nodup_cons] at hd
      obtain ⟨h1, h2, h3⟩ := ih h hd.2
      have hdn : some d ∉ is.map phiDest := by
        intro hm
        obtain ⟨j, hj, hjd⟩ := List.mem_map.1 hm
        exact hd.1 (List.mem_filterMap.2 ⟨j, hj, hjd⟩)
      refine ⟨by rw [h1]; rfl, ?_, ?_⟩
      · intro d' ty' ss' hm
        rcases List.mem_cons.1 hm with hm | hm
        · simp only [Instr.Phi.injEq] at hm
          obtain ⟨rfl, rfl, rfl⟩ := hm
          exact ⟨q, hq, by simp [hx], by rw [h3 _ hdn, hx]; simp⟩
        · exact h2 d' ty' ss' hm
      · intro v hv
        simp only [List.map_cons, phiDest, List.mem_cons, Option.some.injEq, not_or] at hv
        rw [h3 v hv.2, Function.update_of_ne hv.1]
    · have e1 : evalPhis env p (i :: is) acc = some (acc, i :: is) := by
        cases i <;> first | rfl | exact absurd ⟨_, _, _, rfl⟩ hp
      rw [e1] at h
      simp only [Option.some.injEq, Prod.mk.injEq] at h
      obtain ⟨rfl, rfl⟩ := h
      refine ⟨?_, ?_, fun _ _ => rfl⟩
      · symm
        rw [List.filter_eq_self]
        intro j hj
        have := hn j hj
        cases j <;> first | rfl | exact absurd rfl (this _ _ _)
      · intro d ty ss hm
        exact absurd rfl (hn _ hm d ty ss)

/-! ### Definedness -/

theorem bind_defined {env env' : Env} {ds : List ValueId} {xs : List Val} (h : bind env ds xs = some env') :
    (∀ v, (env v).isSome → (env' v).isSome) ∧ ∀ d ∈ ds, (env' d).isSome := by
  induction ds generalizing env xs with
  | nil =>
    cases xs with
    | nil => simp only [bind, Option.some.injEq] at h; subst h; exact ⟨fun _ h => h, by simp⟩
    | cons _ _ => simp [bind] at h
  | cons d ds ih =>
    cases xs with
    | nil => simp [bind] at h
    | cons x xs =>
      obtain ⟨h1, h2⟩ := ih (show bind (Function.update env d (some x)) ds xs = some env' from h)
      refine ⟨?_, ?_⟩
      · intro v hv
        apply h1
        by_cases hvd : v = d
        · subst hvd; simp
        · rw [Function.update_of_ne hvd]; exact hv
      · intro d' hd'
        rcases List.mem_cons.1 hd' with rfl | hd'
        · exact h1 _ (by simp)
        · exact h2 d' hd'

theorem update_defined {env : Env} {d : ValueId} {x : Val} :
    (∀ v, (env v).isSome → (Function.update env d (some x) v).isSome) ∧
      ∀ v ∈ [d], (Function.update env d (some x) v).isSome := by
  refine ⟨?_, by simp⟩
  intro v hv
  by_cases hvd : v = d
  · subst hvd; simp
  · rw [Function.update_of_ne hvd]; exact hv

theorem evalInstr_defined {calls : Calls} {i : Instr} {env env' : Env} (h : evalInstr calls i env = some env') :
    (∀ v, (env v).isSome → (env' v).isSome) ∧ ∀ d ∈ i.destinations, (env' d).isSome := by
  cases i with
  | Assign d v ty =>
    simp only [evalInstr, Option.bind_eq_bind, Option.bind_eq_some_iff, Option.some.injEq] at h
    obtain ⟨t, -, x, -, rfl⟩ := h
    exact update_defined
  | UnaryOp op d v =>
    simp only [evalInstr, Option.bind_eq_bind, Option.bind_eq_some_iff, Option.some.injEq] at h
    obtain ⟨t, -, x, -, rfl⟩ := h
    exact update_defined
  | BinaryOp op d l r =>
    simp only [evalInstr, Option.bind_eq_bind, Option.bind_eq_some_iff, Option.some.injEq] at h
    obtain ⟨x, -, y, -, z, -, rfl⟩ := h
    exact update_defined
  | Cast d v s t =>
    simp only [evalInstr, Option.bind_eq_bind, Option.bind_eq_some_iff, Option.some.injEq] at h
    obtain ⟨s, -, t, -, x, -, y, -, rfl⟩ := h
    exact update_defined
  | Call ds c args sig =>
    simp only [evalInstr, Option.bind_eq_bind, Option.bind_eq_some_iff] at h
    obtain ⟨xs, -, ys, -, h⟩ := h
    exact bind_defined h
  | AssertEq l r =>
    simp only [evalInstr, Option.bind_eq_bind, Option.bind_eq_some_iff] at h
    obtain ⟨x, -, y, -, h⟩ := h
    split_ifs at h
    simp only [Option.some.injEq] at h; subst h
    exact ⟨fun _ h => h, by simp [Instr.destinations]⟩
  | Debug vs =>
    simp only [evalInstr, Option.some.injEq] at h; subst h
    exact ⟨fun _ h => h, by simp [Instr.destinations]⟩
  | Nop =>
    simp only [evalInstr, Option.some.injEq] at h; subst h
    exact ⟨fun _ h => h, by simp [Instr.destinations]⟩
  | _ => simp [evalInstr] at h

theorem evalInstrs_defined {calls : Calls} {is : List Instr} {env env' : Env}
    (h : evalInstrs calls is env = some env') :
    (∀ v, (env v).isSome → (env' v).isSome) ∧ ∀ i ∈ is, ∀ d ∈ i.destinations, (env' d).isSome := by
  induction is generalizing env with
  | nil => simp only [evalInstrs, Option.some.injEq] at h; subst h; exact ⟨fun _ h => h, by simp⟩
  | cons i is ih =>
    simp only [evalInstrs, Option.bind_eq_bind, Option.bind_eq_some_iff] at h
    obtain ⟨e, h1, h2⟩ := h
    obtain ⟨h3, h4⟩ := evalInstr_defined h1
    obtain ⟨h5, h6⟩ := ih h2
    refine ⟨fun v hv => h5 v (h3 v hv), ?_⟩
    intro j hj d hd
    rcases List.mem_cons.1 hj with rfl | hj
    · exact h5 d (h4 d hd)
    · exact h6 j hj d hd

/-! ### Splitting of critical edges -/

/-- A target after splitting: the same block, or a new block (number at least `N`) that only jumps to it. -/
def SplitTarget (N : ℕ) (bs' : List Block) (t t' : BlockId) : Prop :=
  t' = t ∨ (N ≤ t' ∧ bs'[t']? = some ⟨[], .Jump t⟩)

/-- A terminator after splitting. -/
def SplitTerm (N : ℕ) (bs' : List Block) : Terminator → Terminator → Prop
  | .Jump t, x => ∃ t', x = .Jump t' ∧ SplitTarget N bs' t t'
  | .If c t e, x => ∃ t' e', x = .If c t' e' ∧ SplitTarget N bs' t t' ∧ SplitTarget N bs' e e'
  | .BranchCmp op l r t e, x =>
    ∃ t' e', x = .BranchCmp op l r t' e' ∧ SplitTarget N bs' t t' ∧ SplitTarget N bs' e e'
  | .Return vs, x => x = .Return vs
  | .Unreachable, x => x = .Unreachable

/-- The blocks after splitting. -/
structure SplitOf (bs bs' : List Block) : Prop where
  instrs : ∃ k, bs'.map Block.instrs = bs.map Block.instrs ++ List.replicate k []
  old : ∀ (id : ℕ) (b : Block), bs[id]? = some b →
    ∃ b' : Block, bs'[id]? = some b' ∧ b'.instrs = b.instrs ∧ SplitTerm bs.length bs' b.term b'.term

theorem SplitOf.len {bs bs' : List Block} (h : SplitOf bs bs') : bs.length ≤ bs'.length := by
  obtain ⟨k, hk⟩ := h.instrs
  have := congrArg List.length hk
  simp at this; omega

theorem SplitTerm.refl {N : ℕ} {bs : List Block} (t : Terminator) : SplitTerm N bs t t := by
  cases t <;> simp [SplitTerm, SplitTarget]

theorem SplitOf.refl (bs : List Block) : SplitOf bs bs :=
  ⟨⟨0, by simp⟩, fun id b h => ⟨b, h, rfl, SplitTerm.refl _⟩⟩

theorem SplitTerm.mono {N : ℕ} {bs bs' : List Block} {t t' : Terminator} (h : SplitTerm N bs t t')
    (hm : ∀ id, N ≤ id → ∀ b, bs[id]? = some b → bs'[id]? = some b) : SplitTerm N bs' t t' := by
  have key : ∀ x y, SplitTarget N bs x y → SplitTarget N bs' x y := by
    rintro x y (h | ⟨h1, h2⟩)
    · exact Or.inl h
    · exact Or.inr ⟨h1, hm y h1 _ h2⟩
  cases t with
  | Jump t => obtain ⟨a, h1, h2⟩ := h; exact ⟨a, h1, key _ _ h2⟩
  | If c t e => obtain ⟨a, b, h1, h2, h3⟩ := h; exact ⟨a, b, h1, key _ _ h2, key _ _ h3⟩
  | BranchCmp op l r t e => obtain ⟨a, b, h1, h2, h3⟩ := h; exact ⟨a, b, h1, key _ _ h2, key _ _ h3⟩
  | Return vs => exact h
  | Unreachable => exact h

theorem SplitTerm.retarget {N : ℕ} {bs : List Block} {t t' : Terminator} (h : SplitTerm N bs t t') {s m : BlockId}
    (hs : s < N) (hm : N ≤ m ∧ bs[m]? = some ⟨[], .Jump s⟩) : SplitTerm N bs t (t'.retarget s m) := by
  have key : ∀ x y, SplitTarget N bs x y → SplitTarget N bs x (if y = s then m else y) := by
    rintro x y h
    by_cases hy : y = s
    · subst hy
      rw [if_pos rfl]
      rcases h with rfl | ⟨h1, -⟩
      · exact Or.inr hm
      · exact absurd (lt_of_lt_of_le hs h1) (lt_irrefl _)
    · rw [if_neg hy]; exact h
  cases t with
  | Jump t => obtain ⟨a, rfl, h2⟩ := h; exact ⟨_, rfl, key _ _ h2⟩
  | If c t e => obtain ⟨a, b, rfl, h2, h3⟩ := h; exact ⟨_, _, rfl, key _ _ h2, key _ _ h3⟩
  | BranchCmp op l r t e => obtain ⟨a, b, rfl, h2, h3⟩ := h; exact ⟨_, _, rfl, key _ _ h2, key _ _ h3⟩
  | Return vs => obtain rfl : t' = .Return vs := h; rfl
  | Unreachable => obtain rfl : t' = .Unreachable := h; rfl

theorem SplitOf.step {bs bs' : List Block} (h : SplitOf bs bs') {e : BlockId × BlockId} (h1 : e.1 < bs.length)
    (h2 : e.2 < bs.length) : SplitOf bs (splitEdge bs' e) := by
  have hlen := h.len
  have hget : ∀ id, bs.length ≤ id → ∀ b, bs'[id]? = some b → (splitEdge bs' e)[id]? = some b := by
    intro id hid b hb
    unfold splitEdge
    have hlt : id < bs'.length := by
      rcases Nat.lt_or_ge id bs'.length with h | h
      · exact h
      · rw [List.getElem?_eq_none_iff.2 h] at hb; cases hb
    rw [List.getElem?_append_left (by simpa using hlt), List.getElem?_modify, hb]
    simp [Nat.ne_of_lt (lt_of_lt_of_le h1 hid)]
  have hnew : (splitEdge bs' e)[bs'.length]? = some ⟨[], .Jump e.2⟩ := by
    unfold splitEdge
    rw [List.getElem?_append_right (by simp)]
    simp
  refine ⟨?_, ?_⟩
  · obtain ⟨k, hk⟩ := h.instrs
    refine ⟨k + 1, ?_⟩
    have hmap : (bs'.modify e.1 fun b => { b with term := b.term.retarget e.2 bs'.length }).map Block.instrs =
        bs'.map Block.instrs := by
      refine List.ext_getElem? ?_
      intro i
      simp only [List.getElem?_map, List.getElem?_modify]
      cases bs'[i]? with
      | none => rfl
      | some b => simp only [Option.map_some]; split_ifs <;> rfl
    unfold splitEdge
    rw [List.map_append, hmap, hk]
    simp [List.replicate_succ', List.append_assoc]
  · intro id b hb
    obtain ⟨b', h3, h4, h5⟩ := h.old id b hb
    have hid : id < bs.length := by
      rcases Nat.lt_or_ge id bs.length with h | h
      · exact h
      · rw [List.getElem?_eq_none_iff.2 h] at hb; cases hb
    have hg : (splitEdge bs' e)[id]? = some (if e.1 = id then
        { b' with term := b'.term.retarget e.2 bs'.length } else b') := by
      unfold splitEdge
      rw [List.getElem?_append_left (by simpa using lt_of_lt_of_le hid hlen), List.getElem?_modify, h3]
      split_ifs <;> rfl
    have h6 := h5.mono hget
    refine ⟨_, hg, ?_, ?_⟩
    · split_ifs <;> exact h4
    · split_ifs
      · exact h6.retarget h2 ⟨hlen, hnew⟩
      · exact h6

theorem splitEdges_of {bs : List Block} (ht : ∀ b ∈ bs, ∀ t ∈ b.term.targets, t < bs.length) :
    SplitOf bs (splitEdges bs) := by
  unfold splitEdges
  have hc : ∀ e ∈ criticalEdges bs, e.1 < bs.length ∧ e.2 < bs.length := by
    intro e he
    simp only [criticalEdges, List.mem_flatMap, List.mem_range] at he
    obtain ⟨p, hp, he⟩ := he
    cases hb : bs[p]? with
    | none => rw [hb] at he; simp at he
    | some b =>
      rw [hb] at he
      simp only at he
      split_ifs at he
      · simp only [List.mem_map, List.mem_filter] at he
        obtain ⟨s, ⟨hs, -⟩, rfl⟩ := he
        exact ⟨hp, ht b (List.mem_of_getElem? hb) s hs⟩
      · simp at he
  have key : ∀ (es : List (BlockId × BlockId)) (bs' : List Block), (∀ e ∈ es, e.1 < bs.length ∧ e.2 < bs.length) →
      SplitOf bs bs' → SplitOf bs (es.foldl splitEdge bs') := by
    intro es
    induction es with
    | nil => intro bs' _ h; exact h
    | cons e es ih =>
      intro bs' he h
      exact ih _ (fun x hx => he x (by simp [hx])) (h.step (he e (by simp)).1 (he e (by simp)).2)
  exact key _ bs hc (SplitOf.refl bs)

theorem phiCopies_congr {bs bs' : List Block} (h : bs.flatMap Block.instrs = bs'.flatMap Block.instrs) (p : BlockId) :
    phiCopies bs p = phiCopies bs' p := by
  unfold phiCopies; rw [h]

theorem SplitOf.flat {bs bs' : List Block} (h : SplitOf bs bs') :
    bs'.flatMap Block.instrs = bs.flatMap Block.instrs := by
  obtain ⟨k, hk⟩ := h.instrs
  have : ∀ l : List Block, l.flatMap Block.instrs = (l.map Block.instrs).flatten := fun l => rfl
  rw [this, this, hk, List.flatten_append]
  have : ∀ k, (List.replicate k ([] : List Instr)).flatten = [] := by
    intro k
    induction k with
    | zero => rfl
    | succ k ih => rw [List.replicate_succ, List.flatten_cons, ih]; rfl
  rw [this, List.append_nil]

/-! ### Placing the copies -/

theorem placeCopies_get {order : List ValueId → List ValueId} {cs : BlockId → List Copy} {next : ValueId}
    (hs : ∀ p, (Mir.sequence order next (cs p)).2 = next) (bs : List Block) (p : BlockId) :
    (placeCopies order cs bs p next).2 = next ∧
    ∀ id : ℕ, (placeCopies order cs bs p next).1[id]? = (bs[id]?).map fun b =>
      { b with instrs := (b.instrs ++ (Mir.sequence order next (cs (p + id))).1.map Copy.instr).filter notPhi } := by
  induction bs generalizing p with
  | nil => exact ⟨rfl, fun id => by simp [placeCopies]⟩
  | cons b bs ih =>
    simp only [placeCopies]
    rw [hs p]
    refine ⟨(ih (p + 1)).1, ?_⟩
    intro id
    cases id with
    | zero =>
      simp only [List.getElem?_cons_zero, Option.map_some, Nat.add_zero, Option.some.injEq]
      rfl
    | succ id =>
      simp only [List.getElem?_cons_succ]
      rw [(ih (p + 1)).2 id]
      have : p + 1 + id = p + (id + 1) := by rw [Nat.add_assoc, Nat.add_comm 1 id]
      rw [this]

theorem filter_copies (cs : List Copy) : (cs.map Copy.instr).filter notPhi = cs.map Copy.instr := by
  rw [List.filter_eq_self]
  intro i hi
  obtain ⟨c, -, rfl⟩ := List.mem_map.1 hi
  rfl

/-- The blocks of the function without phi instructions. -/
theorem phiElim_get {f : Function} {Live Defined : BlockId → ValueId → Prop} (h : PhiOk f Live Defined)
    {order : List ValueId → List ValueId} (ho : ∀ l, (order l).Perm l) (id : ℕ) :
    (phiElim order f).blocks[id]? = ((splitEdges f.blocks)[id]?).map fun b =>
      { b with instrs := b.instrs.filter notPhi ++
          (Mir.sequence order f.nextValue (phiCopies f.blocks id)).1.map Copy.instr } := by
  have hsp := splitEdges_of h.targets
  have hcp : ∀ p, phiCopies (splitEdges f.blocks) p = phiCopies f.blocks p := phiCopies_congr hsp.flat
  have hs : ∀ p, (Mir.sequence order f.nextValue (phiCopies (splitEdges f.blocks) p)).2 = f.nextValue := by
    intro p
    rw [hcp]
    exact (sequence_spec ho _ (phiCopies_nodup h p) (h.order p).2 (h.order p).1).1
  unfold phiElim
  simp only
  split_ifs with hall
  · simp only [List.all_eq_true] at hall
    cases hb : (splitEdges f.blocks)[id]? with
    | none => rfl
    | some b =>
      have hno : phiCopies f.blocks id = [] := by
        rw [← hcp, List.eq_nil_iff_forall_not_mem]
        intro c hc
        obtain ⟨t, b, ss, hb, hi, -⟩ := mem_phiCopies hc
        have := hall b (List.mem_of_getElem? hb) _ hi
        simp at this
      have hf : b.instrs.filter notPhi = b.instrs := by
        rw [List.filter_eq_self]
        intro i hi
        have := hall b (List.mem_of_getElem? hb) i hi
        cases i <;> first | rfl | simp at this
      simp [hno, Mir.sequence, hf]
  · show (placeCopies order (phiCopies (splitEdges f.blocks)) (splitEdges f.blocks) 0 f.nextValue).1[id]? = _
    rw [(placeCopies_get hs _ 0).2 id]
    cases (splitEdges f.blocks)[id]? with
    | none => rfl
    | some b =>
      simp only [Option.map_some, Nat.zero_add, List.filter_append, filter_copies, hcp]

end Lang
end CairoM
