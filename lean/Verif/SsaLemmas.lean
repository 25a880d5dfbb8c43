import Verif.Ssa
import Verif.MirDeadLemmas
import Verif.PhiElimLemmas

/-!
# Lemmas: names of a function in static single assignment form keep their defining equation

As long as a name is defined on all paths, executing its definition again would change nothing.
-/

namespace CairoM
namespace Lang

open Mir

/-- `v` is defined on all paths to the position after the instructions `pre` of block `b`. -/
def Avail (f : Function) (b : BlockId) (pre : List Instr) (v : ValueId) : Prop := Avoids f v b → v ∈ defs pre

theorem mem_defs {is : List Instr} {v : ValueId} : v ∈ defs is ↔ ∃ i ∈ is, v ∈ i.destinations := by
  simp [defs, List.mem_flatMap]

theorem defs_append (a b : List Instr) : defs (a ++ b) = defs a ++ defs b := by simp [defs]

theorem defs_cons (i : Instr) (b : List Instr) : defs (i :: b) = i.destinations ++ defs b := by simp [defs]

theorem defs_nil : defs [] = [] := rfl

theorem defs_flatMap (bs : List Block) :
    defs (bs.flatMap Block.instrs) = bs.flatMap fun b => defs b.instrs := by
  simp [defs, List.flatMap_assoc]

variable {f : Function} {calls : Calls}

theorem Avoids.reaches {v : ValueId} {b : BlockId} (h : Avoids f v b) : Reaches f b := by
  induction h with
  | entry _ => exact .entry
  | step _ hb _ ht ih => exact .step ih hb ht

theorem Ssa.block_defs (h : Ssa f) : (f.blocks.flatMap fun b => defs b.instrs).Nodup := by
  have := (List.nodup_append.1 h.single).2.1
  rwa [defs_flatMap] at this

theorem Ssa.param (h : Ssa f) {b : ℕ} {blk : Block} (hb : f.blocks[b]? = some blk) {v : ValueId}
    (hv : v ∈ defs blk.instrs) : v ∉ f.params := by
  intro hp
  refine (List.nodup_append.1 h.single).2.2 v hp v ?_ rfl
  rw [defs_flatMap]
  exact List.mem_flatMap.2 ⟨blk, List.mem_of_getElem? hb, hv⟩

theorem Ssa.nodup (h : Ssa f) {b : ℕ} {blk : Block} (hb : f.blocks[b]? = some blk) : (defs blk.instrs).Nodup :=
  (List.nodup_flatMap.1 h.block_defs).1 blk (List.mem_of_getElem? hb)

/-- A name is defined in one block only. -/
theorem Ssa.unique (h : Ssa f) {b c : ℕ} {blk blk' : Block} (hb : f.blocks[b]? = some blk)
    (hc : f.blocks[c]? = some blk') {v : ValueId} (hv : v ∈ defs blk.instrs) (hv' : v ∈ defs blk'.instrs) : b = c := by
  have hp := (List.nodup_flatMap.1 h.block_defs).2
  have key : ∀ {b c : ℕ} {blk blk' : Block}, f.blocks[b]? = some blk → f.blocks[c]? = some blk' → b < c →
      v ∈ defs blk.instrs → v ∈ defs blk'.instrs → False := by
    intro b c blk blk' hb hc hlt h1 h2
    obtain ⟨hb', rfl⟩ := List.getElem?_eq_some_iff.1 hb
    obtain ⟨hc', rfl⟩ := List.getElem?_eq_some_iff.1 hc
    exact (List.pairwise_iff_getElem.1 hp b c hb' hc' hlt) h1 h2
  rcases Nat.lt_trichotomy b c with hlt | heq | hgt
  · exact (key hb hc hlt hv hv').elim
  · exact heq
  · exact (key hc hb hgt hv' hv).elim

/-- A name is defined at one position of a block only. -/
theorem split_unique {is : List Instr} (hn : (defs is).Nodup) {pre post pre' post' : List Instr} {i i' : Instr}
    (h : is = pre ++ i :: post) (h' : is = pre' ++ i' :: post') {v : ValueId} (hv : v ∈ i.destinations)
    (hv' : v ∈ i'.destinations) : pre = pre' ∧ i = i' := by
  subst h
  induction pre generalizing pre' with
  | nil =>
    cases pre' with
    | nil => simp only [List.nil_append, List.cons.injEq] at h'; exact ⟨rfl, h'.1⟩
    | cons j pre' =>
      simp only [List.nil_append, List.cons_append, List.cons.injEq] at h'
      obtain ⟨rfl, rfl⟩ := h'
      rw [List.nil_append, defs_cons, defs_append, defs_cons] at hn
      exact ((List.nodup_append.1 hn).2.2 v hv v (by simp [hv']) rfl).elim
  | cons j pre ih =>
    cases pre' with
    | nil =>
      simp only [List.nil_append, List.cons_append, List.cons.injEq] at h'
      obtain ⟨rfl, rfl⟩ := h'
      rw [List.cons_append, defs_cons, defs_append, defs_cons] at hn
      exact ((List.nodup_append.1 hn).2.2 v hv' v (by simp [hv]) rfl).elim
    | cons j' pre' =>
      simp only [List.cons_append, List.cons.injEq] at h'
      obtain ⟨rfl, h'⟩ := h'
      rw [List.cons_append, defs_cons] at hn
      obtain ⟨h1, h2⟩ := ih (List.nodup_append.1 hn).2.1 h'
      exact ⟨by rw [h1], h2⟩

theorem not_mem_pre {is : List Instr} (hn : (defs is).Nodup) {pre post : List Instr} {i : Instr}
    (h : is = pre ++ i :: post) {v : ValueId} (hv : v ∈ i.destinations) : v ∉ defs pre := by
  subst h
  rw [defs_append, defs_cons] at hn
  exact fun hp => (List.nodup_append.1 hn).2.2 v hp v (by simp [hv]) rfl

/-- The first visit of the block that defines a name. -/
theorem Ssa.first (h : Ssa f) {b0 : ℕ} {blk0 : Block} (h0 : f.blocks[b0]? = some blk0) {v : ValueId}
    (hv : v ∈ defs blk0.instrs) {b : BlockId} (hb : Reaches f b) : Avoids f v b ∨ Avoids f v b0 := by
  induction hb with
  | entry => exact Or.inl (.entry (h.param h0 hv))
  | @step b blk t _ hblk ht ih =>
    rcases ih with ih | ih
    · by_cases hd : v ∈ defs blk.instrs
      · obtain rfl := h.unique h0 hblk hv hd
        exact Or.inr ih
      · exact Or.inl (.step ih hblk hd ht)
    · exact Or.inr ih

theorem Ssa.avoids_own (h : Ssa f) {b0 : ℕ} {blk0 : Block} (h0 : f.blocks[b0]? = some blk0) {v : ValueId}
    (hv : v ∈ defs blk0.instrs) (hr : Reaches f b0) : Avoids f v b0 := (h.first h0 hv hr).elim id id

/-- A path that avoids an operand of the definition of `d` avoids `d`. -/
theorem Ssa.avoids_of (h : Ssa f) {b0 : ℕ} {blk0 : Block} (h0 : f.blocks[b0]? = some blk0) {d s : ValueId}
    (hd : d ∈ defs blk0.instrs) (hs : Avoids f s b0 → s ∈ defs blk0.instrs) {b : BlockId} (hb : Avoids f s b) :
    Avoids f d b := by
  induction hb with
  | entry _ => exact .entry (h.param h0 hd)
  | @step b blk t ha hblk hn ht ih =>
    refine .step ih hblk (fun hd' => ?_) ht
    obtain rfl := h.unique h0 hblk hd hd'
    rw [h0] at hblk; injection hblk with hblk; subst hblk
    exact hn (hs ha)

/-- What is available at the definition of an available name is available. -/
theorem Ssa.avail_trans (h : Ssa f) {b0 : ℕ} {blk0 : Block} (h0 : f.blocks[b0]? = some blk0)
    {pre0 post0 : List Instr} {i0 : Instr} (hi : blk0.instrs = pre0 ++ i0 :: post0) {d s : ValueId}
    (hd : d ∈ i0.destinations) (hs : Avail f b0 pre0 s) {b : ℕ} {blk : Block} (hblk : f.blocks[b]? = some blk)
    {pre post : List Instr} (hp : blk.instrs = pre ++ post) (hav : Avail f b pre d) : Avail f b pre s := by
  intro ha
  have hd0 : d ∈ defs blk0.instrs := by rw [hi, defs_append, defs_cons]; simp [hd]
  have hs0 : Avoids f s b0 → s ∈ defs blk0.instrs := fun hx => by
    rw [hi, defs_append]; exact List.mem_append_left _ (hs hx)
  have hdp := hav (h.avoids_of h0 hd0 hs0 ha)
  have hdb : d ∈ defs blk.instrs := by rw [hp, defs_append]; exact List.mem_append_left _ hdp
  obtain rfl := h.unique h0 hblk hd0 hdb
  rw [h0] at hblk; injection hblk with hblk; subst hblk
  obtain ⟨j, hj, hdj⟩ := mem_defs.1 hdp
  obtain ⟨p1, p2, rfl⟩ := List.append_of_mem hj
  obtain ⟨rfl, rfl⟩ := split_unique (h.nodup h0) hi (pre' := p1) (i' := j) (post' := p2 ++ post)
    (by rw [hp]; simp) hd hdj
  rw [defs_append]
  exact List.mem_append_left _ (hs ha)

/-- The block that defines an available name is reached. -/
theorem Ssa.avail_reaches (h : Ssa f) {b0 : ℕ} {blk0 : Block} (h0 : f.blocks[b0]? = some blk0) {d : ValueId}
    (hd : d ∈ defs blk0.instrs) {b : ℕ} (hr : Reaches f b) {blk : Block} (hblk : f.blocks[b]? = some blk)
    {pre post : List Instr} (hp : blk.instrs = pre ++ post) (hav : Avail f b pre d) : Reaches f b0 := by
  rcases h.first h0 hd hr with ha | ha
  · have hdb : d ∈ defs blk.instrs := by rw [hp, defs_append]; exact List.mem_append_left _ (hav ha)
    obtain rfl := h.unique h0 hblk hd hdb
    exact hr
  · exact ha.reaches

/-- An instruction that defines one name from its operands. -/
def DefOf (i : Instr) (d : ValueId) : Prop :=
  i.destinations = [d] ∧ isPhi i = false ∧ ∀ ds c args sig, i ≠ .Call ds c args sig

theorem bind_outside {env env' : Env} {ds : List ValueId} {xs : List Val} (h : bind env ds xs = some env')
    {v : ValueId} (hv : v ∉ ds) : env' v = env v := by
  induction ds generalizing env xs with
  | nil => cases xs <;> simp_all [bind]
  | cons d ds ih =>
    cases xs with
    | nil => simp [bind] at h
    | cons x xs =>
      simp only [List.mem_cons, not_or] at hv
      rw [ih h hv.2, Function.update_of_ne hv.1]

/-- An instruction changes its destinations only. -/
theorem evalInstr_outside {i : Instr} {env env' : Env} (h : evalInstr calls i env = some env') {v : ValueId}
    (hv : v ∉ i.destinations) : env' v = env v := by
  cases i <;> simp only [evalInstr, Option.bind_eq_bind, Option.bind_eq_some_iff, Option.some.injEq,
    reduceCtorEq] at h <;> simp only [Instr.destinations, List.mem_singleton] at hv
  case Assign => obtain ⟨_, _, _, _, rfl⟩ := h; rw [Function.update_of_ne hv]
  case UnaryOp => obtain ⟨_, _, _, _, rfl⟩ := h; rw [Function.update_of_ne hv]
  case BinaryOp => obtain ⟨_, _, _, _, _, _, rfl⟩ := h; rw [Function.update_of_ne hv]
  case Call => obtain ⟨_, _, _, _, h⟩ := h; exact bind_outside h hv
  case Cast => obtain ⟨_, _, _, _, _, _, _, _, rfl⟩ := h; rw [Function.update_of_ne hv]
  case AssertEq => obtain ⟨_, _, _, _, h⟩ := h; split_ifs at h; injection h with h; subst h; rfl
  case Debug => subst h; rfl
  case Nop => subst h; rfl

/-- An equation that holds keeps holding while its names do not change. -/
theorem evalInstr_still {i : Instr} {d : ValueId} (hd : DefOf i d) {e e' : Env} (h : evalInstr calls i e = some e)
    (hag : Agree (fun v => v ∈ i.uses ∨ v = d) e e') : evalInstr calls i e' = some e' := by
  have hr := evalInstr_agree (calls := calls) hag (i := i) (fun v hv => Or.inl hv)
  rw [h] at hr
  cases h' : evalInstr calls i e' with
  | none => rw [h'] at hr; exact hr.elim
  | some e'' =>
    rw [h'] at hr
    congr 1
    funext v
    by_cases hv : v = d
    · rw [← hr v (Or.inr hv), hag v (Or.inr hv)]
    · exact evalInstr_outside h' (by rw [hd.1]; simpa using hv)

/-- The value computed by an instruction that defines one name. -/
def rhs (i : Instr) (e : Env) : Option Val :=
  match i with
  | .Assign _ v ty => (scalarTy ty).bind fun t => readAt e t v
  | .UnaryOp op _ v => (readPlain e v).bind (unary op)
  | .BinaryOp op _ l r => (operand e op l).bind fun x => (operand e op r).bind fun y => binary op x y
  | .Cast _ v s t => (scalarTy s).bind fun s => (scalarTy t).bind fun t => (readAt e s v).bind (cast s t)
  | _ => none

theorem evalInstr_rhs {i : Instr} {d : ValueId} (hd : DefOf i d) (e : Env) :
    evalInstr calls i e = (rhs i e).map fun x => Function.update e d (some x) := by
  obtain ⟨h1, h2, h3⟩ := hd
  cases i <;> simp only [Instr.destinations, List.cons.injEq, and_true, reduceCtorEq] at h1 <;>
    simp only [isPhi, reduceCtorEq] at h2 <;> simp only [evalInstr, rhs, Option.bind_eq_bind, Option.map_none]
  case Assign d v ty => subst h1; cases scalarTy ty <;> simp [Option.map_eq_bind]
  case UnaryOp => subst h1; simp [Option.map_eq_bind, Option.bind_assoc]
  case BinaryOp => subst h1; simp [Option.map_eq_bind, Option.bind_assoc]
  case Call => exact (h3 _ _ _ _ rfl).elim
  case Cast => subst h1; simp [Option.map_eq_bind, Option.bind_assoc]

theorem rhs_agree {S : ValueId → Prop} {a b : Env} (h : Agree S a b) {i : Instr} (hu : ∀ v ∈ i.uses, S v) :
    rhs i a = rhs i b := by
  cases i <;> simp only [rhs]
  case Assign => congr 1; funext t; exact readAt_agree h hu
  case UnaryOp => rw [readPlain_agree h hu]
  case BinaryOp l r =>
    rw [operand_agree h (fun x hx => hu x (by simp [Instr.uses, hx]))]
    congr 1; funext x
    rw [operand_agree h (fun x hx => hu x (by simp [Instr.uses, hx]))]
  case Cast => congr 1; funext s; congr 1; funext t; rw [readAt_agree h hu]

theorem still_iff {i : Instr} {d : ValueId} (hd : DefOf i d) (e : Env) :
    evalInstr calls i e = some e ↔ (e d).isSome ∧ rhs i e = e d := by
  rw [evalInstr_rhs hd]
  constructor
  · intro h
    obtain ⟨x, hx, he⟩ := Option.map_eq_some_iff.1 h
    have : e d = some x := by rw [← he]; simp
    rw [this, hx]; simp
  · rintro ⟨h1, h2⟩
    obtain ⟨x, hx⟩ := Option.isSome_iff_exists.1 h1
    rw [h2, hx, Option.map_some, ← hx, Function.update_eq_self]

/-- After an instruction whose destination is not among its operands, its equation holds. -/
theorem evalInstr_settles {i : Instr} {d : ValueId} (hd : DefOf i d) (hn : d ∉ i.uses) {e e1 : Env}
    (h : evalInstr calls i e = some e1) : evalInstr calls i e1 = some e1 := by
  rw [evalInstr_rhs hd] at h
  obtain ⟨x, hx, rfl⟩ := Option.map_eq_some_iff.1 h
  rw [still_iff hd, Function.update_self]
  refine ⟨rfl, ?_⟩
  rw [← hx]
  refine rhs_agree (S := (· ∈ i.uses)) (fun v hv => ?_) (fun v hv => hv)
  rw [Function.update_of_ne (by rintro rfl; exact hn hv)]

/-- The equations of all names available at a position hold. -/
def Facts (calls : Calls) (f : Function) (b : BlockId) (pre : List Instr) (e : Env) : Prop :=
  ∀ (b0 : ℕ) (blk0 : Block) pre0 i0 post0 d, f.blocks[b0]? = some blk0 → blk0.instrs = pre0 ++ i0 :: post0 →
    DefOf i0 d → Avail f b pre d → evalInstr calls i0 e = some e

theorem DefOf.mem {i : Instr} {d : ValueId} (h : DefOf i d) : d ∈ i.destinations := by rw [h.1]; simp

theorem facts_entry (h : Ssa f) (e : Env) : Facts calls f 0 [] e := by
  intro b0 blk0 pre0 i0 post0 d h0 hi hd hav
  have hd0 : d ∈ defs blk0.instrs := by rw [hi, defs_append, defs_cons]; simp [hd.mem]
  exact absurd (hav (.entry (h.param h0 hd0))) (by simp [defs_nil])

theorem facts_edge {b : ℕ} {blk : Block} (hb : f.blocks[b]? = some blk) {e : Env}
    (h : Facts calls f b blk.instrs e) {t : BlockId} (ht : t ∈ blk.term.targets) : Facts calls f t [] e := by
  intro b0 blk0 pre0 i0 post0 d h0 hi hd hav
  refine h b0 blk0 pre0 i0 post0 d h0 hi hd fun ha => ?_
  by_contra hn
  exact absurd (hav (.step ha hb hn ht)) (by simp [defs_nil])

/-- Redefining a name ends the availability of the names defined from it. -/
theorem Ssa.ends (h : Ssa f) {b0 : ℕ} {blk0 : Block} (h0 : f.blocks[b0]? = some blk0) {pre0 post0 : List Instr}
    {i0 : Instr} (hi0 : blk0.instrs = pre0 ++ i0 :: post0) {d x : ValueId} (hd : d ∈ i0.destinations)
    (hx : Avail f b0 pre0 x) {b : ℕ} {blk : Block} (hr : Reaches f b) (hb : f.blocks[b]? = some blk)
    {pre post : List Instr} {i : Instr} (hi : blk.instrs = pre ++ i :: post) (hxi : x ∈ i.destinations) :
    ¬ Avail f b (pre ++ [i]) d := by
  intro hav
  have hxb : x ∈ defs blk.instrs := by rw [hi, defs_append, defs_cons]; simp [hxi]
  have hd0 : d ∈ defs blk0.instrs := by rw [hi0, defs_append, defs_cons]; simp [hd]
  have ha : Avoids f d b := h.avoids_of h0 hd0
    (fun ha => by rw [hi0, defs_append]; exact List.mem_append_left _ (hx ha)) (h.avoids_own hb hxb hr)
  have hdp := hav ha
  have hdb : d ∈ defs blk.instrs := by
    rw [hi, show pre ++ i :: post = (pre ++ [i]) ++ post by simp, defs_append]
    exact List.mem_append_left _ hdp
  obtain rfl := h.unique h0 hb hd0 hdb
  rw [h0] at hb; injection hb with hb; subst hb
  have hxp := hx (h.avoids_own h0 hxb hr)
  obtain ⟨j, hj, hxj⟩ := mem_defs.1 hxp
  obtain ⟨p1, p2, rfl⟩ := List.append_of_mem hj
  obtain ⟨rfl, rfl⟩ := split_unique (h.nodup h0) hi (pre' := p1) (i' := j) (post' := p2 ++ i0 :: post0)
    (by rw [hi0]; simp) hxi hxj
  have := not_mem_pre (h.nodup h0) hi0 hd
  rw [defs_append, defs_cons] at this
  rw [defs_append, defs_cons, defs_nil, List.append_nil] at hdp
  simp only [List.mem_append, not_or] at this hdp
  rcases hdp with hdp | hdp
  · exact this.1 hdp
  · exact this.2.1 hdp

/-- The operands of an instruction are available at it. -/
theorem Ssa.avail_use (h : Ssa f) {b : ℕ} {blk : Block} (hb : f.blocks[b]? = some blk) {pre post : List Instr}
    {i : Instr} (hi : blk.instrs = pre ++ i :: post) (hp : isPhi i = false) {v : ValueId} (hv : v ∈ i.uses) :
    Avail f b pre v := h.instrs b blk hb pre i post hi hp v hv

theorem facts_step (h : Ssa f) {b : ℕ} {blk : Block} (hr : Reaches f b) (hb : f.blocks[b]? = some blk)
    {pre post : List Instr} {i : Instr} (hi : blk.instrs = pre ++ i :: post) {e e' : Env}
    (hf : Facts calls f b pre e) (ho : ∀ v, v ∉ i.destinations → e' v = e v)
    (hn : ∀ d, DefOf i d → d ∉ i.uses → evalInstr calls i e' = some e') : Facts calls f b (pre ++ [i]) e' := by
  intro b0 blk0 pre0 i0 post0 d h0 hi0 hd hav
  have hu : ∀ x ∈ i0.uses, x ∉ i.destinations := fun x hx hxi =>
    h.ends h0 hi0 hd.mem (h.avail_use h0 hi0 hd.2.1 hx) hr hb hi hxi hav
  by_cases hdi : d ∈ i.destinations
  · have hd0 : d ∈ defs blk0.instrs := by rw [hi0, defs_append, defs_cons]; simp [hd.mem]
    have hdb : d ∈ defs blk.instrs := by rw [hi, defs_append, defs_cons]; simp [hdi]
    obtain rfl := h.unique h0 hb hd0 hdb
    rw [h0] at hb; injection hb with hb; subst hb
    obtain ⟨rfl, rfl⟩ := split_unique (h.nodup h0) hi0 hi hd.mem hdi
    exact hn d hd fun hx => hu d hx hdi
  · have hav' : Avail f b pre d := fun ha => by
      have := hav ha
      rw [defs_append, defs_cons, defs_nil, List.append_nil, List.mem_append] at this
      exact this.resolve_right hdi
    refine evalInstr_still hd (hf b0 blk0 pre0 i0 post0 d h0 hi0 hd hav') fun v hv => ?_
    rcases hv with hv | rfl
    · exact (ho v (hu v hv)).symm
    · exact (ho v hdi).symm

end Lang
end CairoM
