import Verif.Names
import Verif.NamesSpec

/-!
# Helper lemmas: the chain of scopes spells the environment
-/

namespace CairoM.Syntax
namespace Builder

open Lexical

/-- The stack is a chain of parents. -/
def Linked (parents : List (Option Nat)) : List Nat → Prop
  | [] => True
  | s :: rest => s < parents.length ∧ parents[s]? = some rest.head? ∧ (∀ t ∈ rest, t < s) ∧ Linked parents rest

structure WF (b : Builder) : Prop where
  ne : b.stack ≠ []
  linked : Linked b.parents b.stack
  fresh : ∀ s, b.parents.length ≤ s → b.names s = fun _ => []

/-- Lookup along a list of scopes. -/
def along (names : Nat → String → List Nat) : List Nat → String → Option Nat
  | [], _ => none
  | s :: rest, x => match (names s x).getLast? with
    | some i => some i
    | none => along names rest x

theorem linked_length {ps : List (Option Nat)} : ∀ {st : List Nat}, Linked ps st → st.length ≤ ps.length
  | [], _ => by simp
  | [s], h => by have := h.1; simp; omega
  | s :: t :: rest, h => by
    have key : ∀ (st : List Nat) (s : Nat), Linked ps (s :: st) → st.length ≤ s := by
      intro st
      induction st with
      | nil => intro s _; simp
      | cons t st ih =>
        intro s h
        have h1 := ih t h.2.2.2
        have h2 := h.2.2.1 t (by simp)
        simp only [List.length_cons]
        omega
    have := key _ _ h
    have := h.1
    simp only [List.length_cons] at *
    omega

theorem inChain_eq (b : Builder) (x : String) : ∀ (st : List Nat) (n : Nat), Linked b.parents st → st.length ≤ n →
    b.inChain x n st.head? = along b.names st x
  | [], 0, _, _ => rfl
  | [], n + 1, _, _ => rfl
  | s :: rest, 0, _, h => by simp at h
  | s :: rest, n + 1, hl, h => by
    have ih := inChain_eq b x rest n hl.2.2.2 (by simpa using h)
    simp only [List.head?_cons, inChain, along, latest]
    split
    · rename_i h1
      rw [h1]
    · rename_i h1
      rw [h1]
      simp only [hl.2.1, Option.join_some]
      exact ih

theorem resolve_eq {b : Builder} (h : WF b) (x : String) : b.resolve x = along b.names b.stack x := by
  have h1 : some b.current = b.stack.head? := by
    have := h.ne
    unfold current
    cases hs : b.stack with
    | nil => exact absurd hs this
    | cons s r => rfl
  unfold resolve
  rw [h1]
  exact inChain_eq b x b.stack _ h.linked (by have := linked_length h.linked; omega)

theorem linked_mono {ps qs : List (Option Nat)} (hp : ps <+: qs) : ∀ {st : List Nat}, Linked ps st → Linked qs st
  | [], _ => trivial
  | s :: rest, h => by
    refine ⟨Nat.lt_of_lt_of_le h.1 hp.length_le, ?_, h.2.2.1, linked_mono hp h.2.2.2⟩
    obtain ⟨t, rfl⟩ := hp
    rw [List.getElem?_append_left h.1]
    exact h.2.1

/-- What a use is, without the tables. -/
def key (u : Use) : Occurrence := ⟨u.isType, u.name, u.def_, u.self_⟩

/-- The builder went from `b` to `b'`, and that is the effect `r`. -/
structure Ok (b b' : Builder) (r : Effect) : Prop where
  stack : b'.stack = b.stack
  wf : WF b'
  parents : b.parents <+: b'.parents
  old : ∀ s, s < b.parents.length → s ≠ b.current → b'.names s = b.names s
  env : along b'.names b'.stack = r.env
  defs : b'.defs.map (·.name) = b.defs.map (·.name) ++ r.declared
  uses : b'.uses.map key = b.uses.map key ++ r.uses
  used : ∀ i, i ∈ b'.used ↔ i ∈ b.used ∨ ∃ u ∈ r.uses, u.meaning = some i

theorem current_congr {b b' : Builder} (h : b'.stack = b.stack) : b'.current = b.current := by simp [current, h]

theorem Ok.trans {b b' b'' : Builder} {r q : Effect} (h : Ok b b' r) (h' : Ok b' b'' q) :
    Ok b b'' ⟨r.uses ++ q.uses, q.env, r.declared ++ q.declared⟩ where
  stack := h'.stack.trans h.stack
  wf := h'.wf
  parents := h.parents.trans h'.parents
  old := fun s hs hc => (h'.old s (Nat.lt_of_lt_of_le hs h.parents.length_le) (by rwa [current_congr h.stack])).trans (h.old s hs hc)
  env := h'.env
  defs := by rw [h'.defs, h.defs, List.append_assoc]
  uses := by rw [h'.uses, h.uses, List.append_assoc]
  used := fun i => by
    rw [h'.used, h.used]
    simp only [List.mem_append]
    constructor
    · rintro ((h | ⟨u, hu, he⟩) | ⟨u, hu, he⟩)
      · exact .inl h
      · exact .inr ⟨u, .inl hu, he⟩
      · exact .inr ⟨u, .inr hu, he⟩
    · rintro (h | ⟨u, hu | hu, he⟩)
      · exact .inl (.inl h)
      · exact .inl (.inr ⟨u, hu, he⟩)
      · exact .inr ⟨u, hu, he⟩

theorem Ok.refl {b : Builder} (h : WF b) {env : Env} (he : along b.names b.stack = env) : Ok b b ⟨[], env, []⟩ :=
  ⟨rfl, h, List.prefix_refl _, fun _ _ _ => rfl, he, by simp, by simp, by simp⟩

theorem addUse_ok {b : Builder} (h : WF b) {env : Env} (he : along b.names b.stack = env) (t : Bool) (c : Option String)
    (x : String) (ht : t = true → c = none) : Ok b (b.addUse t c x) ⟨look env [(t, x)] c, env, []⟩ := by
  have hr : b.resolve x = env x := by rw [resolve_eq h, he]
  refine ⟨rfl, ⟨h.ne, h.linked, h.fresh⟩, List.prefix_refl _, fun _ _ _ => rfl, he, by simp [addUse], ?_, ?_⟩
  · simp only [addUse, List.map_append, List.map_cons, List.map_nil, key, look, hr]
    cases t with
    | false => rfl
    | true => rw [ht rfl]; rfl
  · intro i
    simp only [addUse, List.mem_append, Option.mem_toList, look, List.map_cons, List.map_nil, List.mem_singleton, hr]
    constructor
    · rintro (h | h)
      · exact .inr ⟨_, rfl, h⟩
      · exact .inl h
    · rintro (h | ⟨u, rfl, h⟩)
      · exact .inr h
      · exact .inl h

theorem look_append (env : Env) (xs ys : List (Bool × String)) (c : Option String) :
    look env (xs ++ ys) c = look env xs c ++ look env ys c := by simp [look]

theorem look_type (env : Env) (xs : List String) (c : Option String) : look env (xs.map (true, ·)) c = look env (xs.map (true, ·)) := by
  simp [look]

theorem visitNames_ok : ∀ (xs : List String) {b : Builder} (_ : WF b) {env : Env} (_ : along b.names b.stack = env),
    Ok b (xs.foldl (fun b x => b.addUse true none x) b) ⟨look env (xs.map (true, ·)), env, []⟩
  | [], b, h, env, he => Ok.refl h he
  | x :: xs, b, h, env, he => by
    have h1 := addUse_ok h he true none x (fun _ => rfl)
    exact h1.trans (visitNames_ok xs h1.wf h1.env)

mutual
theorem tyNames_eq : ∀ (t : TypeExpr), t.names = tyNames t
  | .named (.custom x) => by simp [TypeExpr.names, tyNames]
  | .named .felt | .named .bool | .named .u32 => by simp [TypeExpr.names, tyNames]
  | .pointer t | .fixedArray t _ => by simp [TypeExpr.names, tyNames, tyNames_eq t]
  | .tuple ts => by simp [TypeExpr.names, tyNames, tysNames_eq ts]
theorem tysNames_eq : ∀ (ts : List TypeExpr), TypeExpr.namesAll ts = tysNames ts
  | [] => by simp [TypeExpr.namesAll, tysNames]
  | t :: ts => by simp [TypeExpr.namesAll, tysNames, tyNames_eq t, tysNames_eq ts]
end

mutual
theorem patNames_eq : ∀ (p : Pattern), p.names = patNames p
  | .ident x => by simp [Pattern.names, patNames]
  | .tuple ps => by simp [Pattern.names, patNames, patsNames_eq ps]
theorem patsNames_eq : ∀ (ps : List Pattern), Pattern.namesAll ps = patsNames ps
  | [] => by simp [Pattern.namesAll, patsNames]
  | p :: ps => by simp [Pattern.namesAll, patsNames, patNames_eq p, patsNames_eq ps]
end

theorem visitType_ok (t : TypeExpr) {b : Builder} (h : WF b) {env : Env} (he : along b.names b.stack = env) :
    Ok b (b.visitType t) ⟨look env ((tyNames t).map (true, ·)), env, []⟩ := by
  unfold visitType
  rw [tyNames_eq]
  exact visitNames_ok _ h he

theorem Ok.seq {b b' b'' : Builder} {env : Env} {xs ys : List (Bool × String)} {c : Option String}
    (h : Ok b b' ⟨look env xs c, env, []⟩) (h' : Ok b' b'' ⟨look env ys c, env, []⟩) :
    Ok b b'' ⟨look env (xs ++ ys) c, env, []⟩ := by
  rw [look_append]
  exact h.trans h'

mutual
theorem visitExpr_ok (c : Option String) : ∀ (e : Expr) {b : Builder} (_ : WF b) {env : Env} (_ : along b.names b.stack = env),
    Ok b (visitExpr c e b) ⟨look env (exprNames e) c, env, []⟩
  | .literal .., b, h, env, he | .boolean _, b, h, env, he => by
    simp only [visitExpr, exprNames]
    exact Ok.refl h he
  | .ident x, b, h, env, he => by
    simp only [visitExpr, exprNames]
    exact addUse_ok h he false c x (by simp)
  | .paren e, b, h, env, he | .unary _ e, b, h, env, he | .member e _, b, h, env, he | .tupleIndex e _, b, h, env, he
  | .arrayRepeat e _, b, h, env, he | .cast e _, b, h, env, he => by
    simp only [visitExpr, exprNames]
    exact visitExpr_ok c e h he
  | .binary _ l r, b, h, env, he | .index l r, b, h, env, he => by
    simp only [visitExpr, exprNames]
    have h1 := visitExpr_ok c l h he
    exact h1.seq (visitExpr_ok c r h1.wf h1.env)
  | .call f args, b, h, env, he => by
    simp only [visitExpr, exprNames]
    have h1 := visitExpr_ok c f h he
    exact h1.seq (visitExprs_ok c args h1.wf h1.env)
  | .structLit _ fs, b, h, env, he => by
    simp only [visitExpr, exprNames]
    exact visitFields_ok c fs h he
  | .tuple es, b, h, env, he | .array es, b, h, env, he => by
    simp only [visitExpr, exprNames]
    exact visitExprs_ok c es h he
  | .new t e, b, h, env, he => by
    simp only [visitExpr, exprNames]
    have h1 := visitType_ok t h he
    rw [← look_type env _ c] at h1
    exact h1.seq (visitExpr_ok c e h1.wf h1.env)
theorem visitExprs_ok (c : Option String) : ∀ (es : List Expr) {b : Builder} (_ : WF b) {env : Env} (_ : along b.names b.stack = env),
    Ok b (visitExprs c es b) ⟨look env (exprsNames es) c, env, []⟩
  | [], b, h, env, he => by
    simp only [visitExprs, exprsNames]
    exact Ok.refl h he
  | e :: es, b, h, env, he => by
    simp only [visitExprs, exprsNames]
    have h1 := visitExpr_ok c e h he
    exact h1.seq (visitExprs_ok c es h1.wf h1.env)
theorem visitFields_ok (c : Option String) : ∀ (es : List (String × Expr)) {b : Builder} (_ : WF b) {env : Env}
    (_ : along b.names b.stack = env), Ok b (visitFields c es b) ⟨look env (fieldsNames es) c, env, []⟩
  | [], b, h, env, he => by
    simp only [visitFields, fieldsNames]
    exact Ok.refl h he
  | (_, e) :: es, b, h, env, he => by
    simp only [visitFields, fieldsNames]
    have h1 := visitExpr_ok c e h he
    exact h1.seq (visitFields_ok c es h1.wf h1.env)
end

theorem visitTypeOpt_ok (ty : Option TypeExpr) {b : Builder} (h : WF b) {env : Env} (he : along b.names b.stack = env) :
    Ok b (b.visitTypeOpt ty) ⟨look env (annNames ty), env, []⟩ := by
  cases ty with
  | none => exact Ok.refl h he
  | some t => exact visitType_ok t h he

/-- Names of scopes that are not the changed one. -/
theorem along_congr {names names' : Nat → String → List Nat} : ∀ {st : List Nat}, (∀ s ∈ st, names' s = names s) →
    along names' st = along names st
  | [], _ => rfl
  | s :: rest, h => by
    funext x
    simp only [along]
    rw [h s (by simp), along_congr (st := rest) fun t ht => h t (by simp [ht])]

theorem add_ok {b : Builder} (h : WF b) {env : Env} (he : along b.names b.stack = env) (x : String) (k : DefKind) {n : Nat}
    (hn : b.defs.length = n) : Ok b (b.add x k) ⟨[], env.bind x n, [x]⟩ := by
  obtain ⟨s, rest, hs⟩ : ∃ s rest, b.stack = s :: rest := by
    cases hs : b.stack with
    | nil => exact absurd hs h.ne
    | cons s r => exact ⟨s, r, rfl⟩
  have hc : b.current = s := by simp [current, hs]
  have hl := h.linked
  rw [hs] at hl
  refine ⟨rfl, ⟨h.ne, h.linked, ?_⟩, List.prefix_refl _, ?_, ?_, by simp [add], by simp [add], by simp [add]⟩
  · intro t ht
    funext y
    have : t ≠ s := by have := hl.1; simp only [add] at ht; omega
    simp only [add, hc, this, false_and, if_false]
    rw [h.fresh t ht]
  · intro t _ ht
    funext y
    rw [hc] at ht
    simp [add, hc, ht]
  · have h1 : along (b.add x k).names rest = along b.names rest := by
      refine along_congr fun t ht => ?_
      have : t ≠ s := by have := hl.2.2.1 t ht; omega
      funext y
      simp [add, hc, this]
    have h2 : (b.add x k).stack = s :: rest := hs
    rw [h2]
    funext y
    rw [← he, hs]
    simp only [along, h1, Env.bind]
    by_cases hy : y = x
    · subst hy
      simp [add, hc, hn]
    · simp [add, hc, hy]

theorem length_of_map {b b' : Builder} {r : Effect} (h : Ok b b' r) : b'.defs.length = b.defs.length + r.declared.length := by
  have := congrArg List.length h.defs
  simpa using this

theorem addAll_ok : ∀ (xs : List String) (k : DefKind) {b : Builder} (_ : WF b) {env : Env} (_ : along b.names b.stack = env)
    {n : Nat} (_ : b.defs.length = n), Ok b (b.addAll xs k) ⟨[], env.bindAll n xs, xs⟩
  | [], k, b, h, env, he, n, hn => Ok.refl h he
  | x :: xs, k, b, h, env, he, n, hn => by
    have h1 := add_ok h he x k hn
    exact h1.trans (addAll_ok xs k h1.wf h1.env (by rw [length_of_map h1, hn]; rfl))

theorem push_wf {b : Builder} (h : WF b) : WF b.push := by
  have hne := h.ne
  have hl := h.linked
  refine ⟨by simp [push], ?_, fun s hs => h.fresh s (by simp [push] at hs; omega)⟩
  have hc : some b.current = b.stack.head? := by
    unfold current
    cases hs : b.stack with
    | nil => exact absurd hs hne
    | cons s r => rfl
  have key : ∀ st, Linked b.parents st → ∀ t ∈ st, t < b.parents.length := by
    intro st
    induction st with
    | nil => simp
    | cons s st ih =>
      intro h t ht
      rcases List.mem_cons.1 ht with rfl | ht
      · exact h.1
      · exact ih h.2.2.2 t ht
  refine ⟨by simp [push], ?_, key _ hl, linked_mono (List.prefix_append _ _) hl⟩
  simp only [push]
  rw [List.getElem?_append_right (Nat.le_refl _)]
  simp [hc]

theorem push_env {b : Builder} (h : WF b) {env : Env} (he : along b.names b.stack = env) :
    along b.push.names b.push.stack = env := by
  rw [← he]
  funext x
  simp [push, along, h.fresh b.parents.length (Nat.le_refl _)]

/-- What happens in a new scope does not touch the environment outside. -/
theorem inScope {b b' : Builder} {r : Effect} (h : WF b) {env : Env} (he : along b.names b.stack = env) (ho : Ok b.push b' r) :
    Ok b b'.pop (r.within env) := by
  have hst : b'.stack = b.parents.length :: b.stack := ho.stack
  have hlink := ho.wf.linked
  rw [hst] at hlink
  have hpre : b.parents <+: b'.parents := (List.prefix_append _ _).trans ho.parents
  have hkeep : ∀ s, s < b.parents.length → b'.names s = b.names s := fun s hs =>
    ho.old s (by simp [push]; omega) (by simp [push, current]; omega)
  refine ⟨by simp [pop, hst], ⟨by simpa [pop, hst] using h.ne, by simpa [pop, hst] using hlink.2.2.2, ho.wf.fresh⟩, hpre,
    fun s hs _ => hkeep s hs, ?_, ho.defs, ho.uses, ho.used⟩
  simp only [pop, hst, List.tail_cons, Effect.within]
  rw [← he]
  exact along_congr fun s hs => hkeep s (hlink.2.2.1 s hs)

theorem visitConst_ok (c : ConstDef) {b : Builder} (h : WF b) {env : Env} (he : along b.names b.stack = env) {n : Nat}
    (hn : b.defs.length = n) : Ok b (visitConst c b) (constant c env n) := by
  have h1 := visitExpr_ok (some c.name) c.value h he
  have h2 := add_ok h1.wf h1.env c.name .const (n := n) (by rw [length_of_map h1, hn]; rfl)
  have h3 := h1.trans h2
  simp only [List.append_nil] at h3
  exact h3

theorem Ok.after {b b' b'' : Builder} {env : Env} {us : List Occurrence} {q : Effect} (h : Ok b b' ⟨us, env, []⟩) (h' : Ok b' b'' q) :
    Ok b b'' (q.after us) := h.trans h'

theorem Ok.len {b b' : Builder} {env : Env} {us : List Occurrence} {n : Nat} (h : Ok b b' ⟨us, env, []⟩) (hn : b.defs.length = n) :
    b'.defs.length = n := by rw [length_of_map h, hn]; rfl

/-- Only a declaration changes the environment for what follows. -/
theorem within_self {s : Stmt} (h : declares s = false) {env : Env} {n : Nat} : (stmt s env n).within env = stmt s env n := by
  cases s with
  | let_ _ _ _ => simp [declares] at h
  | const _ => simp [declares] at h
  | return_ e => cases e <;> simp [stmt, Effect.within]
  | if_ c t e => cases e <;> simp [stmt, Effect.within, Effect.after]
  | _ => simp [stmt, Effect.within, Effect.after]

mutual
theorem visitStmt_ok : ∀ (s : Stmt) (_ : blockFor s = true) {b : Builder} (_ : WF b) {env : Env} (_ : along b.names b.stack = env)
    {n : Nat} (_ : b.defs.length = n), Ok b (visitStmt s b) (stmt s env n)
  | .let_ p ty e, _, b, h, env, he, n, hn => by
    simp only [visitStmt, stmt]
    have h1 := visitExpr_ok none e h he
    have h2 := h1.seq (visitTypeOpt_ok ty h1.wf h1.env)
    have h3 := h2.trans (addAll_ok p.names .let_ h2.wf h2.env (h2.len hn))
    simp only [List.append_nil, List.nil_append] at h3
    rw [patNames_eq] at h3 ⊢
    exact h3
  | .const c, _, b, h, env, he, n, hn => by
    simp only [visitStmt, stmt]
    exact visitConst_ok c h he hn
  | .assign l r, _, b, h, env, he, n, hn => by
    simp only [visitStmt, stmt]
    have h1 := visitExpr_ok none l h he
    exact h1.seq (visitExpr_ok none r h1.wf h1.env)
  | .return_ none, _, b, h, env, he, n, hn | .break_, _, b, h, env, he, n, hn | .continue_, _, b, h, env, he, n, hn => by
    simp only [visitStmt, stmt]
    exact Ok.refl h he
  | .return_ (some e), _, b, h, env, he, n, hn | .expr e, _, b, h, env, he, n, hn => by
    simp only [visitStmt, stmt]
    exact visitExpr_ok none e h he
  | .if_ c t none, hb, b, h, env, he, n, hn => by
    simp only [blockFor] at hb
    simp only [visitStmt, stmt]
    have h1 := visitExpr_ok none c h he
    exact h1.after (inScope h1.wf h1.env (visitStmt_ok t hb (push_wf h1.wf) (push_env h1.wf h1.env) (h1.len hn)))
  | .if_ c t (some e), hb, b, h, env, he, n, hn => by
    simp only [blockFor, Bool.and_eq_true] at hb
    simp only [visitStmt, stmt]
    have h1 := visitExpr_ok none c h he
    have h2 := inScope h1.wf h1.env (visitStmt_ok t hb.1 (push_wf h1.wf) (push_env h1.wf h1.env) (h1.len hn))
    have h3 := inScope h2.wf h2.env
      (visitStmt_ok e hb.2 (push_wf h2.wf) (push_env h2.wf h2.env) (n := n + (stmt t env n).declared.length)
        (by have h := length_of_map h2; rw [h1.len hn] at h; exact h))
    exact h1.after (h2.trans h3)
  | .block ss, hb, b, h, env, he, n, hn => by
    simp only [blockFor] at hb
    simp only [visitStmt, stmt]
    exact inScope h he (visitStmts_ok ss hb (push_wf h) (push_env h he) hn)
  | .loop_ s, hb, b, h, env, he, n, hn => by
    simp only [blockFor] at hb
    simp only [visitStmt, stmt]
    exact inScope h he (visitStmt_ok s hb (push_wf h) (push_env h he) hn)
  | .while_ c t, hb, b, h, env, he, n, hn => by
    simp only [blockFor] at hb
    simp only [visitStmt, stmt]
    have h1 := visitExpr_ok none c h he
    exact h1.after (inScope h1.wf h1.env (visitStmt_ok t hb (push_wf h1.wf) (push_env h1.wf h1.env) (h1.len hn)))
  | .for_ i c st s, hb, b, h, env, he, n, hn => by
    simp only [blockFor, Bool.and_eq_true, Bool.not_eq_true'] at hb
    simp only [visitStmt, stmt]
    refine inScope h he ?_
    have h1 := visitStmt_ok i hb.1.1.1 (push_wf h) (push_env h he) (n := n) hn
    have h2 := visitExpr_ok none c h1.wf h1.env
    have hl1 : (visitStmt i b.push).defs.length = n + (stmt i env n).declared.length := by
      have h := length_of_map h1
      rw [show b.push.defs.length = n from hn] at h
      exact h
    have h3 := visitStmt_ok s hb.1.2 h2.wf h2.env (n := n + (stmt i env n).declared.length) (h2.len hl1)
    rw [← within_self hb.2] at h3
    have hl3 := length_of_map h3
    have h4 := visitStmt_ok st hb.1.1.2 h3.wf h3.env
      (n := n + (stmt i env n).declared.length + (stmt s (stmt i env n).env (n + (stmt i env n).declared.length)).declared.length)
      (by rw [hl3, h2.len hl1]; rfl)
    exact h1.trans (h2.after (h3.trans h4))
theorem visitStmts_ok : ∀ (ss : List Stmt) (_ : blockFors ss = true) {b : Builder} (_ : WF b) {env : Env}
    (_ : along b.names b.stack = env) {n : Nat} (_ : b.defs.length = n), Ok b (visitStmts ss b) (stmts ss env n)
  | [], _, b, h, env, he, n, hn => by
    simp only [visitStmts, stmts]
    exact Ok.refl h he
  | s :: ss, hb, b, h, env, he, n, hn => by
    simp only [blockFors, Bool.and_eq_true] at hb
    simp only [visitStmts, stmts]
    have h1 := visitStmt_ok s hb.1 h he hn
    exact h1.trans (visitStmts_ok ss hb.2 h1.wf h1.env (by rw [length_of_map h1, hn]))
end

theorem visitParams_ok : ∀ (ps : List (String × TypeExpr)) {b : Builder} (_ : WF b) {env : Env} (_ : along b.names b.stack = env)
    {n : Nat} (_ : b.defs.length = n), Ok b (b.visitParams ps) (params ps env n)
  | [], b, h, env, he, n, hn => by
    simp only [params]
    exact Ok.refl h he
  | (x, t) :: ps, b, h, env, he, n, hn => by
    simp only [params]
    have h1 := visitType_ok t h he
    have h2 := h1.trans (add_ok h1.wf h1.env x .param (h1.len hn))
    simp only [List.append_nil, List.nil_append] at h2
    exact h2.trans (visitParams_ok ps h2.wf h2.env (by rw [length_of_map h2, hn]))

theorem visitFunction_ok (f : FunctionDef) (hf : blockFors f.body = true) {b : Builder} (h : WF b) {env : Env}
    (he : along b.names b.stack = env) {n : Nat} (hn : b.defs.length = n) : Ok b (visitFunction f b) (function f env n) := by
  have h1 := visitType_ok f.returnType (push_wf h) (push_env h he)
  have h2 := visitParams_ok f.params h1.wf h1.env (n := n) (h1.len hn)
  have h3 := visitStmts_ok f.body hf h2.wf h2.env (n := n + (params f.params env n).declared.length)
    (by rw [length_of_map h2, h1.len (n := n) hn])
  exact inScope h he (h1.after (h2.trans h3))

theorem visitFields'_ok : ∀ (fs : List (String × TypeExpr)) {b : Builder} (_ : WF b) {env : Env} (_ : along b.names b.stack = env),
    Ok b (fs.foldl (fun b f => b.visitType f.2) b) ⟨look env (fs.flatMap fun f => (tyNames f.2).map (true, ·)), env, []⟩
  | [], b, h, env, he => Ok.refl h he
  | f :: fs, b, h, env, he => by
    have h1 := visitType_ok f.2 h he
    rw [List.flatMap_cons]
    exact h1.seq (visitFields'_ok fs h1.wf h1.env)

/-- Bodies of `for` loops are not bare declarations. -/
def Item.blocks : Item → Bool
  | .function f => blockFors f.body
  | _ => true

theorem visitItem_ok (i : Item) (hi : Item.blocks i = true) {b : Builder} (h : WF b) {env : Env}
    (he : along b.names b.stack = env) {n : Nat} (hn : b.defs.length = n) : Ok b (visitItem i b) (item i env n) := by
  cases i with
  | function f => exact visitFunction_ok f hi h he hn
  | struct x fs => exact visitFields'_ok fs h he
  | const c => exact visitConst_ok c h he hn
  | use p us => exact Ok.refl h he

theorem visitItems_ok : ∀ (is : List Item) (_ : ∀ i ∈ is, Item.blocks i = true) {b : Builder} (_ : WF b) {env : Env}
    (_ : along b.names b.stack = env) {n : Nat} (_ : b.defs.length = n),
    Ok b (is.foldl (fun b i => visitItem i b) b) (items is env n)
  | [], _, b, h, env, he, n, hn => Ok.refl h he
  | i :: is, hi, b, h, env, he, n, hn => by
    simp only [items, List.foldl_cons]
    have h1 := visitItem_ok i (hi i (by simp)) h he hn
    exact h1.trans (visitItems_ok is (fun j hj => hi j (by simp [hj])) h1.wf h1.env (by rw [length_of_map h1, hn]))

theorem declare_ok : ∀ (ds : List (String × DefKind)) {b : Builder} (_ : WF b) {env : Env} (_ : along b.names b.stack = env)
    {n : Nat} (_ : b.defs.length = n),
    Ok b (ds.foldl (fun b d => b.add d.1 d.2) b) ⟨[], env.bindAll n (ds.map (·.1)), ds.map (·.1)⟩
  | [], b, h, env, he, n, hn => Ok.refl h he
  | d :: ds, b, h, env, he, n, hn => by
    have h1 := add_ok h he d.1 d.2 hn
    exact h1.trans (declare_ok ds h1.wf h1.env (by rw [length_of_map h1, hn]; rfl))

theorem forward_eq (i : Item) : i.declared.map (·.1) = forward i := by
  unfold Item.declared forward
  split <;> simp_all [Function.comp_def]

theorem new_wf : WF new := by
  refine ⟨by simp [new], ⟨by simp [new], rfl, by simp, trivial⟩, fun _ _ => rfl⟩

theorem build_ok (is : List Item) (h : ∀ i ∈ is, Item.blocks i = true) : Ok new (build is) (file is) := by
  have h1 := declare_ok (is.flatMap Item.declared) new_wf (env := fun _ => none) rfl (n := 0) rfl
  have e : (is.flatMap Item.declared).map (·.1) = is.flatMap forward := by
    rw [List.map_flatMap]
    simp only [forward_eq]
  rw [e] at h1
  have h2 := visitItems_ok is h h1.wf h1.env (n := 0 + (is.flatMap forward).length) (by rw [length_of_map h1]; rfl)
  exact h1.trans h2

end Builder
end CairoM.Syntax
