import Verif.Syntax

/-!
# Specification: lexical scope

The textbook reading of a program: definitions are numbered in the order in which they take effect, a use of a name
means what the environment says at that point, a declaration extends the environment for what follows it in the same
block, and what a block declares is forgotten at its end. No scopes, tables or stacks here: the environment is passed
down the tree.
-/

namespace CairoM.Syntax.Lexical

/-- What a name means. -/
abbrev Env := String → Option Nat

/-- A name gets a new meaning. -/
def Env.bind (env : Env) (x : String) (i : Nat) : Env := fun y => if y = x then some i else env y

/-- Names get the next free numbers. -/
def Env.bindAll (env : Env) : Nat → List String → Env
  | _, [] => env
  | n, x :: xs => Env.bindAll (env.bind x n) (n + 1) xs

mutual
/-- Names in a type expression. -/
def tyNames : TypeExpr → List String
  | .named (.custom x) => [x]
  | .named _ => []
  | .pointer t | .fixedArray t _ => tyNames t
  | .tuple ts => tysNames ts
def tysNames : List TypeExpr → List String
  | [] => []
  | t :: ts => tyNames t ++ tysNames ts
end

mutual
/-- Names in an expression, from left to right; `true` marks names of types. -/
def exprNames : Expr → List (Bool × String)
  | .literal .. | .boolean _ => []
  | .ident x => [(false, x)]
  | .paren e | .unary _ e | .member e _ | .tupleIndex e _ | .arrayRepeat e _ | .cast e _ => exprNames e
  | .binary _ l r | .index l r => exprNames l ++ exprNames r
  | .call f args => exprNames f ++ exprsNames args
  | .structLit _ fields => fieldsNames fields
  | .tuple es | .array es => exprsNames es
  | .new t e => (tyNames t).map (true, ·) ++ exprNames e
def exprsNames : List Expr → List (Bool × String)
  | [] => []
  | e :: es => exprNames e ++ exprsNames es
def fieldsNames : List (String × Expr) → List (Bool × String)
  | [] => []
  | (_, e) :: es => exprNames e ++ fieldsNames es
end

mutual
/-- Names that a pattern binds. -/
def patNames : Pattern → List String
  | .ident x => [x]
  | .tuple ps => patsNames ps
def patsNames : List Pattern → List String
  | [] => []
  | p :: ps => patNames p ++ patsNames ps
end

/-- A use of a name: of a type or not, the name, its meaning, and whether it stands in the value of the constant that
has this name. -/
structure Occurrence where
  isType : Bool
  name : String
  meaning : Option Nat
  own : Bool
  deriving DecidableEq, Repr

/-- The meaning of names, in an environment, in the value of the constant `c` if there is one. -/
def look (env : Env) (xs : List (Bool × String)) (c : Option String := none) : List Occurrence :=
  xs.map fun x => ⟨x.1, x.2, env x.2, !x.1 && decide (c = some x.2)⟩

/-- What a piece of program does to names: the uses in it with their meanings, the environment for what follows, and
the names it declares, in order. -/
structure Effect where
  uses : List Occurrence
  env : Env
  declared : List String

/-- The environment is left again at the end. -/
def Effect.within (r : Effect) (env : Env) : Effect := { r with env := env }

/-- Uses before the effect. -/
def Effect.after (r : Effect) (us : List Occurrence) : Effect := { r with uses := us ++ r.uses }

/-- One effect, and then another, which depends on the environment and on the number of definitions so far. -/
def Effect.andThen (n : Nat) (r : Effect) (k : Env → Nat → Effect) : Effect :=
  let q := k r.env (n + r.declared.length)
  ⟨r.uses ++ q.uses, q.env, r.declared ++ q.declared⟩

/-- Names of the types in an optional annotation. -/
def annNames : Option TypeExpr → List (Bool × String)
  | none => []
  | some t => (tyNames t).map (true, ·)

/-- A constant: its value does not see it. -/
def constant (c : ConstDef) (env : Env) (n : Nat) : Effect :=
  ⟨look env (exprNames c.value) (some c.name), env.bind c.name n, [c.name]⟩

mutual
/-- A statement, in an environment and with `n` definitions before it. -/
def stmt : Stmt → Env → Nat → Effect
  | .let_ p ty e, env, n => ⟨look env (exprNames e ++ annNames ty), env.bindAll n (patNames p), patNames p⟩
  | .const c, env, n => constant c env n
  | .assign l r, env, _ => ⟨look env (exprNames l ++ exprNames r), env, []⟩
  | .return_ none, env, _ | .break_, env, _ | .continue_, env, _ => ⟨[], env, []⟩
  | .return_ (some e), env, _ | .expr e, env, _ => ⟨look env (exprNames e), env, []⟩
  | .if_ c t none, env, n => ((stmt t env n).within env).after (look env (exprNames c))
  | .if_ c t (some e), env, n =>
    ((((stmt t env n).within env).andThen n (stmt e)).within env).after (look env (exprNames c))
  | .block ss, env, n => (stmts ss env n).within env
  | .loop_ s, env, n => (stmt s env n).within env
  | .while_ c s, env, n => ((stmt s env n).within env).after (look env (exprNames c))
  | .for_ i c st s, env, n =>
    ((stmt i env n).andThen n fun env' n' =>
      (((stmt s env' n').within env').andThen n' (stmt st)).after (look env' (exprNames c))).within env
/-- Statements, one after the other. -/
def stmts : List Stmt → Env → Nat → Effect
  | [], env, _ => ⟨[], env, []⟩
  | s :: ss, env, n => (stmt s env n).andThen n (stmts ss)
end

/-- Parameters, one after the other. -/
def params : List (String × TypeExpr) → Env → Nat → Effect
  | [], env, _ => ⟨[], env, []⟩
  | (x, t) :: ps, env, n =>
    Effect.andThen n ⟨look env ((tyNames t).map (true, ·)), env.bind x n, [x]⟩ (params ps)

/-- A function: the parameters are visible in the body only. -/
def function (f : FunctionDef) (env : Env) (n : Nat) : Effect :=
  (((params f.params env n).andThen n (stmts f.body)).within env).after (look env ((tyNames f.returnType).map (true, ·)))

/-- An item at top level. Functions, structs and imports are declared before. -/
def item : Item → Env → Nat → Effect
  | .function f, env, n => function f env n
  | .struct _ fields, env, _ => ⟨look env (fields.flatMap fun f => (tyNames f.2).map (true, ·)), env, []⟩
  | .const c, env, n => constant c env n
  | .use .., env, _ => ⟨[], env, []⟩

def items : List Item → Env → Nat → Effect
  | [], env, _ => ⟨[], env, []⟩
  | i :: is, env, n => (item i env n).andThen n (items is)

/-- Functions, structs and imports, which are visible in the whole file. -/
def forward : Item → List String
  | .function f => [f.name]
  | .struct x _ => [x]
  | .const _ => []
  | .use [] _ => []
  | .use (_ :: _) (.single x) => [x]
  | .use (_ :: _) (.list xs) => xs

/-- A file: what every use in it means, and the declared names in the order of their numbers. -/
def file (is : List Item) : Effect :=
  Effect.andThen 0 ⟨[], Env.bindAll (fun _ => none) 0 (is.flatMap forward), is.flatMap forward⟩ (items is)

/-- A bare declaration. -/
def declares : Stmt → Bool
  | .let_ .. | .const _ => true
  | _ => false

mutual
/-- The body of no `for` is a bare declaration (as in `for (..) let x = 1;`, which the grammar allows: `parser.rs:1438`). -/
def blockFor : Stmt → Bool
  | .block ss => blockFors ss
  | .if_ _ t none => blockFor t
  | .if_ _ t (some e) => blockFor t && blockFor e
  | .loop_ b | .while_ _ b => blockFor b
  | .for_ i _ s b => blockFor i && blockFor s && blockFor b && !declares b
  | _ => true
/-- The same for all statements of a list. -/
def blockFors : List Stmt → Bool
  | [] => true
  | s :: ss => blockFor s && blockFors ss
end

end CairoM.Syntax.Lexical
