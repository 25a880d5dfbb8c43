import Verif.Syntax

/-!
# Specification: executions of a function body

Only the control flow matters: every condition may evaluate to true and to false, so the relations cover every actual
execution. `Ends s o`: some execution of the statement finishes in the way `o`. `Reaches s p`: some execution of the
statement, finished or not, gets to the nested statement at position `p`. Initialisation and step of `for` are
declarations, assignments or expressions in the grammar, so they finish normally.
-/

namespace CairoM.Syntax

/-- Ways to finish a statement. -/
inductive Way where
  | normal | brk | cont | ret
  deriving DecidableEq

mutual
/-- Some execution of the statement finishes in this way. -/
inductive Ends : Stmt → Way → Prop where
  | let_ {p t e} : Ends (.let_ p t e) .normal
  | const {c} : Ends (.const c) .normal
  | assign {l r} : Ends (.assign l r) .normal
  | expr {e} : Ends (.expr e) .normal
  | return_ {e} : Ends (.return_ e) .ret
  | break_ : Ends .break_ .brk
  | continue_ : Ends .continue_ .cont
  | block {ss o} : EndsAll ss o → Ends (.block ss) o
  | skip {c t} : Ends (.if_ c t none) .normal
  | then_ {c t e o} : Ends t o → Ends (.if_ c t e) o
  | else_ {c t e o} : Ends e o → Ends (.if_ c t (some e)) o
  | loopNext {b o w} : Ends b w → (w = .normal ∨ w = .cont) → Ends (.loop_ b) o → Ends (.loop_ b) o
  | loopBreak {b} : Ends b .brk → Ends (.loop_ b) .normal
  | loopReturn {b} : Ends b .ret → Ends (.loop_ b) .ret
  | whileDone {c b} : Ends (.while_ c b) .normal
  | whileNext {c b o w} : Ends b w → (w = .normal ∨ w = .cont) → Ends (.while_ c b) o → Ends (.while_ c b) o
  | whileBreak {c b} : Ends b .brk → Ends (.while_ c b) .normal
  | whileReturn {c b} : Ends b .ret → Ends (.while_ c b) .ret
  | forDone {i c s b} : Ends i .normal → Ends (.for_ i c s b) .normal
  | forNext {i c s b o w} : Ends i .normal → Ends b w → (w = .normal ∨ w = .cont) → Ends s .normal →
      Ends (.for_ i c s b) o → Ends (.for_ i c s b) o
  | forBreak {i c s b} : Ends i .normal → Ends b .brk → Ends (.for_ i c s b) .normal
  | forReturn {i c s b} : Ends i .normal → Ends b .ret → Ends (.for_ i c s b) .ret
/-- Some execution of the statements, one after the other, finishes in this way. -/
inductive EndsAll : List Stmt → Way → Prop where
  | nil : EndsAll [] .normal
  | cons {s ss o} : Ends s .normal → EndsAll ss o → EndsAll (s :: ss) o
  | stop {s ss o} : o ≠ .normal → Ends s o → EndsAll (s :: ss) o
end

mutual
/-- Some execution of the statement gets to the statement at this position. -/
inductive Reaches : Stmt → List Nat → Prop where
  | here {s} : Reaches s []
  | block {ss i p} : ReachesAll ss i p → Reaches (.block ss) (i :: p)
  | then_ {c t e p} : Reaches t p → Reaches (.if_ c t e) (0 :: p)
  | else_ {c t e p} : Reaches e p → Reaches (.if_ c t (some e)) (1 :: p)
  | loop_ {b p} : Reaches b p → Reaches (.loop_ b) (0 :: p)
  | while_ {c b p} : Reaches b p → Reaches (.while_ c b) (0 :: p)
  | init {i c s b p} : Reaches i p → Reaches (.for_ i c s b) (0 :: p)
  | body {i c s b p} : Ends i .normal → Reaches b p → Reaches (.for_ i c s b) (1 :: p)
  | step {i c s b p w} : Ends i .normal → Ends b w → (w = .normal ∨ w = .cont) → Reaches s p →
      Reaches (.for_ i c s b) (2 :: p)
/-- Some execution of the statements gets to the position `p` in statement number `i`. -/
inductive ReachesAll : List Stmt → Nat → List Nat → Prop where
  | head {s ss p} : Reaches s p → ReachesAll (s :: ss) 0 p
  | tail {s ss i p} : Ends s .normal → ReachesAll ss i p → ReachesAll (s :: ss) (i + 1) p
end

/-- The positions of a statement and of the statements nested in it, without the steps of `for` loops. -/
inductive At : Stmt → List Nat → Prop where
  | here {s} : At s []
  | block {ss : List Stmt} {i : Nat} {p s} : ss[i]? = some s → At s p → At (.block ss) (i :: p)
  | then_ {c t e p} : At t p → At (.if_ c t e) (0 :: p)
  | else_ {c t e p} : At e p → At (.if_ c t (some e)) (1 :: p)
  | loop_ {b p} : At b p → At (.loop_ b) (0 :: p)
  | while_ {c b p} : At b p → At (.while_ c b) (0 :: p)
  | init {i c s b p} : At i p → At (.for_ i c s b) (0 :: p)
  | body {i c s b p} : At b p → At (.for_ i c s b) (1 :: p)

/-- A declaration, an assignment or an expression. -/
def plain : Stmt → Bool
  | .let_ .. | .assign .. | .expr .. => true
  | _ => false

mutual
/-- Initialisation and step of every `for` are a declaration, an assignment or an expression, as the grammar has it
(`parser.rs:1386-1428`). -/
def Stmt.plainFor : Stmt → Bool
  | .block ss => Stmt.plainFors ss
  | .if_ _ t none => t.plainFor
  | .if_ _ t (some e) => t.plainFor && e.plainFor
  | .loop_ b | .while_ _ b => b.plainFor
  | .for_ i _ s b => plain i && plain s && b.plainFor
  | _ => true
/-- The same for all statements of a list. -/
def Stmt.plainFors : List Stmt → Bool
  | [] => true
  | s :: ss => s.plainFor && Stmt.plainFors ss
end

end CairoM.Syntax
