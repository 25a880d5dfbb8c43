import Verif.TypeNames
import Mathlib.Logic.Relation

/-!
# Specification: which declarations a type depends on, and which type a type expression denotes
-/

namespace CairoM
namespace TypeNames

open Mir Syntax

/-- The type expression names `x`. (Arrays of arrays are no types; what they name does not matter.) -/
inductive Names (x : String) : TypeExpr → Prop
  | named : Names x (.named (.custom x))
  | pointer {t} : Names x t → Names x (.pointer t)
  | tuple {ts t} : t ∈ ts → Names x t → Names x (.tuple ts)
  | array {t n} : isArrayExpr t = false → Names x t → Names x (.fixedArray t n)

/-- The declaration of `k` depends on that of `k'`: it is written with its name, or it is an import of it. -/
inductive Uses (P : Project) : Key → Key → Prop
  | field {m x fs f t y} : declOf P (m, x) = some (.struct fs) → (f, t) ∈ fs → Names y t → Uses P (m, x) (m, y)
  | function {m x ts t y} : declOf P (m, x) = some (.function ts) → t ∈ ts → Names y t → Uses P (m, x) (m, y)
  | const {m x t y} : declOf P (m, x) = some (.const t) → Names y t → Uses P (m, x) (m, y)
  | use {k k'} : declOf P k = some (.use k') → (P.lookup k'.1).isSome → Uses P k k'

/-- The declaration of `k` depends, in some number of steps, on one that depends on itself. -/
def Circular (P : Project) (k : Key) : Prop := ∃ c, Relation.ReflTransGen (Uses P) k c ∧ Relation.TransGen (Uses P) c c

/-- The type expression names `x` outside pointers: its values hold one of `x`. -/
inductive Holds (x : String) : TypeExpr → Prop
  | named : Holds x (.named (.custom x))
  | tuple {ts t} : t ∈ ts → Holds x t → Holds x (.tuple ts)
  | array {t n} : Holds x t → Holds x (.fixedArray t n)

/-- A value of struct `k` holds one of `k'`. -/
inductive Contains (P : Project) : Key → Key → Prop
  | field {m x fs f t y} : declOf P (m, x) = some (.struct fs) → (f, t) ∈ fs → Holds y t → Contains P (m, x) (m, y)
  | use {k k'} : declOf P k = some (.use k') → Contains P k k'

mutual
/-- The type that a type expression of module `m` denotes. A name denotes a type if it is that of a struct, of this module or
imported, or (as the code has it, see `C103_violated_const`) of a constant that is a struct. -/
inductive Denotes (P : Project) : String → TypeExpr → MirType → Prop
  | felt {m} : Denotes P m (.named .felt) .Felt
  | bool {m} : Denotes P m (.named .bool) .Bool
  | u32 {m} : Denotes P m (.named .u32) .U32
  | struct {m x n fs} : Declares P (m, x) (.Struct n fs) → Denotes P m (.named (.custom x)) (.Struct n fs)
  | noStruct {m x t} : Declares P (m, x) t → isStruct t = false → Denotes P m (.named (.custom x)) .Error
  | pointer {m t u} : Denotes P m t u → Denotes P m (.pointer t) (.Pointer u)
  | tuple {m ts us} : DenoteAll P m ts us → Denotes P m (.tuple ts) (.Tuple us)
  | array {m t u n} : isArrayExpr t = false → Denotes P m t u → isArray u = false → Denotes P m (.fixedArray t n) (.FixedArray u n)
  | nested {m t n} : isArrayExpr t = true → Denotes P m (.fixedArray t n) .Error
  | ofArray {m t u n} : isArrayExpr t = false → Denotes P m t u → isArray u = true → Denotes P m (.fixedArray t n) .Error
/-- One after the other. -/
inductive DenoteAll (P : Project) : String → List TypeExpr → List MirType → Prop
  | nil {m} : DenoteAll P m [] []
  | cons {m t ts u us} : Denotes P m t u → DenoteAll P m ts us → DenoteAll P m (t :: ts) (u :: us)
/-- The type that a name stands for; `Error` if it has none. -/
inductive Declares (P : Project) : Key → MirType → Prop
  | struct {m x fs us} : declOf P (m, x) = some (.struct fs) → DenoteAll P m (fs.map Prod.snd) us →
      Declares P (m, x) (.Struct x.toList ((fs.map fun f => f.1.toList).zip us))
  | function {k ts} : declOf P k = some (.function ts) → Declares P k .Error
  | const {m x t u} : declOf P (m, x) = some (.const t) → Denotes P m t u → Declares P (m, x) u
  | none {k} : declOf P k = none → Declares P k .Error
  | use {k k' t} : declOf P k = some (.use k') → (P.lookup k'.1).isSome → Declares P k' t → Declares P k t
  | lost {k k'} : declOf P k = some (.use k') → (P.lookup k'.1).isSome = false → Declares P k .Error
end

end TypeNames
end CairoM
