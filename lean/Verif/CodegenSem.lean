import Verif.CodegenGen
import Verif.IsaSpec
import Mathlib.Logic.Relation
import Mathlib.Tactic.Ring
import Mathlib.Tactic.Linarith
import Mathlib.Tactic.NormNum

/-!
# Meaning of emitted code before label resolution (specification)

The emitted instructions still refer to labels by name. Their meaning is given over instruction indices: an
instruction that is not a jump has the effect given by the reference semantics of the instruction set and
continues with the next instruction, a jump with a label continues at the index the label names. The frame
pointer is fixed: calls and returns are not steps of this machine.
-/

namespace CairoM
namespace Codegen

open Mir Lang Relation

/-- The instructions that continue with the next one and keep the frame pointer. -/
def plain : Instruction → Bool
  | .JmpAbsImm _ | .JmpRelImm _ | .JnzFpImm _ _ | .CallAbsImm _ _ | .Ret => false
  | _ => true

/-- One step over instruction indices; `tgt` gives the index every label names. -/
inductive Step (code : List IB) (tgt : Name → Option ℕ) (fp : M31) : ℕ × Isa.Mem → ℕ × Isa.Mem → Prop
  | plain {i : ℕ} {ins : Instruction} {m : Isa.Mem} {e : Isa.Effect} (hi : code[i]? = some ⟨ins, none⟩)
      (hp : plain ins = true) (he : Isa.sem ins 0 fp m = some e) : Step code tgt fp (i, m) (i + 1, e.memory m)
  | jump {i j : ℕ} {o : M31} {l : Name} {m : Isa.Mem} (hi : code[i]? = some ⟨.JmpRelImm o, some l⟩)
      (hj : tgt l = some j) : Step code tgt fp (i, m) (j, m)
  | branch {i j : ℕ} {c o x : M31} {l : Name} {m : Isa.Mem} (hi : code[i]? = some ⟨.JnzFpImm c o, some l⟩)
      (hx : Isa.felt m (fp + c) = some x) (hnz : x ≠ 0) (hj : tgt l = some j) : Step code tgt fp (i, m) (j, m)
  | fall {i : ℕ} {c o : M31} {l : Name} {m : Isa.Mem} (hi : code[i]? = some ⟨.JnzFpImm c o, some l⟩)
      (hx : Isa.felt m (fp + c) = some 0) : Step code tgt fp (i, m) (i + 1, m)

/-- Execution: any number of steps. -/
def Runs (code : List IB) (tgt : Name → Option ℕ) (fp : M31) : ℕ × Isa.Mem → ℕ × Isa.Mem → Prop :=
  ReflTransGen (Step code tgt fp)

/-- Execution reaches an instruction that faults. -/
def Traps (code : List IB) (tgt : Name → Option ℕ) (fp : M31) (s : ℕ × Isa.Mem) : Prop :=
  ∃ i m ins, Runs code tgt fp s (i, m) ∧ code[i]? = some ⟨ins, none⟩ ∧ plain ins = true ∧ Isa.sem ins 0 fp m = none

/-- The address of a frame slot. -/
def adr (fp : M31) (o : ℤ) : M31 := fp + (o : M31)

/-- Number of slots of a scalar. -/
def width : Val → ℕ
  | .felt _ => 1
  | .bool _ => 1
  | .u32 _ => 2
  | .unit => 0

/-- The scalar is stored in the slots from `off` on. -/
def Holds (m : Isa.Mem) (fp : M31) (off : ℤ) : Val → Prop
  | .felt x => Isa.felt m (adr fp off) = some x
  | .bool b => Isa.felt m (adr fp off) = some (if b then 1 else 0)
  | .u32 n => Isa.u32 m (adr fp off) = some n
  | .unit => True

/-- The slots from `lo` to `hi` have distinct addresses in the address space. -/
structure Window (fp : M31) (lo hi : ℤ) : Prop where
  lo : 0 ≤ (fp.val : ℤ) + lo
  hi : (fp.val : ℤ) + hi ≤ 2 ^ 28

/-- Memory differs at most in the slots of a set of offsets. -/
def SameExcept (fp : M31) (S : ℤ → Prop) (m m' : Isa.Mem) : Prop :=
  ∀ a, (∀ o, S o → a ≠ adr fp o) → m' a = m a

/-- The value of an operand of type `t`: literals denote a scalar, operands are held in their slots, which lie
between `lo` and the top of the frame. -/
def Has (l : Layout) (m : Isa.Mem) (fp : M31) (lo : ℤ) (t : Ty) (v : Value) (x : Val) : Prop :=
  match v with
  | .Literal lit => denote t lit = some x
  | .Operand id => x.HasTy t ∧ ∃ s, l.values id = some s ∧ lo ≤ s.off ∧ s.off + width x ≤ l.frame ∧ Holds m fp s.off x
  | .Error => False

/-- An integer literal that also fits a signed 32-bit number (immediates of additions and multiplications go
through one). -/
def SmallLit : Value → Prop
  | .Literal (.Integer n) => n.toNat < 2 ^ 31
  | _ => True

/-- The code emitted so far is part of the program and its labels name the indices they were put at. -/
structure Fits (code : List IB) (tgt : Name → Option ℕ) (b : Builder) : Prop where
  code : b.instrs <+: code
  labels : ∀ l ∈ b.labels, tgt l.name = some l.addr

/-- Emitted code for a value: it runs from where the code generator stood to where it stands, leaves the scalar
in slot `d` and changes nothing but the slots of the result and temporaries taken above the frame. -/
def Computes (code : List IB) (tgt : Name → Option ℕ) (fp : M31) (b b' : Builder) (m : Isa.Mem) (d : ℤ) (v : Val) :
    Prop :=
  ∃ m', Runs code tgt fp (b.instrs.length, m) (b'.instrs.length, m') ∧ Holds m' fp d v ∧
    SameExcept fp (fun o => (d ≤ o ∧ o < d + width v) ∨ ((b.layout.frame : ℤ) ≤ o ∧ o < b'.layout.frame)) m m'

end Codegen
end CairoM
