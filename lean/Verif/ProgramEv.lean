import Verif.ProgramSpec
import Verif.FunctionRun

/-!
# Helper definitions: execution of the code of one function, calls taken as a whole

`Ev` says that execution reaches a state with a property whatever the callees leave in the cells they may
write.
-/

namespace CairoM
namespace Codegen

open Mir Lang Relation

/-- What the named functions return. -/
abbrev CallRel := Name → List Val → List Val → Prop

/-- Execution from instruction `i` and memory `m` reaches a state in `Q`. A call finds its arguments below the
frame of the callee and leaves the results there; it may change everything from the results on. -/
inductive Ev (code : List IB) (tgt : Name → Option ℕ) (fp : M31) (lo fr hi : ℤ) (C : CallRel)
    (Q : ℕ → Isa.Mem → Prop) : ℕ → Isa.Mem → Prop
  | now {i : ℕ} {m : Isa.Mem} (h : Q i m) : Ev code tgt fp lo fr hi C Q i m
  | step {i j : ℕ} {m m' : Isa.Mem} (h : Step code tgt fp (i, m) (j, m'))
      (k : Ev code tgt fp lo fr hi C Q j m') : Ev code tgt fp lo fr hi C Q i m
  | call {i : ℕ} {m : Isa.Mem} {off : ℤ} {l : Name} {args vs : List Val}
      (hf : code[i]? = some ⟨.CallAbsImm (ofI32 off) 0, some l⟩) (hc : C l args vs)
      (ha : HoldsAll m fp (off - widths vs - widths args) args) (h1 : lo ≤ off - widths vs - widths args)
      (h2 : 0 ≤ off - widths vs) (h3 : off ≤ fr)
      (k : ∀ m', HoldsAll m' fp (off - widths vs) vs →
        SameExcept fp (fun o => off - widths vs ≤ o ∧ o < hi) m m' → Ev code tgt fp lo fr hi C Q (i + 1) m') :
      Ev code tgt fp lo fr hi C Q i m

variable {code : List IB} {tgt : Name → Option ℕ} {fp : M31} {lo fr hi : ℤ} {C : CallRel}
  {Q R : ℕ → Isa.Mem → Prop} {i j : ℕ} {m m' : Isa.Mem}

theorem Ev.mono (h : Ev code tgt fp lo fr hi C Q i m) (hQ : ∀ i m, Q i m → R i m) :
    Ev code tgt fp lo fr hi C R i m := by
  induction h with
  | now h => exact .now (hQ _ _ h)
  | step h _ ih => exact .step h ih
  | call hf hc ha h1 h2 h3 _ ih => exact .call hf hc ha h1 h2 h3 ih

theorem Ev.runs (h : Runs code tgt fp (i, m) (j, m')) (k : Ev code tgt fp lo fr hi C Q j m') :
    Ev code tgt fp lo fr hi C Q i m := by
  have key : ∀ s : ℕ × Isa.Mem, Runs code tgt fp s (j, m') → Ev code tgt fp lo fr hi C Q s.1 s.2 := by
    intro s hs
    refine ReflTransGen.head_induction_on hs k ?_
    intro a c hac _ ih
    exact .step hac ih
  exact key (i, m) h

end Codegen
end CairoM
