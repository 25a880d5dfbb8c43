import Verif.CodegenCast

/-!
# Expressions compile to code computing them (C48, C49, C50, C51)

Everything is stated over the meaning of emitted code given in `Verif/CodegenSem.lean` and over the meaning of
the operators given in `Verif/MirOps.lean` (`Lang.binary`, `Lang.unary`).
-/

namespace CairoM
namespace Codegen

open Mir Lang Relation

variable {code : List IB} {tgt : Name → Option ℕ} {fp : M31} {m : Isa.Mem} {b b' : Builder} {op : BinaryOp}
  {l r : Value} {x y z : Val} {lo hi d : ℤ}

/-- Operators on field elements and the equality tests. -/
def FeltOp : BinaryOp → Prop
  | .Add | .Sub | .Mul | .Div | .Eq | .Neq => True
  | _ => False

/-- Operators on u32 that have an instruction. -/
def U32Op : BinaryOp → Prop
  | .U32Add | .U32Sub | .U32Mul | .U32Div | .U32Rem | .U32Eq | .U32Less | .U32BitwiseAnd | .U32BitwiseOr
  | .U32BitwiseXor => True
  | _ => False

/-- Boolean connectives. -/
def BoolOp : BinaryOp → Prop
  | .And | .Or => True
  | _ => False

theorem HasFelt.of_has {l : Layout} {v : Value} {x : M31} (h : Has l m fp lo .felt v (.felt x)) :
    HasFelt l m fp lo v x := by
  cases v with
  | Error => cases h
  | Literal lit =>
    cases lit <;> simp only [Has, denote, reduceCtorEq, Option.some.injEq, Val.felt.injEq] at h
    rw [← h]
    simp only [HasFelt, Builder.litU32, toM31, residue]
  | Operand id =>
    obtain ⟨-, s, hs, h1, h2, hx⟩ := h
    exact ⟨s, hs, h1, h2, hx⟩

theorem HasFelt.of_has_bool {l : Layout} {v : Value} {p : Bool} (h : Has l m fp lo .bool v (.bool p)) :
    HasFelt l m fp lo v (if p then 1 else 0) := by
  cases v with
  | Error => cases h
  | Literal lit =>
    cases lit <;> simp only [Has, denote, reduceCtorEq, Option.some.injEq, Val.bool.injEq] at h
    rw [← h]
    exact toM31_boolWord _
  | Operand id =>
    obtain ⟨-, s, hs, h1, h2, hx⟩ := h
    exact ⟨s, hs, h1, h2, hx⟩

theorem FeltRun.computes_felt {z : M31} (h : FeltRun code tgt fp b b' m d z) :
    Computes code tgt fp b b' m d (.felt z) := by
  obtain ⟨m', r, v, s⟩ := h
  refine ⟨m', r, v, s.mono fun o ho => ?_⟩
  rcases ho with rfl | ho
  · exact Or.inl ⟨le_rfl, by simp [width]⟩
  · exact Or.inr ho

theorem FeltRun.computes_bool {p : Bool} (h : FeltRun code tgt fp b b' m d (if p then 1 else 0)) :
    Computes code tgt fp b b' m d (.bool p) := by
  obtain ⟨m', r, v, s⟩ := h
  refine ⟨m', r, v, s.mono fun o ho => ?_⟩
  rcases ho with rfl | ho
  · exact Or.inl ⟨le_rfl, by simp [width]⟩
  · exact Or.inr ho

theorem has_felt_val {v : Value} {l : Layout} (h : Has l m fp lo .felt v x) : ∃ a, x = .felt a := by
  cases v with
  | Error => cases h
  | Literal lit => cases lit <;> simp only [Has, denote, reduceCtorEq, Option.some.injEq] at h; exact ⟨_, h.symm⟩
  | Operand id => obtain ⟨h, -⟩ := h; cases x <;> simp [Val.HasTy] at h; exact ⟨_, rfl⟩

theorem has_bool_val {v : Value} {l : Layout} (h : Has l m fp lo .bool v x) : ∃ a, x = .bool a := by
  cases v with
  | Error => cases h
  | Literal lit => cases lit <;> simp only [Has, denote, reduceCtorEq, Option.some.injEq] at h; exact ⟨_, h.symm⟩
  | Operand id => obtain ⟨h, -⟩ := h; cases x <;> simp [Val.HasTy] at h; exact ⟨_, rfl⟩

theorem has_u32_val {v : Value} {l : Layout} (h : Has l m fp lo .u32 v x) : ∃ a, x = .u32 a := by
  cases v with
  | Error => cases h
  | Literal lit => cases lit <;> simp only [Has, denote, reduceCtorEq, Option.some.injEq] at h; exact ⟨_, h.symm⟩
  | Operand id => obtain ⟨h, -⟩ := h; cases x <;> simp [Val.HasTy] at h; exact ⟨_, rfl⟩

/-- **C48**, for literals below `2^31`. If the code generator accepts a felt operation (or an equality test of
booleans) whose operands are literals or values held in their slots, then running the emitted code from any
memory ends after the emitted code with the result of the operation in the destination slot, and nothing else
has changed but temporaries above the frame. The destination may be an operand. -/
theorem C48_felt_partial {t : Ty} (hop : FeltOp op) (ht : operandTy op t) (w : Window fp lo hi)
    (hl : Has b.layout m fp lo t l x) (hr : Has b.layout m fp lo t r y) (sl : SmallLit l) (sr : SmallLit r)
    (hz : binary op x y = some z) (hd : lo ≤ d) (hd' : d + width z ≤ b.layout.frame)
    (h : b.computeInto op d l r = .ok b') (hhi : (b'.layout.frame : ℤ) ≤ hi) (hfit : Fits code tgt b') :
    Ext b b' ∧ Computes code tgt fp b b' m d z := by
  cases op <;> simp only [FeltOp] at hop <;> simp only [Builder.computeInto] at h <;>
    simp only [operandTy] at ht
  case Eq =>
    rcases ht with rfl | rfl
    · obtain ⟨x, rfl⟩ := has_felt_val hl
      obtain ⟨y, rfl⟩ := has_felt_val hr
      simp only [binary, Option.some.injEq] at hz
      subst hz
      obtain ⟨e, f⟩ := runs_feltEq w (.of_has hl) (.of_has hr) sl sr hd hd' h hhi hfit
      exact ⟨e, FeltRun.computes_bool (by simpa using f)⟩
    · obtain ⟨x, rfl⟩ := has_bool_val hl
      obtain ⟨y, rfl⟩ := has_bool_val hr
      simp only [binary, Option.some.injEq] at hz
      subst hz
      obtain ⟨e, f⟩ := runs_feltEq w (.of_has_bool hl) (.of_has_bool hr) sl sr hd hd' h hhi hfit
      refine ⟨e, FeltRun.computes_bool ?_⟩
      cases x <;> cases y <;> simpa using f
  case Neq =>
    rcases ht with rfl | rfl
    · obtain ⟨x, rfl⟩ := has_felt_val hl
      obtain ⟨y, rfl⟩ := has_felt_val hr
      simp only [binary, Option.some.injEq] at hz
      subst hz
      obtain ⟨e, f⟩ := runs_feltNeq w (.of_has hl) (.of_has hr) sl sr hd hd' h hhi hfit
      exact ⟨e, FeltRun.computes_bool (by simpa using f)⟩
    · obtain ⟨x, rfl⟩ := has_bool_val hl
      obtain ⟨y, rfl⟩ := has_bool_val hr
      simp only [binary, Option.some.injEq] at hz
      subst hz
      obtain ⟨e, f⟩ := runs_feltNeq w (.of_has_bool hl) (.of_has_bool hr) sl sr hd hd' h hhi hfit
      refine ⟨e, FeltRun.computes_bool ?_⟩
      cases x <;> cases y <;> simpa using f
  all_goals
    subst ht
    obtain ⟨x, rfl⟩ := has_felt_val hl
    obtain ⟨y, rfl⟩ := has_felt_val hr
    simp only [binary] at hz
  case Div =>
    split at hz
    · cases hz
    · rename_i hy
      cases hz
      obtain ⟨e, -, f⟩ := runs_feltArith (z := x / y) w (.of_has hl) (.of_has hr) sl sr
        (by rw [feltOp, if_neg hy, div_eq_mul_inv]) hd hd' h hhi hfit
      exact ⟨e, f.computes_felt⟩
  all_goals
    cases hz
    obtain ⟨e, -, f⟩ := runs_feltArith w (.of_has hl) (.of_has hr) sl sr rfl hd hd' h hhi hfit
    exact ⟨e, f.computes_felt⟩

/-- **C49.** The same for u32 arithmetic, comparisons and bitwise operations, with literals of any size. -/
theorem C49_u32 (hop : U32Op op) (w : Window fp lo hi)
    (hl : Has b.layout m fp lo .u32 l x) (hr : Has b.layout m fp lo .u32 r y)
    (hz : binary op x y = some z) (hd : lo ≤ d) (hd' : d + width z ≤ b.layout.frame)
    (h : b.computeInto op d l r = .ok b') (hhi : (b'.layout.frame : ℤ) ≤ hi) (hfit : Fits code tgt b') :
    Ext b b' ∧ Computes code tgt fp b b' m d z := by
  obtain ⟨x, rfl⟩ := has_u32_val hl
  obtain ⟨y, rfl⟩ := has_u32_val hr
  have h' : b.u32Op op d l r = .ok b' := by
    cases op <;> simp only [U32Op] at hop <;> exact h
  exact runs_u32Op w (.of_has hl) (.of_has hr) hz hd hd' h' hhi hfit

/-- **C50.** The same for `and`, `or`, when the destination is not an operand (it is cleared first). -/
theorem C50_connective (hop : BoolOp op) (w : Window fp lo hi)
    (hl : Has b.layout m fp lo .bool l x) (hr : Has b.layout m fp lo .bool r y)
    (nl : NotIn b.layout d l) (nr : NotIn b.layout d r)
    (hz : binary op x y = some z) (hd : lo ≤ d) (hd' : d + width z ≤ b.layout.frame)
    (h : b.computeInto op d l r = .ok b') (hhi : (b'.layout.frame : ℤ) ≤ hi) (hfit : Fits code tgt b') :
    Ext b b' ∧ Computes code tgt fp b b' m d z := by
  obtain ⟨x, rfl⟩ := has_bool_val hl
  obtain ⟨y, rfl⟩ := has_bool_val hr
  cases op <;> simp only [BoolOp] at hop <;> simp only [binary, Option.some.injEq] at hz <;> subst hz <;>
    simp only [Builder.computeInto] at h <;> simp only [width] at hd'
  · obtain ⟨e, el, f⟩ := runs_scAnd w hl hr nl nr hd hd' h hhi hfit
    rw [el] at hhi
    exact ⟨e, computes_bool (w.inRange hd (by omega)) rfl f⟩
  · obtain ⟨e, el, f⟩ := runs_scOr w hl hr nl nr hd hd' h hhi hfit
    rw [el] at hhi
    exact ⟨e, computes_bool (w.inRange hd (by omega)) rfl f⟩

/-- **C50.** The same for `not`; the destination may be the operand. -/
theorem C50_not (w : Window fp lo hi) (hl : Has b.layout m fp lo .bool l x) (hz : unary .Not x = some z) (hd : lo ≤ d)
    (hd' : d + width z ≤ b.layout.frame) (h : b.scNot d l = .ok b') (hhi : (b'.layout.frame : ℤ) ≤ hi)
    (hfit : Fits code tgt b') : Ext b b' ∧ Computes code tgt fp b b' m d z := by
  obtain ⟨x, rfl⟩ := has_bool_val hl
  simp only [unary, Option.some.injEq] at hz
  subst hz
  simp only [width] at hd'
  obtain ⟨e, el, f⟩ := runs_scNot w hl hd hd' h hhi hfit
  rw [el] at hhi
  exact ⟨e, computes_bool (w.inRange hd (by omega)) (by cases x <;> rfl) f⟩

/-- **C50.** `not` of an integer literal is true exactly for zero. -/
theorem C50_not_integer {n : BitVec 32} (w : Window fp lo hi) (hd : lo ≤ d) (hd' : d + 1 ≤ b.layout.frame)
    (h : b.scNot d (.Literal (.Integer n)) = .ok b') (hhi : (b'.layout.frame : ℤ) ≤ hi) (hfit : Fits code tgt b') :
    Ext b b' ∧ Computes code tgt fp b b' m d (.bool (decide (n = 0))) := by
  simp only [Builder.scNot, Except.ok.injEq] at h
  subst h
  have hhi' : (b.layout.frame : ℤ) ≤ hi := hhi
  have dr : Isa.InRange (adr fp d) := w.inRange hd (by omega)
  have := runs_storeImm (m := m) (fp := fp) hfit dr
  rw [toM31_boolWord] at this
  refine ⟨(Ext.newLabel.trans Ext.newLabel).trans Ext.push, computes_bool dr ?_ this⟩
  by_cases hn : n = 0 <;> simp [hn]

/-- **C48.** Negation of a field element is a subtraction from zero. -/
theorem C48_neg_partial {x : M31} (w : Window fp lo hi) (hl : Has b.layout m fp lo .felt l (.felt x)) (sl : SmallLit l)
    (hd : lo ≤ d) (hd' : d + 1 ≤ b.layout.frame)
    (h : b.feltArith .Sub d (.Literal (.Integer 0)) l = .ok b') (hhi : (b'.layout.frame : ℤ) ≤ hi)
    (hfit : Fits code tgt b') :
    unary .Neg (.felt x) = some (.felt (-x)) ∧ Ext b b' ∧ Computes code tgt fp b b' m d (.felt (-x)) := by
  obtain ⟨e, -, f⟩ := runs_feltArith (z := -x) (x := 0) w (l := .Literal (.Integer 0))
    (by simp [HasFelt, Builder.litU32, toM31]) (.of_has hl) (by simp [SmallLit]) sl
    (by simp [feltOp]) hd hd' h hhi hfit
  exact ⟨rfl, e, f.computes_felt⟩

/-- **C51.** The cast of a u32 held in slot `s`: below the modulus the emitted code stores the same number as a
field element, from the modulus on it faults. -/
theorem C51_cast {s : ℤ} {n : ℕ} (w : Window fp lo hi) (hs1 : lo ≤ s) (hs2 : s + 2 ≤ b.layout.frame)
    (hv : Holds m fp s (.u32 n)) (hd : lo ≤ d) (hd' : d + 1 ≤ b.layout.frame)
    (hhi : ((b.castSeq d s).layout.frame : ℤ) ≤ hi) (hfit : Fits code tgt (b.castSeq d s)) :
    (n < P → Computes code tgt fp b (b.castSeq d s) m d (.felt (n : M31))) ∧
      (P ≤ n → Traps code tgt fp (b.instrs.length, m)) :=
  runs_castSeq w hs1 hs2 hv hd hd' (by rw [ext_castSeq.2] at hhi; push_cast at hhi; exact hhi) hfit

/-- Execution is deterministic, so "ends with" and "faults" above are what happens, not what may happen. -/
theorem C48_deterministic {s s1 s2 : ℕ × Isa.Mem} (h1 : Step code tgt fp s s1) (h2 : Step code tgt fp s s2) :
    s1 = s2 := by
  cases h1 with
  | plain hi hp he =>
    cases h2 with
    | plain hi' hp' he' => rw [hi] at hi'; cases hi'; rw [he] at he'; cases he'; rfl
    | jump hi' _ => rw [hi] at hi'; cases hi'
    | branch hi' _ _ _ => rw [hi] at hi'; cases hi'
    | fall hi' _ => rw [hi] at hi'; cases hi'
  | jump hi hj =>
    cases h2 with
    | plain hi' hp' he' => rw [hi] at hi'; cases hi'
    | jump hi' hj' => rw [hi] at hi'; cases hi'; rw [hj] at hj'; cases hj'; rfl
    | branch hi' _ _ _ => rw [hi] at hi'; cases hi'
    | fall hi' _ => rw [hi] at hi'; cases hi'
  | branch hi hx hnz hj =>
    cases h2 with
    | plain hi' hp' he' => rw [hi] at hi'; cases hi'
    | jump hi' hj' => rw [hi] at hi'; cases hi'
    | branch hi' _ _ hj' => rw [hi] at hi'; cases hi'; rw [hj] at hj'; cases hj'; rfl
    | fall hi' hx' => rw [hi] at hi'; cases hi'; rw [hx] at hx'; cases hx'; exact absurd rfl hnz
  | fall hi hx =>
    cases h2 with
    | plain hi' hp' he' => rw [hi] at hi'; cases hi'
    | jump hi' hj' => rw [hi] at hi'; cases hi'
    | branch hi' hx' hnz' _ => rw [hi] at hi'; cases hi'; rw [hx] at hx'; cases hx'; exact absurd rfl hnz'
    | fall hi' _ => rfl

/-! ### The hypotheses are met -/

/-- Two one-slot values, a two-slot value and a destination in a frame of five slots. -/
def exLayout : Layout :=
  ⟨fun v => if v = 0 then some (.slot 0) else if v = 1 then some (.slot 1) else if v = 2 then some (.multi 2 2) else
    none, 5, 0⟩

/-- A builder that has emitted one instruction. -/
def exBuilder : Builder := ⟨[⟨.Ret, none⟩], [], exLayout, 3, 0⟩

/-- Frame at address `100` holding `1`, `0` and the number `65543`. -/
def exMem : Isa.Mem := fun a => if a = 100 then ⟨1, 0, 0, 0⟩ else if a = 102 then ⟨7, 0, 0, 0⟩ else
  if a = 103 then ⟨1, 0, 0, 0⟩ else ⟨0, 0, 0, 0⟩

/-- Target of a label: where it was put first. -/
def exTgt (b : Builder) : Name → Option ℕ := fun n => (b.labels.find? fun l => l.name == n).map (·.addr)

/-- The builder after an operation, or the builder before it. -/
def exAfter (e : Except Err Builder) : Builder := match e with | .ok b => b | .error _ => exBuilder

example : ∃ b', exBuilder.computeInto .Eq 4 (.Operand 0) (.Operand 1) = .ok b' ∧ b'.labels.length = 2 ∧
    Computes b'.instrs (exTgt b') 100 exBuilder b' exMem 4 (.bool false) := by
  refine ⟨exAfter (exBuilder.computeInto .Eq 4 (.Operand 0) (.Operand 1)), rfl, rfl, ?_⟩
  refine (C48_felt_partial (t := .felt) (lo := 0) (hi := 10) (x := .felt 1) (y := .felt 0) (op := .Eq)
    (l := .Operand 0) (r := .Operand 1) trivial (Or.inl rfl) ⟨by decide +kernel, by decide +kernel⟩
    ⟨rfl, .slot 0, rfl, by decide, by decide, by simp only [Holds]; decide +kernel⟩
    ⟨rfl, .slot 1, rfl, by decide, by decide, by simp only [Holds]; decide +kernel⟩ trivial trivial (by decide +kernel)
    (by decide) (by decide) rfl (by decide +kernel) ⟨List.prefix_refl _, by decide +kernel⟩).2

example : ∃ b', exBuilder.computeInto .U32Rem 2 (.Operand 2) (.Literal (.Integer 65536)) = .ok b' ∧
    Computes b'.instrs (exTgt b') 100 exBuilder b' exMem 2 (.u32 7) := by
  refine ⟨exAfter (exBuilder.computeInto .U32Rem 2 (.Operand 2) (.Literal (.Integer 65536))), rfl, ?_⟩
  refine (C49_u32 (lo := 0) (hi := 10) (x := .u32 65543) (y := .u32 65536) (op := .U32Rem)
    (l := .Operand 2) (r := .Literal (.Integer 65536)) trivial ⟨by decide +kernel, by decide +kernel⟩
    ⟨⟨rfl, by norm_num [U32Range]⟩, .multi 2 2, rfl, by decide, by decide, by simp only [Holds]; decide +kernel⟩
    rfl (by decide +kernel)
    (by decide) (by decide) rfl (by decide +kernel) ⟨List.prefix_refl _, by decide +kernel⟩).2

example : ∃ b', exBuilder.computeInto .Or 4 (.Operand 1) (.Operand 0) = .ok b' ∧ b'.labels.length = 2 ∧
    Computes b'.instrs (exTgt b') 100 exBuilder b' exMem 4 (.bool true) := by
  refine ⟨exAfter (exBuilder.computeInto .Or 4 (.Operand 1) (.Operand 0)), rfl, rfl, ?_⟩
  refine (C50_connective (lo := 0) (hi := 10) (x := .bool false) (y := .bool true) (op := .Or)
    (l := .Operand 1) (r := .Operand 0) trivial ⟨by decide +kernel, by decide +kernel⟩
    ⟨rfl, .slot 1, rfl, by decide, by decide, by simp only [Holds]; decide +kernel⟩
    ⟨rfl, .slot 0, rfl, by decide, by decide, by simp only [Holds]; decide +kernel⟩ ?_ ?_ (by decide +kernel)
    (by decide) (by decide) rfl (by decide +kernel) ⟨List.prefix_refl _, by decide +kernel⟩).2
  · rintro s hs; cases hs; decide
  · rintro s hs; cases hs; decide

example : ∃ b', exBuilder.scNot 4 (.Operand 1) = .ok b' ∧
    Computes b'.instrs (exTgt b') 100 exBuilder b' exMem 4 (.bool true) := by
  refine ⟨exAfter (exBuilder.scNot 4 (.Operand 1)), rfl, ?_⟩
  refine (C50_not (lo := 0) (hi := 10) (x := .bool false) (l := .Operand 1)
    ⟨by decide +kernel, by decide +kernel⟩ ⟨rfl, .slot 1, rfl, by decide, by decide, by simp only [Holds]; decide +kernel⟩
    rfl (by decide) (by decide) rfl (by decide +kernel) ⟨List.prefix_refl _, by decide +kernel⟩).2

example : Computes (exBuilder.castSeq 4 2).instrs (exTgt (exBuilder.castSeq 4 2)) 100 exBuilder
    (exBuilder.castSeq 4 2) exMem 4 (.felt ((65543 : ℕ) : M31)) :=
  (C51_cast (lo := 0) (hi := 20) (n := 65543) ⟨by decide +kernel, by decide +kernel⟩ (by decide) (by decide)
    (by simp only [Holds]; decide +kernel) (by decide) (by decide) (by decide +kernel)
    ⟨List.prefix_refl _, by decide +kernel⟩).1 (by decide)

/-- The same frame with the number `2^31 - 1`. -/
def exMemTop : Isa.Mem := fun a => if a = 102 then ⟨65535, 0, 0, 0⟩ else if a = 103 then ⟨32767, 0, 0, 0⟩ else
  ⟨0, 0, 0, 0⟩

example : Traps (exBuilder.castSeq 4 2).instrs (exTgt (exBuilder.castSeq 4 2)) 100 (1, exMemTop) :=
  (C51_cast (b := exBuilder) (d := 4) (s := 2) (lo := 0) (hi := 20) (n := 2147483647)
    ⟨by decide +kernel, by decide +kernel⟩ (by decide) (by decide)
    (by simp only [Holds]; decide +kernel) (by decide) (by decide) (by decide +kernel)
    ⟨List.prefix_refl _, by decide +kernel⟩).2 (by decide)

end Codegen
end CairoM
