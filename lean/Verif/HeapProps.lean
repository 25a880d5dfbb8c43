import Verif.CodegenFelt
import Verif.CodegenWitness

/-!
# Heap allocation (C56)

The code emitted for an allocation keeps a cursor, the number of cells allocated so far, in a cell of the data
section, and hands out blocks from the top of the address space downwards.
-/

namespace CairoM
namespace Codegen

open Mir Lang Relation Abi

/-- The instructions with the address `h` of the cursor filled in where the label of the cursor stands. -/
def fillCursor (h : M31) (i : IB) : Instruction :=
  match i.label, i.inner with
  | some _, .StoreImm _ d => .StoreImm h d
  | _, ins => ins

/-- Execution of straight-line code (specification): each instruction in turn has the effect of the instruction
set semantics. -/
def straight (fp : M31) : List Instruction → Isa.Mem → Option Isa.Mem
  | [], m => some m
  | i :: is, m =>
    match Isa.sem i 0 fp m with
    | none => none
    | some e => straight fp is (e.memory m)

theorem straight_cons {fp : M31} {i : Instruction} {is : List Instruction} {m m' : Isa.Mem} {e : Isa.Effect}
    (h : Isa.sem i 0 fp m = some e) (hm : e.memory m = m') : straight fp (i :: is) m = straight fp is m' := by
  subst hm; simp only [straight, h]

/-- Instructions emitted between two states of the code generator. -/
def emitted (b b' : Builder) : List IB := b'.instrs.drop b.instrs.length

/-- The emitted instructions, once the slot of the size and the following free slot are known. -/
def heapCode (F F1 size d : ℤ) (pre : List IB) : List IB :=
  [⟨.StoreImm 0 (ofI32 F), some sHeapCursor⟩, ⟨.StoreDoubleDerefFp (ofI32 F) (ofI32 0) (ofI32 (F + 1)), none⟩] ++ pre ++
  [⟨.StoreAddFpFp (ofI32 (F + 1)) (ofI32 size) (ofI32 F1), none⟩,
   ⟨.StoreAddFpImm (ofI32 F1) (-toM31 1) (ofI32 F1), none⟩,
   ⟨.StoreImm (toM31 (BitVec.ofNat 32 (2 ^ 28 - 1))) (ofI32 (F1 + 1)), none⟩,
   ⟨.StoreSubFpFp (ofI32 (F1 + 1)) (ofI32 F1) (ofI32 (F1 + 2)), none⟩,
   ⟨.StoreAddFpFp (ofI32 (F + 1)) (ofI32 size) (ofI32 (F1 + 3)), none⟩,
   ⟨.StoreToDoubleDerefFpImm (ofI32 F) (ofI32 0) (ofI32 (F1 + 3)), none⟩,
   ⟨.StoreAddFpImm (ofI32 (F1 + 2)) (ofI32 0) (ofI32 d), none⟩]

/-- The slot of the destination: the one it has, or the first free one. -/
def destSlot (b : Builder) (frame : ℤ) (dest : ValueId) : ℤ :=
  match b.layout.values dest with
  | some s => s.off
  | none => frame

theorem allocateLocal_eq (l : Layout) (v : ValueId) (n : ℕ) :
    (l.allocateLocal v n).1 = (match l.values v with | some s => s.off | none => (l.frame : ℤ)) ∧
    l.frame ≤ (l.allocateLocal v n).2.frame ∧
    (l.values v = none → (l.allocateLocal v n).2.frame = l.frame + n) ∧
    ∃ s, (l.allocateLocal v n).2.values v = some s ∧ s.off = (l.allocateLocal v n).1 := by
  unfold Layout.allocateLocal
  split
  · simp_all
  · rename_i h
    simp only [h, Layout.insert]
    refine ⟨trivial, by simp, fun _ => trivial, Slot.of l.frame n, by simp, ?_⟩
    unfold Slot.of
    split <;> rfl

theorem lowerHeap_operand {b b' : Builder} {dest id : ValueId} (h : lowerHeap b dest (.Operand id) = .ok b') :
    ∃ s, b.layout.values id = some s ∧
      b'.instrs = b.instrs ++ heapCode b.layout.frame (b.layout.frame + 2) s.off
        (destSlot b (b.layout.frame + 6) dest) [] ∧
      b.layout.frame + 6 ≤ b'.layout.frame ∧
      (b.layout.values dest = none → b'.layout.frame = b.layout.frame + 7) ∧
      ∃ s, b'.layout.values dest = some s ∧ s.off = destSlot b (b.layout.frame + 6) dest := by
  cases hs : b.layout.values id with
  | none =>
    simp [lowerHeap, heapSize, Builder.reserve, Layout.reserve, Builder.pushL, Builder.push, Builder.loadImm,
      Layout.getOffset, hs, bind, Except.bind] at h
  | some s =>
    refine ⟨s, rfl, ?_⟩
    simp only [lowerHeap, heapSize, Builder.reserve, Layout.reserve, Builder.pushL, Builder.push, Builder.loadImm,
      Layout.getOffset, hs, bind, Except.bind, pure, Except.pure, Except.ok.injEq, Builder.feltSubImm,
      Builder.storeImm, Builder.storeToImm, Builder.allocateLocal, Builder.copySingle, Builder.feltAddImm] at h
    subst h
    simp only [heapCode, destSlot, List.append_assoc, List.cons_append, List.nil_append]
    have ha := allocateLocal_eq ⟨b.layout.values, b.layout.frame + 1 + 1 + 1 + 1 + 1 + 1, b.layout.retSlots⟩ dest 1
    simp only at ha
    refine ⟨?_, ha.2.1, ha.2.2.1, ?_⟩
    · simp only [ha.1, List.append_cancel_left_eq]
      cases b.layout.values dest <;> simp [add_assoc]
    · obtain ⟨t, ht, ho⟩ := ha.2.2.2
      refine ⟨t, ht, ?_⟩
      rw [ho, ha.1]
      cases b.layout.values dest <;> simp [add_assoc]

theorem lowerHeap_literal {b b' : Builder} {dest : ValueId} {n : BitVec 32}
    (h : lowerHeap b dest (.Literal (.Integer n)) = .ok b') :
      b'.instrs = b.instrs ++ heapCode b.layout.frame (b.layout.frame + 3) (b.layout.frame + 2)
        (destSlot b (b.layout.frame + 7) dest) [⟨.StoreImm (toM31 n) (ofI32 (b.layout.frame + 2)), none⟩] ∧
      b.layout.frame + 7 ≤ b'.layout.frame ∧
      (b.layout.values dest = none → b'.layout.frame = b.layout.frame + 8) ∧
      ∃ s, b'.layout.values dest = some s ∧ s.off = destSlot b (b.layout.frame + 7) dest := by
  simp only [lowerHeap, heapSize, Builder.reserve, Layout.reserve, Builder.pushL, Builder.push, Builder.loadImm,
    bind, Except.bind, pure, Except.pure, Except.ok.injEq, Builder.feltSubImm,
    Builder.storeImm, Builder.storeToImm, Builder.allocateLocal, Builder.copySingle, Builder.feltAddImm] at h
  subst h
  simp only [heapCode, destSlot, List.append_assoc, List.cons_append, List.nil_append]
  have ha := allocateLocal_eq ⟨b.layout.values, b.layout.frame + 1 + 1 + 1 + 1 + 1 + 1 + 1, b.layout.retSlots⟩ dest 1
  simp only at ha
  refine ⟨?_, ha.2.1, ha.2.2.1, ?_⟩
  · simp only [ha.1, List.append_cancel_left_eq]
    cases b.layout.values dest <;> simp [add_assoc]
  · obtain ⟨t, ht, ho⟩ := ha.2.2.2
    refine ⟨t, ht, ?_⟩
    rw [ho, ha.1]
    cases b.layout.values dest <;> simp [add_assoc]

theorem memory_put {m : Isa.Mem} {r : List M31} {a v pc fp : M31} :
    (⟨r, [(a, v)], pc, fp⟩ : Isa.Effect).memory m = put m a v := rfl

theorem sem_store (ha : fp + a = pa) (hs : fp + d = pd) {m : Isa.Mem} {x y imm : M31}
    (h0 : Isa.felt m pa = some x) (h1 : Isa.felt m pd = some y) (hr : Isa.InRange (x + imm)) :
    Isa.sem (.StoreToDoubleDerefFpImm a imm d) pc fp m = some ⟨[pa, pd], [(x + imm, y)], pc + 1, fp⟩ := by
  subst ha hs; dsimp only [Isa.sem]; rw [felt_bind h0, felt_bind h1]; exact done_one hr

theorem max_eq : toM31 (BitVec.ofNat 32 (2 ^ 28 - 1)) = 2 ^ 28 - 1 := by decide +kernel

theorem toM31_one : toM31 1 = 1 := by decide +kernel

theorem base_eq {R : Type} [CommRing R] (t c n : R) : t - 1 - (c + n + -1) + 0 = t - (c + n) := by ring

/-- The part of the emitted code after the size is known. -/
theorem heap_tail {fp h c n : M31} {lo hi F F1 size d : ℤ} {m : Isa.Mem} (w : Window fp lo hi)
    (hF : lo ≤ F) (hF1 : F + 1 < F1) (hhi : F1 + 4 ≤ hi) (hd : lo ≤ d ∧ d < hi) (hsz : lo ≤ size ∧ size < F1)
    (hh : ∀ o, lo ≤ o → o < hi → h ≠ adr fp o)
    (m0 : Isa.felt m (adr fp F) = some h) (m1 : Isa.felt m (adr fp (F + 1)) = some c)
    (m2 : Isa.felt m (adr fp size) = some n) (hr : Isa.InRange h) :
    ∃ m', straight fp
      [.StoreAddFpFp (ofI32 (F + 1)) (ofI32 size) (ofI32 F1),
       .StoreAddFpImm (ofI32 F1) (-toM31 1) (ofI32 F1),
       .StoreImm (toM31 (BitVec.ofNat 32 (2 ^ 28 - 1))) (ofI32 (F1 + 1)),
       .StoreSubFpFp (ofI32 (F1 + 1)) (ofI32 F1) (ofI32 (F1 + 2)),
       .StoreAddFpFp (ofI32 (F + 1)) (ofI32 size) (ofI32 (F1 + 3)),
       .StoreToDoubleDerefFpImm (ofI32 F) (ofI32 0) (ofI32 (F1 + 3)),
       .StoreAddFpImm (ofI32 (F1 + 2)) (ofI32 0) (ofI32 d)] m = some m' ∧
      Isa.felt m' (adr fp d) = some (2 ^ 28 - (c + n)) ∧ Isa.felt m' h = some (c + n) ∧
      (∀ a, a ≠ h → (∀ o, (F1 ≤ o ∧ o < F1 + 4) ∨ o = d → a ≠ adr fp o) → m' a = m a) := by
  have key : ∀ (m : Isa.Mem) (v : M31) (o o' : ℤ), lo ≤ o → o < hi → lo ≤ o' → o' < hi → o' ≠ o →
      Isa.felt (put m (adr fp o) v) (adr fp o') = Isa.felt m (adr fp o') := fun m v o o' a b a' b' hne =>
    felt_put_ne fun e => hne (w.inj a' b' a b e)
  have keyh : ∀ (m : Isa.Mem) (v : M31) (o : ℤ), lo ≤ o → o < hi →
      Isa.felt (put m h v) (adr fp o) = Isa.felt m (adr fp o) := fun m v o a b =>
    felt_put_ne fun e => hh o a b e.symm
  have rg : ∀ o, lo ≤ o → o < hi → Isa.InRange (adr fp o) := fun o a b => w.inRange a b
  have z0 : ofI32 0 = 0 := rfl
  have ad : ∀ o, fp + ofI32 o = adr fp o := adr_ofI32 fp
  -- memories
  set a1 := put m (adr fp F1) (c + n) with ha1
  set a2 := put a1 (adr fp F1) (c + n + -toM31 1) with ha2
  set a3 := put a2 (adr fp (F1 + 1)) (toM31 (BitVec.ofNat 32 (2 ^ 28 - 1))) with ha3
  set a4 := put a3 (adr fp (F1 + 2)) (toM31 (BitVec.ofNat 32 (2 ^ 28 - 1)) - (c + n + -toM31 1)) with ha4
  set a5 := put a4 (adr fp (F1 + 3)) (c + n) with ha5
  set a6 := put a5 (h + ofI32 0) (c + n) with ha6
  set a7 := put a6 (adr fp d) (toM31 (BitVec.ofNat 32 (2 ^ 28 - 1)) - (c + n + -toM31 1) + ofI32 0) with ha7
  have s1 : Isa.sem (.StoreAddFpFp (ofI32 (F + 1)) (ofI32 size) (ofI32 F1)) 0 fp m = _ :=
    sem_add (ad _) (ad _) (ad _) m1 m2 (rg _ (by omega) (by omega))
  have s2 : Isa.sem (.StoreAddFpImm (ofI32 F1) (-toM31 1) (ofI32 F1)) 0 fp a1 = _ :=
    sem_addImm (ad _) (ad _) (felt_put_same (rg _ (by omega) (by omega))) (rg _ (by omega) (by omega))
  have s3 : Isa.sem (.StoreImm (toM31 (BitVec.ofNat 32 (2 ^ 28 - 1))) (ofI32 (F1 + 1))) 0 fp a2 = _ :=
    sem_imm (ad _) (rg _ (by omega) (by omega))
  have f3 : Isa.felt a3 (adr fp F1) = some (c + n + -toM31 1) := by
    rw [ha3, key _ _ _ _ (by omega) (by omega) (by omega) (by omega) (by omega)]
    exact felt_put_same (rg _ (by omega) (by omega))
  have s4 : Isa.sem (.StoreSubFpFp (ofI32 (F1 + 1)) (ofI32 F1) (ofI32 (F1 + 2))) 0 fp a3 = _ :=
    sem_sub (ad _) (ad _) (ad _) (felt_put_same (rg _ (by omega) (by omega))) f3 (rg _ (by omega) (by omega))
  have low : ∀ o x, lo ≤ o → o < F1 → Isa.felt m (adr fp o) = some x → Isa.felt a4 (adr fp o) = some x := by
    intro o x h1 h2 hx
    rw [ha4, key _ _ _ _ (by omega) (by omega) h1 (by omega) (by omega), ha3,
      key _ _ _ _ (by omega) (by omega) h1 (by omega) (by omega), ha2,
      key _ _ _ _ (by omega) (by omega) h1 (by omega) (by omega), ha1,
      key _ _ _ _ (by omega) (by omega) h1 (by omega) (by omega), hx]
  have s5 : Isa.sem (.StoreAddFpFp (ofI32 (F + 1)) (ofI32 size) (ofI32 (F1 + 3))) 0 fp a4 = _ :=
    sem_add (ad _) (ad _) (ad _) (low _ _ (by omega) (by omega) m1) (low _ _ hsz.1 hsz.2 m2)
      (rg _ (by omega) (by omega))
  have f5 : Isa.felt a5 (adr fp F) = some h := by
    rw [ha5, key _ _ _ _ (by omega) (by omega) (by omega) (by omega) (by omega)]
    exact low _ _ (by omega) (by omega) m0
  have s6 : Isa.sem (.StoreToDoubleDerefFpImm (ofI32 F) (ofI32 0) (ofI32 (F1 + 3))) 0 fp a5 = _ :=
    sem_store (ad _) (ad _) f5 (felt_put_same (rg _ (by omega) (by omega))) (by rw [z0, add_zero]; exact hr)
  have f6 : Isa.felt a6 (adr fp (F1 + 2)) = some (toM31 (BitVec.ofNat 32 (2 ^ 28 - 1)) - (c + n + -toM31 1)) := by
    rw [ha6, z0, add_zero, keyh _ _ _ (by omega) (by omega), ha5,
      key _ _ _ _ (by omega) (by omega) (by omega) (by omega) (by omega)]
    exact felt_put_same (rg _ (by omega) (by omega))
  have s7 : Isa.sem (.StoreAddFpImm (ofI32 (F1 + 2)) (ofI32 0) (ofI32 d)) 0 fp a6 = _ :=
    sem_addImm (ad _) (ad _) f6 (rg _ (by omega) (by omega))
  refine ⟨a7, ?_, ?_, ?_, ?_⟩
  · rw [straight_cons (m' := a1) s1 rfl, straight_cons (m' := a2) s2 rfl, straight_cons (m' := a3) s3 rfl, straight_cons (m' := a4) s4 rfl, straight_cons (m' := a5) s5 rfl,
      straight_cons (m' := a6) s6 rfl, straight_cons (m' := a7) s7 rfl]
    rfl
  · rw [ha7, felt_put_same (rg _ (by omega) (by omega)), max_eq, toM31_one, z0]
    exact congrArg some (base_eq _ _ _)
  · rw [ha7, felt_put_ne (hh d hd.1 hd.2), ha6, z0, add_zero]
    exact felt_put_same hr
  · intro a hah hao
    have pn : ∀ (m : Isa.Mem) (b v : M31), a ≠ b → put m b v a = m a := fun m b v hab => by
      simp [put, Function.update_of_ne hab]
    rw [ha7, pn _ _ _ (hao d (.inr rfl)), ha6, z0, add_zero, pn _ _ _ hah, ha5,
      pn _ _ _ (hao _ (.inl (by omega))), ha4, pn _ _ _ (hao _ (.inl (by omega))), ha3,
      pn _ _ _ (hao _ (.inl (by omega))), ha2, pn _ _ _ (hao _ (.inl (by omega))), ha1,
      pn _ _ _ (hao _ (.inl (by omega)))]

/-- An allocation request: a felt in a slot or an integer literal. -/
def Requests (l : Layout) (m : Isa.Mem) (fp : M31) (lo : ℤ) : Value → M31 → Prop
  | .Operand id, n => ∃ s, l.values id = some s ∧ lo ≤ s.off ∧ s.off < l.frame ∧ Isa.felt m (adr fp s.off) = some n
  | .Literal (.Integer k), n => n = residue k.toNat
  | _, _ => False

/-- C56 (one allocation): the emitted code for allocating `n` cells, run with the cursor `c` stored in the data
cell `h`, leaves `2^28 - (c + n)` in the destination, advances the cursor to `c + n`, and changes no other cell
except temporaries above the frame. -/
theorem C56_allocation (b b' : Builder) (dest : ValueId) (v : Value) (fp h c n : M31) (lo : ℤ) (m : Isa.Mem)
    (hb : lowerHeap b dest v = .ok b') (w : Window fp lo b'.layout.frame) (hlo : lo ≤ 0)
    (hdest : ∀ s, b.layout.values dest = some s → lo ≤ s.off ∧ s.off < b.layout.frame)
    (hv : Requests b.layout m fp lo v n) (hc : Isa.felt m h = some c)
    (hh : ∀ o, lo ≤ o → o < b'.layout.frame → h ≠ adr fp o) :
    ∃ m' d, straight fp ((emitted b b').map (fillCursor h)) m = some m' ∧ b'.layout.values dest = some d ∧
      Isa.felt m' (adr fp d.off) = some (2 ^ 28 - (c + n)) ∧ Isa.felt m' h = some (c + n) ∧
      (∀ a, a ≠ h → (∀ o, ((b.layout.frame : ℤ) ≤ o ∧ o < b'.layout.frame) ∨ o = d.off → a ≠ adr fp o) → m' a = m a) := by
  have hr : Isa.InRange h := by
    unfold Isa.felt at hc
    split at hc
    · rename_i hx; exact hx.1
    · cases hc
  have z0 : ofI32 0 = 0 := rfl
  have ad : ∀ o, fp + ofI32 o = adr fp o := adr_ofI32 fp
  set F : ℤ := ((b.layout.frame : ℕ) : ℤ) with hF
  have hF0 : 0 ≤ F := by omega
  have pn : ∀ (a : M31) (m : Isa.Mem) (b v : M31), a ≠ b → put m b v a = m a := fun a m b v hab => by
    simp [put, Function.update_of_ne hab]
  cases v with
  | Error => exact absurd hv (by simp [Requests])
  | Operand id =>
    obtain ⟨s, hs, hi, hfr, hd, sd, hsd, hso⟩ := lowerHeap_operand hb
    obtain ⟨s', hs', h1, h2, h3⟩ := hv
    rw [hs] at hs'; injection hs' with hs'; subst hs'
    have hhi : F + 6 ≤ b'.layout.frame := by omega
    set d := destSlot b (F + 6) dest with hdd
    have hdr : lo ≤ d ∧ d < b'.layout.frame := by
      rw [hdd]; unfold destSlot
      cases hx : b.layout.values dest with
      | none => have := hd hx; simp only; omega
      | some t => have := hdest t hx; simp only; omega
    set a1 := put m (adr fp F) h with ha1
    set a2 := put a1 (adr fp (F + 1)) c with ha2
    have rg : ∀ o, lo ≤ o → o < b'.layout.frame → Isa.InRange (adr fp o) := fun o a b => w.inRange a b
    have key : ∀ (m : Isa.Mem) (v : M31) (o o' : ℤ), lo ≤ o → o < b'.layout.frame → lo ≤ o' → o' < b'.layout.frame →
        o' ≠ o → Isa.felt (put m (adr fp o) v) (adr fp o') = Isa.felt m (adr fp o') := fun m v o o' a b a' b' hne =>
      felt_put_ne fun e => hne (w.inj a' b' a b e)
    have s1 : Isa.sem (.StoreImm h (ofI32 F)) 0 fp m = _ := sem_imm (ad _) (rg _ (by omega) (by omega))
    have fh : Isa.felt a1 (h + ofI32 0) = some c := by
      rw [z0, add_zero, ha1, felt_put_ne (hh _ (by omega) (by omega)), hc]
    have s2 : Isa.sem (.StoreDoubleDerefFp (ofI32 F) (ofI32 0) (ofI32 (F + 1))) 0 fp a1 = _ :=
      sem_load (ad _) (ad _) (felt_put_same (rg _ (by omega) (by omega))) fh (rg _ (by omega) (by omega))
    obtain ⟨m', t1, t2, t3, t4⟩ := heap_tail (h := h) (c := c) (n := n) (F := F) (F1 := F + 2) (size := s.off) (d := d)
      (m := a2) w (by omega) (by omega) (by omega) hdr (by omega) hh
      (by rw [ha2, key _ _ _ _ (by omega) (by omega) (by omega) (by omega) (by omega)]
          exact felt_put_same (rg _ (by omega) (by omega)))
      (felt_put_same (rg _ (by omega) (by omega)))
      (by rw [ha2, key _ _ _ _ (by omega) (by omega) (by omega) (by omega) (by omega), ha1,
            key _ _ _ _ (by omega) (by omega) (by omega) (by omega) (by omega), h3]) hr
    rw [← hso] at t2
    refine ⟨m', sd, ?_, hsd, t2, t3, ?_⟩
    · unfold emitted
      rw [hi, List.drop_left, ← hF]
      simp only [heapCode, List.append_nil, List.cons_append, List.nil_append, List.map_cons, List.map_nil, fillCursor]
      rw [straight_cons (m' := a1) s1 rfl, straight_cons (m' := a2) s2 rfl]
      exact t1
    · intro a hah hao
      rw [t4 a hah (fun o ho => hao o (by omega)), ha2, pn _ _ _ _ (hao _ (.inl (by omega))), ha1,
        pn _ _ _ _ (hao _ (.inl (by omega)))]
  | Literal lit =>
    cases lit with
    | Boolean x => exact absurd hv (by simp [Requests])
    | Unit => exact absurd hv (by simp [Requests])
    | Integer k =>
      obtain ⟨hi, hfr, hd, sd, hsd, hso⟩ := lowerHeap_literal hb
      have hn : n = toM31 k := by
        simp only [Requests] at hv
        rw [hv]; unfold residue toM31; rfl
      have hhi : F + 7 ≤ b'.layout.frame := by omega
      set d := destSlot b (F + 7) dest with hdd
      have hdr : lo ≤ d ∧ d < b'.layout.frame := by
        rw [hdd]; unfold destSlot
        cases hx : b.layout.values dest with
        | none => have := hd hx; simp only; omega
        | some t => have := hdest t hx; simp only; omega
      set a1 := put m (adr fp F) h with ha1
      set a2 := put a1 (adr fp (F + 1)) c with ha2
      set a3 := put a2 (adr fp (F + 2)) (toM31 k) with ha3
      have rg : ∀ o, lo ≤ o → o < b'.layout.frame → Isa.InRange (adr fp o) := fun o a b => w.inRange a b
      have key : ∀ (m : Isa.Mem) (v : M31) (o o' : ℤ), lo ≤ o → o < b'.layout.frame → lo ≤ o' → o' < b'.layout.frame →
          o' ≠ o → Isa.felt (put m (adr fp o) v) (adr fp o') = Isa.felt m (adr fp o') := fun m v o o' a b a' b' hne =>
        felt_put_ne fun e => hne (w.inj a' b' a b e)
      have s1 : Isa.sem (.StoreImm h (ofI32 F)) 0 fp m = _ := sem_imm (ad _) (rg _ (by omega) (by omega))
      have fh : Isa.felt a1 (h + ofI32 0) = some c := by
        rw [z0, add_zero, ha1, felt_put_ne (hh _ (by omega) (by omega)), hc]
      have s2 : Isa.sem (.StoreDoubleDerefFp (ofI32 F) (ofI32 0) (ofI32 (F + 1))) 0 fp a1 = _ :=
        sem_load (ad _) (ad _) (felt_put_same (rg _ (by omega) (by omega))) fh (rg _ (by omega) (by omega))
      have s3 : Isa.sem (.StoreImm (toM31 k) (ofI32 (F + 2))) 0 fp a2 = _ := sem_imm (ad _) (rg _ (by omega) (by omega))
      obtain ⟨m', t1, t2, t3, t4⟩ := heap_tail (h := h) (c := c) (n := n) (F := F) (F1 := F + 3) (size := F + 2) (d := d)
        (m := a3) w (by omega) (by omega) (by omega) hdr (by omega) hh
        (by rw [ha3, key _ _ _ _ (by omega) (by omega) (by omega) (by omega) (by omega), ha2,
              key _ _ _ _ (by omega) (by omega) (by omega) (by omega) (by omega)]
            exact felt_put_same (rg _ (by omega) (by omega)))
        (by rw [ha3, key _ _ _ _ (by omega) (by omega) (by omega) (by omega) (by omega)]
            exact felt_put_same (rg _ (by omega) (by omega)))
        (by rw [hn]; exact felt_put_same (rg _ (by omega) (by omega))) hr
      rw [← hso] at t2
      refine ⟨m', sd, ?_, hsd, t2, t3, ?_⟩
      · unfold emitted
        rw [hi, List.drop_left, ← hF]
        simp only [heapCode, List.cons_append, List.nil_append, List.map_cons, List.map_nil, fillCursor]
        rw [straight_cons (m' := a1) s1 rfl, straight_cons (m' := a2) s2 rfl, straight_cons (m' := a3) s3 rfl]
        exact t1
      · intro a hah hao
        rw [t4 a hah (fun o ho => hao o (by omega)), ha3, pn _ _ _ _ (hao _ (.inl (by omega))), ha2,
          pn _ _ _ _ (hao _ (.inl (by omega))), ha1, pn _ _ _ _ (hao _ (.inl (by omega)))]

/-- Memories during a run that performs heap allocations, with the blocks handed out so far as pairs of base
address and size, latest first (specification). The cursor, in the data cell `h`, starts at zero; between
allocations the program does anything that leaves the cursor alone; an allocation runs the emitted code, and the
base is what the destination then holds. -/
inductive Allocated (h : M31) : Isa.Mem → List (M31 × M31) → Prop
  | start {m} (h0 : Isa.felt m h = some 0) : Allocated h m []
  | other {m m' bs} (hm : Allocated h m bs) (hk : Isa.felt m' h = Isa.felt m h) : Allocated h m' bs
  | alloc {m m' bs} {b b' : Builder} {dest : ValueId} {v : Value} {fp n base : M31} {lo : ℤ} {d : Slot}
      (hm : Allocated h m bs) (hb : lowerHeap b dest v = .ok b') (w : Window fp lo b'.layout.frame) (hlo : lo ≤ 0)
      (hdest : ∀ s, b.layout.values dest = some s → lo ≤ s.off ∧ s.off < b.layout.frame)
      (hv : Requests b.layout m fp lo v n) (hh : ∀ o, lo ≤ o → o < b'.layout.frame → h ≠ adr fp o)
      (hrun : straight fp ((emitted b b').map (fillCursor h)) m = some m')
      (hd : b'.layout.values dest = some d) (hbase : Isa.felt m' (adr fp d.off) = some base) :
      Allocated h m' ((base, n) :: bs)

/-- Number of cells in the blocks. -/
def cellsOf (bs : List (M31 × M31)) : ℕ := (bs.map fun x => x.2.val).sum

theorem allocated_cursor {h : M31} {m : Isa.Mem} {bs : List (M31 × M31)} (hm : Allocated h m bs) :
    Isa.felt m h = some ((cellsOf bs : ℕ) : M31) ∧
      ∀ pre x post, bs = pre ++ x :: post → x.1 = 2 ^ 28 - ((cellsOf (x :: post) : ℕ) : M31) := by
  induction hm with
  | start h0 => exact ⟨by rw [h0]; rfl, fun pre x post e => by simp at e⟩
  | other _ hk ih => exact ⟨by rw [hk]; exact ih.1, ih.2⟩
  | @alloc m m' bs b b' dest v fp n base lo d _ hb w hlo hdest hv hh hrun hd hbase ih =>
    obtain ⟨m1, d1, r1, r2, r3, r4, _⟩ := C56_allocation b b' dest v fp h _ n lo m hb w hlo hdest hv ih.1 hh
    rw [hrun] at r1; injection r1 with r1; subst r1
    rw [hd] at r2; injection r2 with r2; subst r2
    rw [hbase] at r3; injection r3 with r3
    have hsum : ((cellsOf ((base, n) :: bs) : ℕ) : M31) = ((cellsOf bs : ℕ) : M31) + n := by
      simp only [cellsOf, List.map_cons, List.sum_cons, Nat.cast_add, ZMod.natCast_zmod_val]
      exact add_comm _ _
    refine ⟨by rw [hsum]; exact r4, fun pre x post e => ?_⟩
    cases pre with
    | nil =>
      simp only [List.nil_append, List.cons.injEq] at e
      obtain ⟨rfl, rfl⟩ := e
      rw [hsum]; exact r3
    | cons y pre =>
      simp only [List.cons_append, List.cons.injEq] at e
      exact ih.2 pre x post e.2

theorem base_val {k : ℕ} (hk : k ≤ 2 ^ 28) : (2 ^ 28 - ((k : ℕ) : M31) : M31).val = 2 ^ 28 - k := by
  have h : (2 ^ 28 - ((k : ℕ) : M31) : M31) = ((2 ^ 28 - k : ℕ) : M31) := by
    rw [Nat.cast_sub hk]; norm_num
  rw [h, ZMod.val_natCast_of_lt]
  have hP : P = 2147483647 := rfl
  omega

/-- C56: as long as at most `2^28` cells are requested in total, every block lies inside the address space and
every block lies entirely below all the earlier ones, so no two overlap. -/
theorem C56_blocks {h : M31} {m : Isa.Mem} {bs : List (M31 × M31)} (hm : Allocated h m bs)
    (hsum : cellsOf bs ≤ 2 ^ 28) :
    (∀ x ∈ bs, x.1.val + x.2.val ≤ 2 ^ 28) ∧ bs.Pairwise fun x y => x.1.val + x.2.val ≤ y.1.val := by
  have hb := (allocated_cursor hm).2
  clear hm
  induction bs with
  | nil => exact ⟨by simp, List.Pairwise.nil⟩
  | cons x bs ih =>
    have hx := hb [] x bs rfl
    have hle : cellsOf bs ≤ 2 ^ 28 := by
      simp only [cellsOf, List.map_cons, List.sum_cons] at hsum ⊢; omega
    have hcons : cellsOf (x :: bs) = x.2.val + cellsOf bs := by simp [cellsOf]
    obtain ⟨i1, i2⟩ := ih hle fun pre y post e => hb (x :: pre) y post (by rw [e]; rfl)
    have hv : x.1.val = 2 ^ 28 - cellsOf (x :: bs) := by rw [hx, base_val hsum]
    have hbnd : ∀ y ∈ bs, x.1.val + x.2.val ≤ y.1.val := by
      intro y hy
      obtain ⟨pre, post, e⟩ := List.append_of_mem hy
      have hy := hb (x :: pre) y post (by rw [e]; rfl)
      have hc : cellsOf (y :: post) ≤ cellsOf bs := by
        rw [e]; simp [cellsOf, List.map_append, List.sum_append]
      rw [hy, base_val (by omega)]
      omega
    refine ⟨fun y hy => ?_, List.Pairwise.cons hbnd i2⟩
    rcases List.mem_cons.mp hy with rfl | hy
    · omega
    · exact i1 y hy

/-- The hypotheses of `C56_blocks` are met: an allocation of three cells from a fresh cursor in cell 50, in a
frame at address 100. -/
example : ∃ m, Allocated 50 m [(2 ^ 28 - 3, 3)] := by
  let m0 : Isa.Mem := fun _ => QM31.ofM31 0
  let b : Builder := Builder.new ⟨fun _ => none, 0, 0⟩ 0
  have h0 : Isa.felt m0 50 = some 0 := by decide +kernel
  have hlen : ∀ o : ℤ, 0 ≤ o → o < 8 → (50 : M31) ≠ adr 100 o := by
    intro o h1 h2
    interval_cases o <;> decide +kernel
  have w : Window 100 0 8 := ⟨by decide +kernel, by decide +kernel⟩
  have hv : Requests b.layout m0 100 0 (.Literal (.Integer 3)) 3 := by unfold Requests residue; decide +kernel
  obtain ⟨b', hb⟩ : ∃ b', lowerHeap b 0 (.Literal (.Integer 3)) = .ok b' := ⟨_, rfl⟩
  have hf : b'.layout.frame = 8 := (lowerHeap_literal hb).2.2.1 rfl
  have w' : Window 100 0 b'.layout.frame := by rw [hf]; exact w
  have hh : ∀ o : ℤ, 0 ≤ o → o < b'.layout.frame → (50 : M31) ≠ adr 100 o := by rw [hf]; exact hlen
  have hn : ∀ s, b.layout.values 0 = some s → (0 : ℤ) ≤ s.off ∧ s.off < b.layout.frame := by
    intro s hs; cases hs
  obtain ⟨m, d, r1, r2, r3, -, -⟩ := C56_allocation b b' 0 _ 100 50 0 3 0 m0 hb w' le_rfl hn hv h0 hh
  rw [zero_add] at r3
  exact ⟨m, .alloc (.start h0) hb w' le_rfl hn hv hh r1 r2 r3⟩

/-- `fn m(n: felt) -> felt { let p = new felt[n]; return p as felt }`: the base of a fresh block. -/
def allocFn : Function :=
  ⟨['m'], [⟨[.HeapAllocCells 1 (.Operand 0)], .Return [.Operand 1]⟩], [0], [1], 2, types [(0, .Felt), (1, .Felt)]⟩

/-- Two blocks of three cells and of `n` cells: the base of the second. -/
def allocTwice : Function :=
  ⟨['m'], [⟨[.HeapAllocCells 1 (.Literal (.Integer 3)), .HeapAllocCells 2 (.Operand 0)], .Return [.Operand 2]⟩],
    [0], [2], 3, types [(0, .Felt), (1, .Felt), (2, .Felt)]⟩

example : feltsOf (compileRun 100 [allocFn] ['m'] [.felt] [.felt] [.number 10]) = some [((2 ^ 28 - 10 : ℕ) : M31)] := by
  decide +kernel

example : feltsOf (compileRun 100 [allocTwice] ['m'] [.felt] [.felt] [.number 10]) =
    some [((2 ^ 28 - 13 : ℕ) : M31)] := by decide +kernel

/-- **C56 violated** without the bound on the total: there is no check against the size of the address space. A
request for `2^28 + 1` cells succeeds and returns the base `-1`, which is not an address at all; a request for
`2^28 - 3` cells returns a block that covers the program and the stack. -/
theorem C56_violated :
    feltsOf (compileRun 100 [allocFn] ['m'] [.felt] [.felt] [.number (2 ^ 28 + 1)]) = some [-1] ∧
      feltsOf (compileRun 100 [allocFn] ['m'] [.felt] [.felt] [.number (2 ^ 28 - 3)]) = some [3] := by
  refine ⟨by decide +kernel, by decide +kernel⟩

end Codegen
end CairoM
