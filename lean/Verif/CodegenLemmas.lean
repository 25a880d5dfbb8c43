import Verif.CodegenSem

/-!
# Helper lemmas: frame addresses, memory updates, execution of emitted code
-/

namespace CairoM
namespace Codegen

open Mir Lang Relation

theorem ofI32_eq (o : ℤ) : ofI32 o = (o : M31) := by
  cases o with
  | ofNat n => simp [ofI32]
  | negSucc n => simp [ofI32, Int.cast_negSucc]

theorem adr_ofI32 (fp : M31) (o : ℤ) : fp + ofI32 o = adr fp o := by rw [ofI32_eq, adr]

theorem adr_succ (fp : M31) (o : ℤ) : adr fp (o + 1) = adr fp o + 1 := by simp [adr, add_assoc]

theorem Window.val {fp : M31} {lo hi o : ℤ} (w : Window fp lo hi) (h1 : lo ≤ o) (h2 : o < hi) :
    ((adr fp o).val : ℤ) = fp.val + o := by
  obtain ⟨wl, wh⟩ := w
  have h0 : 0 ≤ (fp.val : ℤ) + o := by omega
  obtain ⟨n, hn⟩ := Int.eq_ofNat_of_zero_le h0
  have hP : P = 2147483647 := rfl
  have : adr fp o = (n : M31) := by
    have e : ((fp.val : ℤ) + o : ℤ) = (n : ℤ) := hn
    have e2 := congrArg (fun z : ℤ => (z : M31)) e
    have hfp : ((fp.val : ℕ) : M31) = fp := ZMod.natCast_zmod_val fp
    rw [adr, ← hfp]
    simpa only [Int.cast_add, Int.cast_natCast, hfp] using e2
  rw [this, ZMod.val_natCast, Nat.mod_eq_of_lt (by omega)]
  omega

theorem Window.inRange {fp : M31} {lo hi o : ℤ} (w : Window fp lo hi) (h1 : lo ≤ o) (h2 : o < hi) :
    Isa.InRange (adr fp o) := by
  have := w.val h1 h2
  have := w.hi
  unfold Isa.InRange
  omega

theorem Window.inj {fp : M31} {lo hi o o' : ℤ} (w : Window fp lo hi) (h1 : lo ≤ o) (h2 : o < hi) (h1' : lo ≤ o')
    (h2' : o' < hi) (h : adr fp o = adr fp o') : o = o' := by
  have a := w.val h1 h2
  have b := w.val h1' h2'
  rw [h] at a
  omega

theorem Window.mono {fp : M31} {lo hi lo' hi' : ℤ} (w : Window fp lo hi) (h1 : lo ≤ lo') (h2 : hi' ≤ hi) :
    Window fp lo' hi' := ⟨by have := w.lo; omega, by have := w.hi; omega⟩

/-! ### Memory updates -/

/-- One base-field word written. -/
def put (m : Isa.Mem) (a v : M31) : Isa.Mem := Function.update m a ⟨v, 0, 0, 0⟩

theorem felt_put_same {m : Isa.Mem} {a v : M31} (h : Isa.InRange a) : Isa.felt (put m a v) a = some v := by
  simp [Isa.felt, put, h]

theorem felt_put_ne {m : Isa.Mem} {a b v : M31} (h : b ≠ a) : Isa.felt (put m a v) b = Isa.felt m b := by
  simp [Isa.felt, put, Function.update_of_ne h]

theorem felt_congr {m m' : Isa.Mem} {a : M31} (h : m' a = m a) : Isa.felt m' a = Isa.felt m a := by
  simp [Isa.felt, h]

theorem holds_congr {m m' : Isa.Mem} {fp : M31} {off : ℤ} {v : Val}
    (h : ∀ o, off ≤ o → o < off + width v → m' (adr fp o) = m (adr fp o)) (hv : Holds m fp off v) :
    Holds m' fp off v := by
  cases v with
  | felt x => simpa [Holds, felt_congr (h off le_rfl (by simp [width]))] using hv
  | bool b => simpa [Holds, felt_congr (h off le_rfl (by simp [width]))] using hv
  | u32 n =>
    have h0 := felt_congr (h off le_rfl (by simp [width]))
    have h1 := felt_congr (h (off + 1) (by omega) (by simp [width]))
    rw [adr_succ] at h1
    simpa [Holds, Isa.u32, h0, h1] using hv
  | unit => trivial

theorem SameExcept.refl {fp : M31} {S : ℤ → Prop} {m : Isa.Mem} : SameExcept fp S m m := fun _ _ => rfl

theorem SameExcept.trans {fp : M31} {S : ℤ → Prop} {m m' m'' : Isa.Mem} (h : SameExcept fp S m m')
    (h' : SameExcept fp S m' m'') : SameExcept fp S m m'' := fun a ha => (h' a ha).trans (h a ha)

theorem SameExcept.mono {fp : M31} {S T : ℤ → Prop} {m m' : Isa.Mem} (h : SameExcept fp S m m')
    (hST : ∀ o, S o → T o) : SameExcept fp T m m' := fun a ha => h a fun o ho => ha o (hST o ho)

theorem SameExcept.put {fp : M31} {S : ℤ → Prop} {m : Isa.Mem} {o : ℤ} {v : M31} (ho : S o) :
    SameExcept fp S m (put m (adr fp o) v) := fun a ha => by
  simp only [Codegen.put]
  exact Function.update_of_ne (ha o ho) _ _

theorem SameExcept.cell {fp : M31} {S : ℤ → Prop} {m m' : Isa.Mem} {lo hi o : ℤ} (h : SameExcept fp S m m')
    (w : Window fp lo hi) (h1 : lo ≤ o) (h2 : o < hi) (hS : ∀ t, S t → lo ≤ t ∧ t < hi) (ho : ¬ S o) :
    m' (adr fp o) = m (adr fp o) :=
  h _ fun t ht e => ho (w.inj h1 h2 (hS t ht).1 (hS t ht).2 e ▸ ht)

theorem SameExcept.holds {fp : M31} {S : ℤ → Prop} {m m' : Isa.Mem} {lo hi off : ℤ} {v : Val}
    (h : SameExcept fp S m m') (w : Window fp lo hi) (h1 : lo ≤ off) (h2 : off + width v ≤ hi)
    (hS : ∀ t, S t → lo ≤ t ∧ t < hi) (ho : ∀ o, off ≤ o → o < off + width v → ¬ S o) (hv : Holds m fp off v) :
    Holds m' fp off v :=
  holds_congr (fun o a b => h.cell w (by omega) (by omega) hS (ho o a b)) hv

/-- Writes of a u32. -/
theorem write_split (m : Isa.Mem) (a : M31) (n : ℕ) :
    Isa.write m (Isa.split a n) = put (put m a ((n % 2 ^ 16 : ℕ) : M31)) (a + 1) ((n / 2 ^ 16 : ℕ) : M31) := rfl

theorem ofLimbs_split {n : ℕ} (h : n < 2 ^ 32) :
    Isa.ofLimbs ((n % 2 ^ 16 : ℕ) : M31) ((n / 2 ^ 16 : ℕ) : M31) = some n := by
  have hP : P = 2147483647 := rfl
  have h1 : n % 2 ^ 16 < 2 ^ 16 := Nat.mod_lt _ (by norm_num)
  have h2 : n / 2 ^ 16 < 2 ^ 16 := by omega
  have a1 : (((n % 2 ^ 16 : ℕ) : M31)).val = n % 2 ^ 16 := by
    rw [ZMod.val_natCast, Nat.mod_eq_of_lt]; omega
  have a2 : (((n / 2 ^ 16 : ℕ) : M31)).val = n / 2 ^ 16 := by
    rw [ZMod.val_natCast, Nat.mod_eq_of_lt]; omega
  unfold Isa.ofLimbs
  rw [a1, a2, if_pos ⟨h1, h2⟩]
  congr 1
  omega

theorem holds_split {m : Isa.Mem} {fp : M31} {lo hi off : ℤ} {n : ℕ} (w : Window fp lo hi) (h1 : lo ≤ off)
    (h2 : off + 2 ≤ hi) (h : n < 2 ^ 32) : Holds (Isa.write m (Isa.split (adr fp off) n)) fp off (.u32 n) := by
  have r0 := w.inRange h1 (by omega)
  have r1 := w.inRange (o := off + 1) (by omega) (by omega)
  have ne : adr fp off ≠ adr fp (off + 1) := fun e => by
    have := w.inj h1 (by omega) (by omega) (by omega) e; omega
  rw [adr_succ] at r1 ne
  simp only [Holds, Isa.u32, write_split]
  rw [felt_put_ne ne, felt_put_same r0, felt_put_same r1]
  exact ofLimbs_split h

theorem same_split {m : Isa.Mem} {fp : M31} {S : ℤ → Prop} {off : ℤ} {n : ℕ} (h0 : S off) (h1 : S (off + 1)) :
    SameExcept fp S m (Isa.write m (Isa.split (adr fp off) n)) := by
  rw [write_split, ← adr_succ]
  exact (SameExcept.put h0).trans (SameExcept.put h1)

/-! ### Execution -/

section

variable {code : List IB} {tgt : Name → Option ℕ} {fp : M31}

theorem Runs.refl {s : ℕ × Isa.Mem} : Runs code tgt fp s s := ReflTransGen.refl

theorem Runs.trans {a b c : ℕ × Isa.Mem} (h : Runs code tgt fp a b) (h' : Runs code tgt fp b c) :
    Runs code tgt fp a c := ReflTransGen.trans h h'

theorem Runs.single {a b : ℕ × Isa.Mem} (h : Step code tgt fp a b) : Runs code tgt fp a b := ReflTransGen.single h

theorem fetch_of_prefix {xs ys : List IB} {i : IB} (h : xs ++ i :: ys <+: code) : code[xs.length]? = some i := by
  obtain ⟨t, rfl⟩ := h
  simp

theorem fetch {b : Builder} (h : Fits code tgt b) {n : ℕ} {i : IB} (hi : b.instrs[n]? = some i) :
    code[n]? = some i := by
  obtain ⟨t, ht⟩ := h.code
  rw [← ht, List.getElem?_append_left, hi]
  rw [List.getElem?_eq_some_iff] at hi
  exact hi.1

theorem label_of {b : Builder} (h : Fits code tgt b) {l : Name} {n : ℕ} (hl : (⟨l, n⟩ : Label) ∈ b.labels) :
    tgt l = some n := h.labels _ hl

theorem runs_plain {i : ℕ} {ins : Instruction} {m : Isa.Mem} {e : Isa.Effect} (hi : code[i]? = some ⟨ins, none⟩)
    (hp : plain ins = true) (he : Isa.sem ins 0 fp m = some e) :
    Runs code tgt fp (i, m) (i + 1, e.memory m) := Runs.single (.plain hi hp he)

theorem done_one {reads : List M31} {a v pc fp' : M31} (h : Isa.InRange a) :
    Isa.done reads [(a, v)] pc fp' = some ⟨reads, [(a, v)], pc, fp'⟩ := by
  rw [Isa.done, if_pos]
  intro w hw
  simp only [List.mem_singleton] at hw
  rw [hw]; exact h

theorem done_split {reads : List M31} {a pc fp' : M31} {n : ℕ} (h : Isa.InRange a) (h' : Isa.InRange (a + 1)) :
    Isa.done reads (Isa.split a n) pc fp' = some ⟨reads, Isa.split a n, pc, fp'⟩ := by
  rw [Isa.done, if_pos]
  intro w hw
  simp only [Isa.split, List.mem_cons, List.not_mem_nil, or_false] at hw
  rcases hw with rfl | rfl
  · exact h
  · exact h'

end

end Codegen
end CairoM
