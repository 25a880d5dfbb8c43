import Verif.WasmMem
import Verif.WasmMachine
import Verif.PlaceProps

/-!
# WebAssembly memory accesses (C86)

Full statement: for every address operand, every constant offset and every history of accesses, a load returns the four
bytes at the sum of operand and offset, and an access that is not wholly inside the memory traps.

Proved: the statement for accesses whose operand and offset are both multiples of four and which lie inside a memory of
at most `2^29` bytes, for every history. The code does not satisfy the statement for other operands or offsets, nor the
part about traps: see the violations.
-/

namespace CairoM
namespace Wasm

open Mir Lang

/-! ### One access -/

/-- **C86, loads.** The instructions emitted for a load with an aligned address, executed in an environment in which the
input of the node is the address operand and with cells that hold the bytes of the memory, bind the result to the word at
the sum of operand and offset; the cells and the other names keep their values. -/
theorem C86_load_partial (m : FuncTypes) (calls : Lang.Calls) {s t : St} {ins : List Origin} {offset : ℕ} {r : Option ℕ}
    (h : s.convert m (.load offset) ins = .ok (t, r)) :
    ∃ is va rest d, s.inputs ins = .ok (va :: rest) ∧ r = some d ∧ Emits s t is ∧
      ∀ (env : Lang.Env) (mem : Isa.Mem) (a : I32) (size : ℕ) (b : Bytes), va < s.next → env va = some (.u32 a.toNat) →
        (Access.load a offset).Aligned → a.toNat + offset + 4 ≤ size → size ≤ 2 ^ 29 → Repr mem size b →
        ∃ env', evalMems calls is (env, mem) = some (env', mem) ∧
          env' d = some (.u32 (word32 b (a.toNat + offset)).toNat) ∧ ∀ v < s.next, env' v = env v := by
  obtain ⟨vs, is, k, hin, hc, he, hk⟩ := convert_spec h
  rcases vs with _ | ⟨va, rest⟩
  · simp [code] at hc
  simp only [code, Option.some.injEq, Prod.mk.injEq] at hc
  obtain ⟨rfl, rfl, rfl⟩ := hc
  refine ⟨_, va, rest, _, hin, rfl, he, ?_⟩
  rintro env mem a size b hva ha ⟨hal1, hal2⟩ hsz h29 hr
  simp only [Access.base, Access.offset] at hal1 hal2
  obtain ⟨env', e1, e2, e3⟩ := address_eval calls (mem := mem) (n := s.next) ha (show a.toNat + offset + 4 ≤ 2 ^ 29 by omega)
    [.Load (s.next + 3) ⟨s.next + 2, []⟩ .U32]
  obtain ⟨w, hw⟩ : ∃ w, a.toNat + offset = 4 * w := ⟨(a.toNat + offset) / 4, by omega⟩
  rw [address_cell hal1 hw (by omega)] at e2
  refine ⟨Function.update env' (s.next + 3) (some (.u32 (word32 b (a.toNat + offset)).toNat)), ?_, Function.update_self .., ?_⟩
  · rw [e1]
    simp only [evalMems, evalMem, e2, hr w (by omega), Option.map_some, Option.bind_some, hw]
  · intro v hv
    rw [upd_lt (by omega), e3 v hv]

/-- **C86, stores.** After the instructions emitted for a store with an aligned address, the cells hold the bytes of the
memory with the word replaced, and all cells but the two of that word are as before. -/
theorem C86_store_partial (m : FuncTypes) (calls : Lang.Calls) {s t : St} {ins : List Origin} {offset : ℕ} {r : Option ℕ}
    (h : s.convert m (.store offset) ins = .ok (t, r)) :
    ∃ is va vv rest, s.inputs ins = .ok (va :: vv :: rest) ∧ r = none ∧ Emits s t is ∧
      ∀ (env : Lang.Env) (mem : Isa.Mem) (a v : I32) (size : ℕ) (b : Bytes), va < s.next → vv < s.next →
        env va = some (.u32 a.toNat) → env vv = some (.u32 v.toNat) →
        (Access.store a offset v).Aligned → a.toNat + offset + 4 ≤ size → size ≤ 2 ^ 29 → Repr mem size b →
        ∃ env' mem', evalMems calls is (env, mem) = some (env', mem') ∧
          Repr mem' size (put32 b (a.toNat + offset) v) ∧
          (∀ c, c ≠ cellOf ((a.toNat + offset) / 4) → c ≠ cellOf ((a.toNat + offset) / 4) + 1 → mem' c = mem c) ∧
          ∀ v < s.next, env' v = env v := by
  obtain ⟨vs, is, k, hin, hc, he, hk⟩ := convert_spec h
  rcases vs with _ | ⟨va, _ | ⟨vv, rest⟩⟩
  · simp [code] at hc
  · simp [code] at hc
  simp only [code, Option.some.injEq, Prod.mk.injEq] at hc
  obtain ⟨rfl, rfl, rfl⟩ := hc
  refine ⟨_, va, vv, rest, hin, rfl, he, ?_⟩
  rintro env mem a v size b hva hvv ha hv ⟨hal1, hal2⟩ hsz h29 hr
  simp only [Access.base, Access.offset] at hal1 hal2
  obtain ⟨env', e1, e2, e3⟩ := address_eval calls (mem := mem) (n := s.next) ha (show a.toNat + offset + 4 ≤ 2 ^ 29 by omega)
    [.Store ⟨s.next + 2, []⟩ (.Operand vv) .U32]
  obtain ⟨w, hw⟩ : ∃ w, a.toNat + offset = 4 * w := ⟨(a.toNat + offset) / 4, by omega⟩
  rw [address_cell hal1 hw (by omega)] at e2
  have hdiv : (a.toNat + offset) / 4 = w := by omega
  refine ⟨env', Isa.write mem (Isa.split (cellOf w) v.toNat), ?_, ?_, ?_, e3⟩
  · rw [e1]
    simp only [evalMems, evalMem, e2, readAt, e3 vv hvv, hv]
    rw [if_pos ⟨cell_inRange w, cell_succ_inRange w (by omega)⟩]
    rfl
  · rw [hw]
    exact hr.store h29 (by omega) v
  · intro c h1 h2
    rw [hdiv] at h1 h2
    simp only [Isa.write, Isa.split, Function.update_of_ne h2, Function.update_of_ne h1]

/-! ### Histories -/

/-- The operator of an access. -/
def Access.op : Access → Op
  | .load _ o => .load o
  | .store _ o _ => .store o

/-- The values of the inputs of the operator. -/
def Access.inputs : Access → List I32
  | .load a _ => [a]
  | .store a _ v => [a, v]

/-- An environment in which the names `0`, `1`, … have the given values. -/
def inputEnv (xs : List I32) : Lang.Env := fun v => (xs[v]?).map fun x => .u32 x.toNat

/-- Executing the code emitted for an access on the cells of the machine: the word loaded, if it is a load, and the
cells afterwards. -/
def Access.exec (m : FuncTypes) (calls : Lang.Calls) (x : Access) (mem : Isa.Mem) : Option (List I32 × Isa.Mem) := do
  let (is, r, _) ← code m x.op (List.range x.inputs.length) x.inputs.length
  let (env, mem) ← evalMems calls is (inputEnv x.inputs, mem)
  match r with
  | none => some ([], mem)
  | some d =>
    match env d with
    | some (.u32 n) => some ([BitVec.ofNat 32 n], mem)
    | _ => none

/-- The words loaded in the course of a sequence of accesses. -/
def execs (m : FuncTypes) (calls : Lang.Calls) : List Access → Isa.Mem → Option (List I32)
  | [], _ => some []
  | x :: xs, mem => do
    let (out, mem) ← x.exec m calls mem
    let rest ← execs m calls xs mem
    some (out ++ rest)

theorem exec_spec (m : FuncTypes) (calls : Lang.Calls) (x : Access) (hx : x.Aligned) {size : ℕ} (hs : size ≤ 2 ^ 29)
    {b b' : Bytes} {out : List I32} (h : x.perform size b = some (out, b')) {mem : Isa.Mem} (hr : Repr mem size b) :
    ∃ mem', x.exec m calls mem = some (out, mem') ∧ Repr mem' size b' := by
  obtain ⟨hal1, hal2⟩ := hx
  unfold Access.perform at h
  split at h
  case isFalse => cases h
  rename_i hsz
  cases x with
  | load a offset =>
    simp only [Option.some.injEq, Prod.mk.injEq, Access.ea, Access.base, Access.offset] at h hsz hal1 hal2
    obtain ⟨rfl, rfl⟩ := h
    obtain ⟨env', e1, e2, e3⟩ := address_eval calls (env := inputEnv [a]) (mem := mem) (a := 0) (n := 1) (x := a) rfl
      (show a.toNat + offset + 4 ≤ 2 ^ 29 by omega) [.Load 4 ⟨3, []⟩ .U32]
    obtain ⟨w, hw⟩ : ∃ w, a.toNat + offset = 4 * w := ⟨(a.toNat + offset) / 4, by omega⟩
    rw [address_cell hal1 hw (by omega)] at e2
    refine ⟨mem, ?_, hr⟩
    have hcode : code m (Access.load a offset).op (List.range (Access.load a offset).inputs.length)
        (Access.load a offset).inputs.length = some (addressCode 0 offset 1 ++ [.Load 4 ⟨3, []⟩ .U32], some 4, 4) := rfl
    unfold Access.exec
    rw [hcode]
    simp only [Option.bind_eq_bind, Option.bind_some, Access.inputs]
    rw [e1]
    simp only [evalMems, evalMem, e2, hr w (by omega), Option.map_some, Option.bind_some, Function.update_self, hw,
      BitVec.ofNat_toNat, BitVec.setWidth_eq]
  | store a offset v =>
    simp only [Option.some.injEq, Prod.mk.injEq, Access.ea, Access.base, Access.offset] at h hsz hal1 hal2
    obtain ⟨rfl, rfl⟩ := h
    obtain ⟨env', e1, e2, e3⟩ := address_eval calls (env := inputEnv [a, v]) (mem := mem) (a := 0) (n := 2) (x := a) rfl
      (show a.toNat + offset + 4 ≤ 2 ^ 29 by omega) [.Store ⟨4, []⟩ (.Operand 1) .U32]
    obtain ⟨w, hw⟩ : ∃ w, a.toNat + offset = 4 * w := ⟨(a.toNat + offset) / 4, by omega⟩
    rw [address_cell hal1 hw (by omega)] at e2
    refine ⟨Isa.write mem (Isa.split (cellOf w) v.toNat), ?_, by rw [hw]; exact hr.store hs (by omega) v⟩
    have hcode : code m (Access.store a offset v).op (List.range (Access.store a offset v).inputs.length)
        (Access.store a offset v).inputs.length = some (addressCode 0 offset 2 ++ [.Store ⟨4, []⟩ (.Operand 1) .U32], none, 3) := rfl
    have hv : env' 1 = some (.u32 v.toNat) := by rw [e3 1 (by omega)]; rfl
    unfold Access.exec
    rw [hcode]
    simp only [Option.bind_eq_bind, Option.bind_some, Access.inputs]
    rw [e1]
    simp only [evalMems, evalMem, e2, readAt, hv]
    rw [if_pos ⟨cell_inRange w, cell_succ_inRange w (by omega)⟩]
    rfl

/-- **C86.** For every sequence of aligned loads and stores that does not trap, executing the emitted code loads the words
that the accesses to the linear memory load. -/
theorem C86_history_partial (m : FuncTypes) (calls : Lang.Calls) (xs : List Access) (hx : ∀ x ∈ xs, x.Aligned) (size : ℕ)
    (hs : size ≤ 2 ^ 29) (b : Bytes) (mem : Isa.Mem) (hr : Repr mem size b) (outs : List I32)
    (h : history size xs b = some outs) : execs m calls xs mem = some outs := by
  induction xs generalizing b mem outs with
  | nil => exact h
  | cons x xs ih =>
    simp only [history, Option.bind_eq_bind, Option.bind_eq_some_iff, Option.some.injEq] at h
    obtain ⟨⟨out, b'⟩, h1, rest, h2, rfl⟩ := h
    obtain ⟨mem', e1, e2⟩ := exec_spec m calls x (hx x (by simp)) hs h1 hr
    have e3 := ih (fun y hy => hx y (by simp [hy])) b' mem' e2 rest h2
    simp only [execs, Option.bind_eq_bind, e1, Option.bind_some, e3]

/-- The cells of a machine that has just been started with a small program: zero where the linear memory is. -/
theorem repr_zero (mem : Isa.Mem) (size : ℕ) (hs : size ≤ 2 ^ 29) (hz : ∀ c : M31, 2 ^ 28 - size / 2 ≤ c.val → c.val < 2 ^ 28 → mem c = ⟨0, 0, 0, 0⟩) :
    Repr mem size (fun _ => 0) := by
  intro w hw
  have h1 : mem (cellOf w) = ⟨0, 0, 0, 0⟩ := by
    apply hz <;> unfold cellOf <;> rw [cell_val (by omega)] <;> omega
  have h2 : mem (cellOf w + 1) = ⟨0, 0, 0, 0⟩ := by
    apply hz <;> rw [cell_succ w (by omega), cell_val (by omega)] <;> omega
  have e1 : Isa.felt mem (cellOf w) = some 0 := by
    rw [Isa.felt, h1, if_pos ⟨cell_inRange w, rfl, rfl, rfl⟩]
  have e2 : Isa.felt mem (cellOf w + 1) = some 0 := by
    rw [Isa.felt, h2, if_pos ⟨cell_succ_inRange w (by omega), rfl, rfl, rfl⟩]
  simp only [Isa.u32, e1, e2, Option.bind_eq_bind, Option.bind_some, Isa.ofLimbs]
  have h0 : word32 (fun _ => 0) (4 * w) = 0 := by unfold word32; beta_reduce; decide
  rw [h0]
  decide

/-! ### The machine -/

open Codegen in
/-- The frame of the running function ends below the cells of the linear memory. -/
def FrameBelow (fp : M31) (frame : ℤ) (size : ℕ) : Prop := (fp.val : ℤ) + frame ≤ 2 ^ 28 - (size / 2 : ℕ)

open Codegen in
theorem FrameBelow.ne {fp : M31} {lo frame : ℤ} {size : ℕ} (w : Window fp lo frame) (h : FrameBelow fp frame size)
    {n : ℕ} (hn : 4 * n + 4 ≤ size) (hs : size ≤ 2 ^ 29) {o : ℤ} (h1 : lo ≤ o) (h2 : o < frame) :
    cellOf n ≠ adr fp o ∧ cellOf n + 1 ≠ adr fp o := by
  have hv := w.val h1 h2
  unfold FrameBelow at h
  refine ⟨fun e => ?_, fun e => ?_⟩
  · rw [← e] at hv
    unfold cellOf at hv
    rw [cell_val (by omega)] at hv
    omega
  · rw [← e, cell_succ n (by omega), cell_val (by omega)] at hv
    omega

theorem Repr.congr {mem mem' : Isa.Mem} {size : ℕ} {b : Bytes} (hr : Repr mem size b)
    (h : ∀ n, 4 * n + 4 ≤ size → mem' (cellOf n) = mem (cellOf n) ∧ mem' (cellOf n + 1) = mem (cellOf n + 1)) :
    Repr mem' size b := by
  intro n hn
  rw [← hr n hn]
  simp only [Isa.u32, Isa.felt, (h n hn).1, (h n hn).2]

theorem u32_parts {mem : Isa.Mem} {a : M31} {n : ℕ} (h : Isa.u32 mem a = some n) :
    ∃ lo hi, Isa.felt mem a = some lo ∧ Isa.felt mem (a + 1) = some hi ∧ Isa.ofLimbs lo hi = some n := by
  simp only [Isa.u32, Option.bind_eq_bind, Option.bind_eq_some_iff] at h
  obtain ⟨lo, h1, hi, h2, h3⟩ := h
  exact ⟨lo, hi, h1, h2, h3⟩

open Codegen in
/-- **C86, loads on the machine.** The machine code for the load instruction, when the base value holds the cell of a
word of the linear memory and the frame ends below it, leaves the word in the slots of the destination; the linear memory
is as before. -/
theorem C86_load_machine (f : Function) (b b' : Builder) (dest base : ValueId) (fp : M31) (lo : ℤ) (m : Isa.Mem) (sb : Slot)
    (h : genLoad f b dest ⟨base, []⟩ .U32 = .ok b') (w : Window fp lo b'.layout.frame) (hdest : b.layout.values dest = none)
    (ht : (f.types base).isSome) (hb : b.layout.values base = some sb) (hb1 : lo ≤ sb.off) (hb2 : sb.off < b.layout.frame)
    (size : ℕ) (hs : size ≤ 2 ^ 29) (bytes : Bytes) (hr : Repr m size bytes)
    (hbelow : FrameBelow fp b'.layout.frame size) (n : ℕ) (hn : 4 * n + 4 ≤ size)
    (hc : Codegen.Holds m fp sb.off (.felt (cellOf n))) :
    ∃ m' d, straight fp ((emitted b b').map IB.inner) m = some m' ∧ (∀ i ∈ emitted b b', i.label = none) ∧
      b'.layout.values dest = some d ∧ Codegen.Holds m' fp d.off (.u32 (word32 bytes (4 * n)).toNat) ∧ Repr m' size bytes := by
  obtain ⟨t, ht⟩ := Option.isSome_iff_exists.mp ht
  obtain ⟨l, hh, e1, e2, e3⟩ := u32_parts (hr n hn)
  obtain ⟨m', d, r1, r2, r3, r4, r5⟩ := C65_load f b b' dest ⟨base, []⟩ .U32 t fp lo m (cellOf n) 0
    (fun j => if j = 0 then l else hh) (fun _ => 0) sb h w hdest ht rfl (by intro k hk; cases hk) hb hb1 hb2 hc
    (by intro k hk; cases hk)
    (by
      intro j hj
      have hj : j < 2 := hj
      obtain rfl | rfl : j = 0 ∨ j = 1 := by omega
      · simpa using e1
      · simpa using e2)
    (by
      intro j hj o ho
      have hj : j < 2 := hj
      have := hbelow.ne w hn hs (show lo ≤ o by omega) ho.2
      obtain rfl | rfl : j = 0 ∨ j = 1 := by omega
      · simpa using this.1
      · simpa using this.2)
  refine ⟨m', d, r1, r2, r3, ?_, ?_⟩
  · have q0 := r4 0 (by decide)
    have q1 := r4 1 (by decide)
    simp only [Nat.cast_zero, add_zero, if_true, Nat.cast_one, one_ne_zero, if_false] at q0 q1
    rw [adr_succ] at q1
    simp only [Codegen.Holds, Isa.u32, q0, q1, Option.bind_eq_bind, Option.bind_some, e3]
  · refine hr.congr fun k hk => ⟨r5 _ fun o ho => ?_, r5 _ fun o ho => ?_⟩
    · exact (hbelow.ne w hk hs (show lo ≤ o by omega) ho.2).1
    · exact (hbelow.ne w hk hs (show lo ≤ o by omega) ho.2).2

open Codegen in
/-- **C86, stores on the machine.** The machine code for the store instruction, when the base value holds the cell of a
word of the linear memory and the frame ends below it, replaces that word. -/
theorem C86_store_machine (f : Function) (b b' : Builder) (base src : ValueId) (fp : M31) (lo : ℤ) (m : Isa.Mem) (sb : Slot)
    (h : genStore f b ⟨base, []⟩ (.Operand src) .U32 = .ok b') (w : Window fp lo b'.layout.frame)
    (ht : (f.types base).isSome) (hb : b.layout.values base = some sb) (hb1 : lo ≤ sb.off) (hb2 : sb.off < b.layout.frame)
    (size : ℕ) (hs : size ≤ 2 ^ 29) (bytes : Bytes) (hr : Repr m size bytes)
    (hbelow : FrameBelow fp b'.layout.frame size) (n : ℕ) (hn : 4 * n + 4 ≤ size)
    (hc : Codegen.Holds m fp sb.off (.felt (cellOf n))) (v : I32) (hv : Has b.layout m fp lo .u32 (.Operand src) (.u32 v.toNat)) :
    ∃ m', straight fp ((emitted b b').map IB.inner) m = some m' ∧ (∀ i ∈ emitted b b', i.label = none) ∧
      Repr m' size (put32 bytes (4 * n) v) := by
  obtain ⟨t, ht⟩ := Option.isSome_iff_exists.mp ht
  obtain ⟨_, sv, g1, g2, g3, g4⟩ := hv
  have hfr : b.layout.frame ≤ b'.layout.frame := by
    have h' := h
    simp only [genStore, Layout.getOffset, hb, ht, project, Bind.bind, Except.bind, pure, Except.pure, g1, Except.ok.injEq] at h'
    rw [← h']
    exact storeSlots_frame
  obtain ⟨l, hh, e1, e2, e3⟩ := u32_parts g4
  have hwid : width (.u32 v.toNat) = 2 := rfl
  rw [hwid] at g3
  obtain ⟨m', r1, r2, r3, r4⟩ := C65_store_partial f b b' ⟨base, []⟩ (.Operand src) .U32 t fp lo m (cellOf n) 0
    (fun j => if j = 0 then l else hh) (fun _ => 0) sb h w ht rfl (by intro k hk; cases hk) hb hb1 hb2 hc
    (by intro k hk; cases hk)
    (by
      refine ⟨sv, g1, g2, g3, ?_⟩
      intro j hj
      have hj : j < 2 := hj
      obtain rfl | rfl : j = 0 ∨ j = 1 := by omega
      · simpa using e1
      · simpa [adr_succ] using e2)
    (by decide) (by intro l hl; cases hl)
    (by
      intro j hj
      have hj : j < 2 := hj
      obtain rfl | rfl : j = 0 ∨ j = 1 := by omega
      · simpa using cell_inRange n
      · simpa using cell_succ_inRange n (by omega))
    (by
      intro j hj o ho
      have hj : j < 2 := hj
      have hrange : lo ≤ o ∧ o < b'.layout.frame := by
        rcases ho with (rfl | ⟨_, hid, _⟩ | ho) | ⟨s, hs1, hs2, hs3⟩
        · omega
        · cases hid
        · omega
        · rw [g1] at hs1
          cases hs1
          have : (MirType.U32.memSize : ℤ) = 2 := rfl
          omega
      have := hbelow.ne w hn hs hrange.1 hrange.2
      obtain rfl | rfl : j = 0 ∨ j = 1 := by omega
      · simpa using this.1
      · simpa using this.2)
  refine ⟨m', r1, r2, ?_⟩
  have q0 := r3 0 (by decide)
  have q1 := r3 1 (by decide)
  simp only [Nat.cast_zero, add_zero, if_true, Nat.cast_one, one_ne_zero, if_false] at q0 q1
  have hval : Isa.u32 m' (cellOf n) = some v.toNat := by
    simp only [Isa.u32, q0, q1, Option.bind_eq_bind, Option.bind_some, e3]
  have hrest : ∀ k, 4 * k + 4 ≤ size → k ≠ n → m' (cellOf k) = m (cellOf k) ∧ m' (cellOf k + 1) = m (cellOf k + 1) := by
    intro k hk hkn
    have hne := cell_ne (w := k) (w' := n) (by omega) (by omega) hkn
    refine ⟨r4 _ (fun j hj => ?_) fun o ho => (hbelow.ne w hk hs (by omega) ho.2).1,
      r4 _ (fun j hj => ?_) fun o ho => (hbelow.ne w hk hs (by omega) ho.2).2⟩
    · have hj : j < 2 := hj
      obtain rfl | rfl : j = 0 ∨ j = 1 := by omega
      · simpa using hne.1
      · simpa using cell_ne_succ (w := k) (w' := n) (by omega)
    · have hj : j < 2 := hj
      obtain rfl | rfl : j = 0 ∨ j = 1 := by omega
      · simpa using (cell_ne_succ (w := n) (w' := k) (by omega)).symm
      · simpa using hne.2
  intro k hk
  rw [word32_put32]
  by_cases hkn : k = n
  · subst hkn
    rw [if_pos rfl, hval]
  · rw [if_neg hkn, ← hr k hk]
    simp only [Isa.u32, Isa.felt, (hrest k hk hkn).1, (hrest k hk hkn).2]

end Wasm
end CairoM
