import Verif.Abi
import Verif.CliProps
import Verif.MemoryLemmas

/-!
# Specification of the calling convention, and lemmas for C21-C24
-/

namespace CairoM
namespace Abi

/-! ### Specification -/

mutual
/-- The value denoted by a command-line value at a type, `none` if it does not have that type. Integers denote
field elements modulo `P`; booleans may be written `0`/`1`; a `u32` must be in range; arrays and pointers with
a declared length must have that length. -/
def denote : InputValue → AbiType → Option CairoMValue
  | .number n, .felt => some (.felt (n : M31))
  | .number n, .bool => if n = 0 then some (.bool false) else if n = 1 then some (.bool true) else none
  | .number n, .u32 => if 0 ≤ n ∧ n < 2 ^ 32 then some (.u32 n.toNat) else none
  | .bool b, .bool => some (.bool b)
  | .list vs, .tuple ts => (denoteZip vs ts).map .tuple
  | .list vs, .array e n => if vs.length = n then (denoteAll vs e).map .array else none
  | .list vs, .pointer e none => (denoteAll vs e).map .array
  | .list vs, .pointer e (some n) => if vs.length = n then (denoteAll vs e).map .array else none
  | .struct vs, .struct _ fs => (denoteZip vs (fs.map Prod.snd)).map fun xs => .struct ((fs.map Prod.fst).zip xs)
  | .unit, .unit => some .unit
  | _, _ => none

/-- Every element at the same type. -/
def denoteAll : List InputValue → AbiType → Option (List CairoMValue)
  | [], _ => some []
  | v :: vs, e => (denote v e).bind fun x => (denoteAll vs e).map fun xs => x :: xs

/-- Element by element; both lists must have the same length. -/
def denoteZip : List InputValue → List AbiType → Option (List CairoMValue)
  | [], [] => some []
  | v :: vs, t :: ts => (denote v t).bind fun x => (denoteZip vs ts).map fun xs => x :: xs
  | _, _ => none
end

mutual
/-- No pointer without a length occurs: such a pointer is decoded as a bare address. -/
def Sized : AbiType → Prop
  | .pointer e len => len.isSome ∧ Sized e
  | .array e _ => Sized e
  | .tuple ts => AllSized ts
  | .struct _ fs => AllSizedFields fs
  | _ => True

/-- see `Sized` -/
def AllSized : List AbiType → Prop
  | [] => True
  | t :: ts => Sized t ∧ AllSized ts

/-- see `Sized` -/
def AllSizedFields : List (String × AbiType) → Prop
  | [] => True
  | (_, t) :: fs => Sized t ∧ AllSizedFields fs
end

mutual
/-- The number of memory cells taken by the arrays of a value: `call_slot_size` per element, plus the elements'
own arrays. -/
def cells : InputValue → AbiType → ℕ
  | .list vs, .array e _ => cellsAll vs e + vs.length * callSlotSize e
  | .list vs, .pointer e _ => cellsAll vs e + vs.length * callSlotSize e
  | .list vs, .tuple ts => cellsZip vs ts
  | .struct vs, .struct _ fs => cellsZip vs (fs.map Prod.snd)
  | _, _ => 0

/-- see `cells` -/
def cellsAll : List InputValue → AbiType → ℕ
  | [], _ => 0
  | v :: vs, e => cells v e + cellsAll vs e

/-- see `cells` -/
def cellsZip : List InputValue → List AbiType → ℕ
  | v :: vs, t :: ts => cells v t + cellsZip vs ts
  | _, _ => 0
end

/-! ### Lemmas -/

theorem callSlotSizeFields_eq (fs : List (String × AbiType)) :
    callSlotSizeFields fs = callSlotSizes (fs.map Prod.snd) := by
  induction fs with
  | nil => rfl
  | cons f fs ih => obtain ⟨n, t⟩ := f; simp [callSlotSizeFields, callSlotSizes, ih]

theorem AllSizedFields_iff (fs : List (String × AbiType)) :
    AllSizedFields fs ↔ AllSized (fs.map Prod.snd) := by
  induction fs with
  | nil => simp [AllSizedFields, AllSized]
  | cons f fs ih => obtain ⟨n, t⟩ := f; simp [AllSizedFields, AllSized, ih]

theorem decodeFields_eq (m : Memory) (fs : List (String × AbiType)) (read : ℕ → Except RunErr M31) (off : ℕ)
    (xs : List CairoMValue) (n : ℕ) (h : decodeTuple m (fs.map Prod.snd) read off = .ok (xs, n)) :
    decodeFields m fs read off = .ok ((fs.map Prod.fst).zip xs, n) := by
  induction fs generalizing off xs n with
  | nil =>
    simp only [List.map_nil, decodeTuple] at h
    injection h with h
    injection h with h1 h2
    subst h1 h2
    simp [decodeFields]
  | cons f fs ih =>
    obtain ⟨name, t⟩ := f
    simp only [List.map_cons, decodeTuple] at h
    simp only [decodeFields]
    cases hd : decode m t read off with
    | error e => rw [hd] at h; cases h
    | ok x =>
      obtain ⟨x, k⟩ := x
      rw [hd] at h
      simp only at h ⊢
      cases hr : decodeTuple m (fs.map Prod.snd) read (off + k) with
      | error e => rw [hr] at h; cases h
      | ok y =>
        obtain ⟨ys, j⟩ := y
        rw [hr] at h
        simp only at h
        injection h with h
        injection h with h1 h2
        subst h1 h2
        rw [ih _ _ _ hr]
        simp

/-- Address arithmetic below the field size. -/
theorem val_add_ofU32 (c : M31) (i : ℕ) (h : c.val + i < P) : (c + M31.ofU32 i).val = c.val + i := by
  have hi : (M31.ofU32 i).val = i := M31.ofU32_val_of_lt (by omega)
  rw [ZMod.val_add_of_lt (by rw [hi]; exact h), hi]

theorem add_ofU32 (c : M31) (i j : ℕ) : c + M31.ofU32 i + M31.ofU32 j = c + M31.ofU32 (i + j) := by
  unfold M31.ofU32; push_cast; ring

theorem add_ofU32_zero (c : M31) : c + M31.ofU32 0 = c := by unfold M31.ofU32; simp

/-- Everything so far lives in the lower half of the address space, so the upper region is still empty. -/
def Low (m : Memory) : Prop := m.heap = [] ∧ m.locals.length ≤ 2 ^ 27

theorem Low.store {m : Memory} (h : Low m) {a : M31} (ha : a.val < 2 ^ 27) (v : QM31) : Low (m.store a v) := by
  obtain ⟨h1, h2⟩ := h
  unfold Low Memory.store
  dsimp only
  rw [h1]
  have hM : MAX_ADDRESS = 2 ^ 28 - 1 := rfl
  split_ifs with c1 c2 c3
  · exact ⟨rfl, by simpa using h2⟩
  · simp at c2
  · exact ⟨rfl, by rw [List.length_set, Memory.length_resize]; omega⟩
  · simp only [List.length_nil] at c3; omega

theorem Low.wf {m : Memory} (h : Low m) : m.WF := by
  unfold Memory.WF
  have hM : MAX_ADDRESS = 2 ^ 28 - 1 := rfl
  rw [h.1, List.length_nil]
  have := h.2
  omega

theorem writeCells_ok (ws : List M31) : ∀ (base : M31) (i : ℕ) (m : Memory), base.val + i + ws.length ≤ 2 ^ 28 →
    ∃ m', writeCells base i ws m = .ok m' ∧
      (∀ j (hj : j < ws.length), m'.view (base + M31.ofU32 (i + j)) = QM31.ofM31 ws[j]) ∧
      (∀ a : M31, ¬ (base.val + i ≤ a.val ∧ a.val < base.val + i + ws.length) → m'.view a = m.view a) ∧
      (Low m → base.val + i + ws.length ≤ 2 ^ 27 → Low m') := by
  induction ws with
  | nil => intro base i m _; exact ⟨m, rfl, fun j hj => absurd hj (by simp), fun _ _ => rfl, fun h _ => h⟩
  | cons w ws ih =>
    intro base i m hroom
    simp only [List.length_cons] at hroom
    have hP : P = 2147483647 := rfl
    have hval : (base + M31.ofU32 i).val = base.val + i := val_add_ofU32 _ _ (by omega)
    have hok : (base + M31.ofU32 i).val ≤ MAX_ADDRESS := by
      rw [hval]; unfold MAX_ADDRESS; omega
    obtain ⟨m', h1, h2, h3, h4⟩ := ih base (i + 1) (m.store (base + M31.ofU32 i) (QM31.ofM31 w)) (by omega)
    refine ⟨m', ?_, ?_, ?_, ?_⟩
    rotate_left 3
    · intro hl hb
      simp only [List.length_cons] at hb
      exact h4 (hl.store (by rw [hval]; omega) _) (by omega)
    · unfold writeCells
      rw [Memory.insertNoTrace_eq, if_pos hok]
      exact h1
    · intro j hj
      cases j with
      | zero =>
        rw [Nat.add_zero, h3 _ (by rw [hval]; omega), Memory.view_store _ _ _ _ hok, if_pos rfl]
        rfl
      | succ j =>
        have := h2 j (by simpa using hj)
        rw [show i + (j + 1) = i + 1 + j by omega, this]
        simp
    · intro a ha
      simp only [List.length_cons] at ha
      rw [h3 a (by omega), Memory.view_store _ _ _ _ hok, if_neg]
      rintro rfl
      rw [hval] at ha
      omega

theorem isBase_ofM31 (x : M31) : (QM31.ofM31 x).isBase := ⟨rfl, rfl, rfl⟩

theorem memReader_ok {m : Memory} {addr : M31} {off : ℕ} {x : M31} (hr : addr.val + off < 2 ^ 28)
    (h : m.view (addr + M31.ofU32 off) = QM31.ofM31 x) : memReader m addr off = .ok x := by
  unfold memReader
  have hP : P = 2147483647 := rfl
  have hval : (addr + M31.ofU32 off).val = addr.val + off := val_add_ofU32 _ _ (by omega)
  rw [Memory.getDataNoTrace_eq, if_pos (by rw [hval]; unfold MAX_ADDRESS; omega), h,
    if_pos (isBase_ofM31 x)]
  rfl

theorem materialize_ok (ws : List M31) (st : EncState) (h : st.cursor.val + ws.length ≤ 2 ^ 28) :
    ∃ m', materialize ws st = .ok ([st.cursor], ⟨m', st.cursor + M31.ofU32 ws.length⟩) ∧
      (∀ j (hj : j < ws.length), m'.view (st.cursor + M31.ofU32 j) = QM31.ofM31 ws[j]) ∧
      (∀ a : M31, ¬ (st.cursor.val ≤ a.val ∧ a.val < st.cursor.val + ws.length) →
        m'.view a = st.memory.view a) ∧
      (Low st.memory → st.cursor.val + ws.length ≤ 2 ^ 27 → Low m') := by
  obtain ⟨m', h1, h2, h3, h4⟩ := writeCells_ok ws st.cursor 0 st.memory (by omega)
  refine ⟨m', ?_, ?_, ?_, fun hl hb => h4 hl (by omega)⟩
  · unfold materialize; rw [h1]
  · intro j hj; have := h2 j hj; rwa [Nat.zero_add] at this
  · intro a ha; exact h3 a (by simpa using ha)

/-- What encoding a value guarantees: the state after, the number of words, the cells touched, and that any
memory agreeing on those cells decodes back to `dec`. -/
structure Good (st : EncState) (n slots : ℕ) (r : Except RunErr (List M31 × EncState))
    (dec : Memory → List M31 → Prop) : Prop where
  out : ∃ ws m', r = .ok (ws, ⟨m', st.cursor + M31.ofU32 n⟩) ∧ ws.length = slots ∧
    (∀ a : M31, ¬ (st.cursor.val ≤ a.val ∧ a.val < st.cursor.val + n) → m'.view a = st.memory.view a) ∧
    (Low st.memory → st.cursor.val + n ≤ 2 ^ 27 → Low m') ∧
    (∀ m'' : Memory, (∀ a : M31, st.cursor.val ≤ a.val → a.val < st.cursor.val + n → m''.view a = m'.view a) →
      dec m'' ws)

/-- Reading `ws` through `read` from `off`. -/
def Reads (read : ℕ → Except RunErr M31) (off : ℕ) (ws : List M31) : Prop :=
  ∀ i (h : i < ws.length), read (off + i) = .ok ws[i]

theorem Reads.left {read off a b} (h : Reads read off (a ++ b)) : Reads read off a := by
  intro i hi
  have := h i (by simp; omega)
  rwa [List.getElem_append_left hi] at this

theorem Reads.right {read off a b} (h : Reads read off (a ++ b)) : Reads read (off + a.length) b := by
  intro i hi
  have := h (a.length + i) (by simp; omega)
  rw [List.getElem_append_right (by omega)] at this
  simp only [Nat.add_sub_cancel_left] at this
  rwa [Nat.add_assoc]

theorem readBool (b : Bool) : m31ToBool (if b then 1 else 0) = .ok b := by cases b <;> decide

theorem reconstruct (n : ℕ) (h : n < 2 ^ 32) :
    reconstructU32 (M31.ofU32 (n &&& 0xFFFF)) (M31.ofU32 (n >>> 16)) = .ok n := by
  have e1 : n &&& 0xFFFF = n % 2 ^ 16 := Nat.and_two_pow_sub_one_eq_mod n 16
  have e2 : n >>> 16 = n / 2 ^ 16 := Nat.shiftRight_eq_div_pow n 16
  have hP : P = 2147483647 := rfl
  have v1 : (M31.ofU32 (n % 2 ^ 16)).val = n % 2 ^ 16 := M31.ofU32_val_of_lt (by omega)
  have v2 : (M31.ofU32 (n / 2 ^ 16)).val = n / 2 ^ 16 := M31.ofU32_val_of_lt (by omega)
  unfold reconstructU32
  rw [e1, e2, v1, v2, if_neg (by omega)]
  congr 1
  rw [Nat.or_comm, ← Nat.shiftLeft_add_eq_or_of_lt (by omega) (n / 2 ^ 16), Nat.shiftLeft_eq]
  omega

theorem good_simple {st : EncState} {ws : List M31} {slots : ℕ} {dec : Memory → List M31 → Prop}
    (hl : ws.length = slots) (hd : ∀ m, dec m ws) : Good st 0 slots (.ok (ws, st)) dec := by
  refine ⟨ws, st.memory, ?_, hl, fun _ _ => rfl, fun h _ => h, fun m _ => hd m⟩
  rw [add_ofU32_zero]

/-- The array case: elements encoded one after the other, then copied at the cursor. -/
theorem good_array {st : EncState} {k n : ℕ} {r : Except RunErr (List M31 × EncState)}
    {f : Memory → M31 → Except RunErr (CairoMValue × ℕ)} {len : ℕ} {xs : List CairoMValue} {S : Prop}
    (h : Good st k n r fun m ws => S → ∀ base : M31, base.val + ws.length ≤ 2 ^ 28 →
      (∀ j (hj : j < ws.length), m.view (base + M31.ofU32 j) = QM31.ofM31 ws[j]) →
      readArray (f m) len base 0 = .ok xs)
    (hroom : st.cursor.val + (k + n) ≤ 2 ^ 28) :
    Good st (k + n) 1
      (match (generalizing := false) r with | .error e => .error e | .ok (ws, st') => materialize ws st')
      fun m ws => S → ∃ p, ws = [p] ∧ readArray (f m) len p 0 = .ok xs := by
  obtain ⟨ws, m1, hr, hl, hf, hlow, hd⟩ := h.out
  have hP : P = 2147483647 := rfl
  have hc : (st.cursor + M31.ofU32 k).val = st.cursor.val + k := val_add_ofU32 _ _ (by omega)
  obtain ⟨m2, h1, h2, h3, h4⟩ := materialize_ok ws ⟨m1, st.cursor + M31.ofU32 k⟩ (by
    dsimp only; rw [hc, hl]; omega)
  dsimp only at h1 h2 h3 h4
  rw [hc, hl] at h4
  refine ⟨[st.cursor + M31.ofU32 k], m2, ?_, rfl, ?_, fun hlo hb => h4 (hlow hlo (by omega)) (by omega), ?_⟩
  · rw [hr]; dsimp only; rw [h1, hl, add_ofU32]
  · intro a ha
    rw [h3 a (by rw [hc, hl]; omega), hf a (by omega)]
  · intro m'' hm hS
    refine ⟨_, rfl, hd m'' ?_ hS _ ?_ ?_⟩
    · intro a ha1 ha2
      rw [hm a ha1 (by omega), h3 a (by rw [hc, hl]; omega)]
    · rw [hc, hl]; omega
    · intro j hj
      have hval : (st.cursor + M31.ofU32 k + M31.ofU32 j).val = st.cursor.val + k + j := by
        rw [val_add_ofU32 _ _ (by rw [hc]; omega), hc]
      rw [hm _ (by rw [hval]; omega) (by rw [hval]; omega), h2 j hj]

/-- Sequencing two encodings. -/
theorem good_seq {st : EncState} {n1 n2 s1 s2 : ℕ} {r1 : Except RunErr (List M31 × EncState)}
    {r2 : EncState → Except RunErr (List M31 × EncState)} {d1 d2 : Memory → List M31 → Prop}
    (h1 : Good st n1 s1 r1 d1)
    (h2 : ∀ st', st'.cursor.val = st.cursor.val + n1 → Good st' n2 s2 (r2 st') d2)
    (hroom : st.cursor.val + (n1 + n2) ≤ 2 ^ 28) :
    Good st (n1 + n2) (s1 + s2)
      (match (generalizing := false) r1 with
        | .error e => .error e
        | .ok (a, st1) =>
          match (generalizing := false) r2 st1 with
          | .error e => .error e
          | .ok (b, st2) => .ok (a ++ b, st2))
      fun m ws => ∃ a b, ws = a ++ b ∧ a.length = s1 ∧ d1 m a ∧ d2 m b := by
  obtain ⟨a, m1, hr1, hl1, hf1, hlow1, hd1⟩ := h1.out
  have hP : P = 2147483647 := rfl
  have hc : (st.cursor + M31.ofU32 n1).val = st.cursor.val + n1 := val_add_ofU32 _ _ (by omega)
  obtain ⟨b, m2, hr2, hl2, hf2, hlow2, hd2⟩ := (h2 ⟨m1, st.cursor + M31.ofU32 n1⟩ hc).out
  dsimp only at hr2 hf2 hd2 hlow2
  rw [hc] at hf2 hd2 hlow2
  refine ⟨a ++ b, m2, ?_, by simp [hl1, hl2], ?_,
    fun hlo hb => hlow2 (hlow1 hlo (by omega)) (by omega), ?_⟩
  · rw [hr1]; dsimp only; rw [hr2]; dsimp only; rw [add_ofU32]
  · intro x hx
    rw [hf2 x (by omega), hf1 x (by omega)]
  · intro m'' hm
    refine ⟨a, b, rfl, hl1, hd1 m'' ?_, hd2 m'' ?_⟩
    · intro x hx1 hx2
      rw [hm x hx1 (by omega), hf2 x (by omega)]
    · intro x hx1 hx2
      exact hm x (by omega) (by omega)

theorem Good.mono {st : EncState} {n s : ℕ} {r : Except RunErr (List M31 × EncState)}
    {d d' : Memory → List M31 → Prop} (h : Good st n s r d) (hd : ∀ m ws, ws.length = s → d m ws → d' m ws) :
    Good st n s r d' := by
  obtain ⟨ws, m1, hr, hl, hf, hlow, hdd⟩ := h.out
  exact ⟨ws, m1, hr, hl, hf, hlow, fun m hm => hd m ws hl (hdd m hm)⟩

/-- The decoding guarantee for a value of type `ty` denoting `x`. -/
def Decodes (ty : AbiType) (x : CairoMValue) (m : Memory) (ws : List M31) : Prop :=
  Sized ty → ∀ read off, Reads read off ws → decode m ty read off = .ok (x, ws.length)

/-- The same for the elements of an array stored in memory. -/
def DecodesAll (e : AbiType) (n : ℕ) (xs : List CairoMValue) (m : Memory) (ws : List M31) : Prop :=
  Sized e → ∀ (base : M31) (off : ℕ), base.val + off + ws.length ≤ 2 ^ 28 →
    (∀ j (hj : j < ws.length), m.view (base + M31.ofU32 (off + j)) = QM31.ofM31 ws[j]) →
    readArray (fun a => decode m e (memReader m a) 0) n base off = .ok xs

/-- The same for a list of types. -/
def DecodesZip (ts : List AbiType) (xs : List CairoMValue) (m : Memory) (ws : List M31) : Prop :=
  AllSized ts → ∀ read off, Reads read off ws → decodeTuple m ts read off = .ok (xs, ws.length)

theorem reads_memReader {m : Memory} {base : M31} {off : ℕ} {ws : List M31}
    (hr : base.val + off + ws.length ≤ 2 ^ 28)
    (h : ∀ j (hj : j < ws.length), m.view (base + M31.ofU32 (off + j)) = QM31.ofM31 ws[j]) :
    Reads (memReader m (base + M31.ofU32 off)) 0 ws := by
  intro i hi
  have hP : P = 2147483647 := rfl
  have hv : (base + M31.ofU32 off).val = base.val + off := val_add_ofU32 _ _ (by omega)
  refine memReader_ok (by rw [hv]; omega) ?_
  rw [Nat.zero_add, add_ofU32]
  exact h i hi

theorem array_case {vs : List InputValue} {e : AbiType} {st : EncState} {xs : List CairoMValue}
    {r : Except RunErr (List M31 × EncState)}
    (h : Good st (cellsAll vs e) (vs.length * callSlotSize e) r (DecodesAll e vs.length xs))
    (hroom : st.cursor.val + (cellsAll vs e + vs.length * callSlotSize e) ≤ 2 ^ 28) :
    Good st (cellsAll vs e + vs.length * callSlotSize e) 1
      (match (generalizing := false) r with | .error e => .error e | .ok (ws, st') => materialize ws st')
      fun m ws => Sized e → ∃ p, ws = [p] ∧
        readArray (fun a => decode m e (memReader m a) 0) vs.length p 0 = .ok xs := by
  refine good_array (f := fun m a => decode m e (memReader m a) 0) (h.mono ?_) hroom
  intro m ws _ hd hS base hb hj
  refine hd hS base 0 (by omega) ?_
  intro j hj'
  rw [Nat.zero_add]
  exact hj j hj'

mutual
theorem encode_good : ∀ (v : InputValue) (ty : AbiType) (st : EncState) (x : CairoMValue),
    denote v ty = some x → st.cursor.val + cells v ty ≤ 2 ^ 28 →
    Good st (cells v ty) (callSlotSize ty) (encode v ty st) (Decodes ty x)
  | .number n, ty, st, x, hx, hroom => by
    cases ty with
    | felt =>
      simp only [denote, Option.some.injEq] at hx
      subst hx
      simp only [encode, cells, callSlotSize]
      refine good_simple rfl ?_
      intro m _ read off hr
      have := hr 0 (by simp)
      simp only [Nat.add_zero, List.getElem_cons_zero] at this
      simp [decode, this, C19_m31_from_i64]
    | bool =>
      simp only [denote] at hx
      simp only [encode, cells, callSlotSize]
      split_ifs at hx with h0 h1
      · simp only [Option.some.injEq] at hx
        subst hx
        rw [if_pos h0]
        refine good_simple rfl ?_
        intro m _ read off hr
        have := hr 0 (by simp)
        simp only [Nat.add_zero, List.getElem_cons_zero] at this
        simp only [decode, this]
        rw [show m31ToBool 0 = .ok false by decide]
        rfl
      · simp only [Option.some.injEq] at hx
        subst hx
        rw [if_neg h0, if_pos h1]
        refine good_simple rfl ?_
        intro m _ read off hr
        have := hr 0 (by simp)
        simp only [Nat.add_zero, List.getElem_cons_zero] at this
        simp only [decode, this]
        rw [show m31ToBool 1 = .ok true by decide]
        rfl
    | u32 =>
      simp only [denote] at hx
      split_ifs at hx with h0
      simp only [Option.some.injEq] at hx
      subst hx
      simp only [encode, cells, callSlotSize]
      rw [if_neg (by omega)]
      refine good_simple rfl ?_
      intro m _ read off hr
      have r0 := hr 0 (by simp)
      have r1 := hr 1 (by simp)
      simp only [Nat.add_zero, List.getElem_cons_zero] at r0
      simp only [List.getElem_cons_succ, List.getElem_cons_zero] at r1
      simp only [decode, r0, r1]
      rw [reconstruct _ (by omega)]
      rfl
    | pointer e len => cases len <;> simp [denote] at hx
    | tuple ts => simp [denote] at hx
    | struct s fs => simp [denote] at hx
    | array e n => simp [denote] at hx
    | unit => simp [denote] at hx
  | .bool b, ty, st, x, hx, hroom => by
    cases ty with
    | bool =>
      simp only [denote, Option.some.injEq] at hx
      subst hx
      simp only [encode, cells, callSlotSize]
      refine good_simple rfl ?_
      intro m _ read off hr
      have := hr 0 (by simp)
      simp only [Nat.add_zero, List.getElem_cons_zero] at this
      simp only [decode, this]
      rw [readBool]
      rfl
    | felt => simp [denote] at hx
    | u32 => simp [denote] at hx
    | pointer e len => cases len <;> simp [denote] at hx
    | tuple ts => simp [denote] at hx
    | struct s fs => simp [denote] at hx
    | array e n => simp [denote] at hx
    | unit => simp [denote] at hx
  | .list vs, ty, st, x, hx, hroom => by
    cases ty with
    | tuple ts =>
      simp only [denote, Option.map_eq_some_iff] at hx
      obtain ⟨xs, hxs, rfl⟩ := hx
      simp only [cells] at hroom ⊢
      have hlen := denoteZip_length vs ts xs hxs
      have := encodeZip_good vs ts st xs hxs hroom
      simp only [encode, callSlotSize]
      rw [if_neg (by omega)]
      refine this.mono ?_
      intro m ws _ hd hS read off hr
      simp only [Sized] at hS
      simp only [decode, hd hS read off hr]
    | array e n =>
      simp only [denote] at hx
      split_ifs at hx with hn
      simp only [Option.map_eq_some_iff] at hx
      obtain ⟨xs, hxs, rfl⟩ := hx
      simp only [cells] at hroom ⊢
      have := array_case (encodeAll_good vs e st xs hxs (by omega)) hroom
      simp only [encode, callSlotSize]
      rw [if_neg (by omega)]
      refine this.mono ?_
      intro m ws _ hd hS read off hr
      simp only [Sized] at hS
      obtain ⟨p, rfl, hp⟩ := hd hS
      have r0 := hr 0 (by simp)
      simp only [Nat.add_zero, List.getElem_cons_zero] at r0
      subst hn
      simp only [decode, r0, hp]
      rfl
    | pointer e len =>
      cases len with
      | none =>
        simp only [denote, Option.map_eq_some_iff] at hx
        obtain ⟨xs, hxs, rfl⟩ := hx
        simp only [cells] at hroom ⊢
        have := array_case (encodeAll_good vs e st xs hxs (by omega)) hroom
        simp only [encode, callSlotSize]
        rw [if_neg (by simp)]
        refine this.mono ?_
        intro m ws _ hd hS
        simp [Sized] at hS
      | some n =>
        simp only [denote] at hx
        split_ifs at hx with hn
        simp only [Option.map_eq_some_iff] at hx
        obtain ⟨xs, hxs, rfl⟩ := hx
        simp only [cells] at hroom ⊢
        have := array_case (encodeAll_good vs e st xs hxs (by omega)) hroom
        simp only [encode, callSlotSize]
        rw [if_neg (by simp [hn])]
        refine this.mono ?_
        intro m ws _ hd hS read off hr
        simp only [Sized] at hS
        obtain ⟨p, rfl, hp⟩ := hd hS.2
        have r0 := hr 0 (by simp)
        simp only [Nat.add_zero, List.getElem_cons_zero] at r0
        subst hn
        simp only [decode, r0, hp]
        rfl
    | felt => simp [denote] at hx
    | bool => simp [denote] at hx
    | u32 => simp [denote] at hx
    | struct s fs => simp [denote] at hx
    | unit => simp [denote] at hx
  | .struct vs, ty, st, x, hx, hroom => by
    cases ty with
    | struct s fs =>
      simp only [denote, Option.map_eq_some_iff] at hx
      obtain ⟨xs, hxs, rfl⟩ := hx
      simp only [cells] at hroom ⊢
      have hlen := denoteZip_length vs _ xs hxs
      have := encodeZip_good vs _ st xs hxs hroom
      simp only [encode, callSlotSize]
      rw [if_neg (by rw [List.length_map] at hlen; omega), callSlotSizeFields_eq]
      refine this.mono ?_
      intro m ws _ hd hS read off hr
      simp only [Sized] at hS
      simp only [decode]
      rw [decodeFields_eq m fs read off xs ws.length (hd ((AllSizedFields_iff fs).1 hS) read off hr)]
    | felt => simp [denote] at hx
    | bool => simp [denote] at hx
    | u32 => simp [denote] at hx
    | pointer e len => cases len <;> simp [denote] at hx
    | tuple ts => simp [denote] at hx
    | array e n => simp [denote] at hx
    | unit => simp [denote] at hx
  | .unit, ty, st, x, hx, hroom => by
    cases ty with
    | unit =>
      simp only [denote, Option.some.injEq] at hx
      subst hx
      simp only [encode, cells, callSlotSize]
      refine good_simple rfl ?_
      intro m _ read off hr
      simp [decode]
    | felt => simp [denote] at hx
    | bool => simp [denote] at hx
    | u32 => simp [denote] at hx
    | pointer e len => cases len <;> simp [denote] at hx
    | tuple ts => simp [denote] at hx
    | struct s fs => simp [denote] at hx
    | array e n => simp [denote] at hx

theorem encodeAll_good : ∀ (vs : List InputValue) (e : AbiType) (st : EncState) (xs : List CairoMValue),
    denoteAll vs e = some xs → st.cursor.val + cellsAll vs e ≤ 2 ^ 28 →
    Good st (cellsAll vs e) (vs.length * callSlotSize e) (encodeAll vs e st) (DecodesAll e vs.length xs)
  | [], e, st, xs, hx, hroom => by
    simp only [denoteAll, Option.some.injEq] at hx
    subst hx
    simp only [encodeAll, cellsAll, List.length_nil, Nat.zero_mul]
    refine good_simple rfl ?_
    intro m _ base off _ _
    rfl
  | v :: vs, e, st, xs, hx, hroom => by
    simp only [denoteAll, Option.bind_eq_some_iff, Option.map_eq_some_iff] at hx
    obtain ⟨x, hx1, xs', hx2, rfl⟩ := hx
    simp only [cellsAll] at hroom ⊢
    have g1 := encode_good v e st x hx1 (by omega)
    have g := good_seq (r2 := fun st' => encodeAll vs e st') g1
      (fun st' hc => encodeAll_good vs e st' xs' hx2 (by omega)) hroom
    rw [encodeAll.eq_2, List.length_cons, Nat.succ_mul, Nat.add_comm (vs.length * _)]
    refine g.mono ?_
    rintro m ws _ ⟨a, b, rfl, hla, hd1, hd2⟩ hS base off hb hj
    rw [List.length_append] at hb
    have h1 := hd1 hS (memReader m (base + M31.ofU32 off)) 0 (reads_memReader (by omega) (by
      intro j hj'
      have := hj j (by simp; omega)
      rwa [List.getElem_append_left hj'] at this))
    have h2 := hd2 hS base (off + a.length) (by omega) (by
      intro j hj'
      have := hj (a.length + j) (by simp; omega)
      rw [List.getElem_append_right (by omega)] at this
      simp only [Nat.add_sub_cancel_left] at this
      rwa [Nat.add_assoc])
    simp only [readArray, h1, h2]

theorem encodeZip_good : ∀ (vs : List InputValue) (ts : List AbiType) (st : EncState) (xs : List CairoMValue),
    denoteZip vs ts = some xs → st.cursor.val + cellsZip vs ts ≤ 2 ^ 28 →
    Good st (cellsZip vs ts) (callSlotSizes ts) (encodeZip vs ts st) (DecodesZip ts xs)
  | [], ts, st, xs, hx, hroom => by
    cases ts with
    | cons t ts => simp [denoteZip] at hx
    | nil =>
      simp only [denoteZip, Option.some.injEq] at hx
      subst hx
      simp only [encodeZip, cellsZip, callSlotSizes]
      refine good_simple rfl ?_
      intro m _ read off _
      simp [decodeTuple]
  | v :: vs, ts, st, xs, hx, hroom => by
    cases ts with
    | nil => simp [denoteZip] at hx
    | cons t ts =>
      simp only [denoteZip, Option.bind_eq_some_iff, Option.map_eq_some_iff] at hx
      obtain ⟨x, hx1, xs', hx2, rfl⟩ := hx
      simp only [cellsZip] at hroom ⊢
      have g1 := encode_good v t st x hx1 (by omega)
      have g := good_seq (r2 := fun st' => encodeZip vs ts st') g1
        (fun st' hc => encodeZip_good vs ts st' xs' hx2 (by omega)) hroom
      rw [encodeZip, callSlotSizes]
      refine g.mono ?_
      rintro m ws _ ⟨a, b, rfl, hla, hd1, hd2⟩ hS read off hr
      simp only [AllSized] at hS
      simp only [decodeTuple, hd1 hS.1 read off hr.left, hd2 hS.2 read (off + a.length) hr.right]
      simp

theorem denoteZip_length : ∀ (vs : List InputValue) (ts : List AbiType) (xs : List CairoMValue),
    denoteZip vs ts = some xs → ts.length = vs.length
  | [], ts, xs, hx => by
    cases ts with
    | nil => rfl
    | cons t ts => simp [denoteZip] at hx
  | v :: vs, ts, xs, hx => by
    cases ts with
    | nil => simp [denoteZip] at hx
    | cons t ts =>
      simp only [denoteZip, Option.bind_eq_some_iff, Option.map_eq_some_iff] at hx
      obtain ⟨x, hx1, xs', hx2, rfl⟩ := hx
      simp [denoteZip_length vs ts xs' hx2]
end

mutual
/-- Only well-typed values are encoded. -/
theorem encode_typed : ∀ (v : InputValue) (ty : AbiType) (st : EncState) (r : List M31 × EncState),
    encode v ty st = .ok r → (denote v ty).isSome = true
  | .number n, ty, st, r, h => by
    cases ty with
    | felt => simp [denote]
    | bool =>
      simp only [encode] at h
      simp only [denote]
      split_ifs at h ⊢ <;> rfl
    | u32 =>
      simp only [encode] at h
      simp only [denote]
      split_ifs at h with h1
      rw [if_pos (by omega)]; rfl
    | pointer e len => simp [encode] at h
    | tuple ts => simp [encode] at h
    | struct s fs => simp [encode] at h
    | array e n => simp [encode] at h
    | unit => simp [encode] at h
  | .bool b, ty, st, r, h => by cases ty <;> simp [encode] at h; simp [denote]
  | .list vs, ty, st, r, h => by
    cases ty with
    | tuple ts =>
      simp only [encode] at h
      split_ifs at h with h1
      simp only [denote]
      have := encodeZip_typed vs ts st r h (by omega)
      simpa using this
    | array e n =>
      simp only [encode] at h
      split_ifs at h with h1
      simp only [denote]
      rw [if_pos (by omega)]
      cases ha : encodeAll vs e st with
      | error e => rw [ha] at h; cases h
      | ok a => simpa using encodeAll_typed vs e st a ha
    | pointer e len =>
      simp only [encode] at h
      split_ifs at h with h1
      cases ha : encodeAll vs e st with
      | error e => rw [ha] at h; cases h
      | ok a =>
        have := encodeAll_typed vs e st a ha
        cases len with
        | none => simpa [denote] using this
        | some n =>
          simp only [Option.isSome_some, ne_eq, Option.some.injEq, true_and, not_not] at h1
          simp only [denote]
          rw [if_pos h1.symm]
          simpa using this
    | felt => simp [encode] at h
    | bool => simp [encode] at h
    | u32 => simp [encode] at h
    | struct s fs => simp [encode] at h
    | unit => simp [encode] at h
  | .struct vs, ty, st, r, h => by
    cases ty with
    | struct s fs =>
      simp only [encode] at h
      split_ifs at h with h1
      simp only [denote]
      have := encodeZip_typed vs _ st r h (by rw [List.length_map]; omega)
      simpa using this
    | felt => simp [encode] at h
    | bool => simp [encode] at h
    | u32 => simp [encode] at h
    | pointer e len => simp [encode] at h
    | tuple ts => simp [encode] at h
    | array e n => simp [encode] at h
    | unit => simp [encode] at h
  | .unit, ty, st, r, h => by cases ty <;> simp [encode] at h; simp [denote]

theorem encodeAll_typed : ∀ (vs : List InputValue) (e : AbiType) (st : EncState) (r : List M31 × EncState),
    encodeAll vs e st = .ok r → (denoteAll vs e).isSome = true
  | [], e, st, r, _ => by simp [denoteAll]
  | v :: vs, e, st, r, h => by
    simp only [encodeAll] at h
    cases h1 : encode v e st with
    | error e => rw [h1] at h; cases h
    | ok a =>
      rw [h1] at h
      simp only at h
      cases h2 : encodeAll vs e a.2 with
      | error e => rw [h2] at h; cases h
      | ok b =>
        have a1 := encode_typed v e st a h1
        have a2 := encodeAll_typed vs e a.2 b h2
        rw [Option.isSome_iff_exists] at a1 a2
        obtain ⟨x, hx⟩ := a1
        obtain ⟨y, hy⟩ := a2
        simp [denoteAll, hx, hy]

theorem encodeZip_typed : ∀ (vs : List InputValue) (ts : List AbiType) (st : EncState)
    (r : List M31 × EncState), encodeZip vs ts st = .ok r → ts.length = vs.length →
    (denoteZip vs ts).isSome = true
  | [], ts, st, r, _, hl => by
    cases ts with
    | nil => simp [denoteZip]
    | cons t ts => simp at hl
  | v :: vs, ts, st, r, h, hl => by
    cases ts with
    | nil => simp at hl
    | cons t ts =>
      simp only [encodeZip] at h
      cases h1 : encode v t st with
      | error e => rw [h1] at h; cases h
      | ok a =>
        rw [h1] at h
        simp only at h
        cases h2 : encodeZip vs ts a.2 with
        | error e => rw [h2] at h; cases h
        | ok b =>
          have a1 := encode_typed v t st a h1
          have a2 := encodeZip_typed vs ts a.2 b h2 (by simpa using hl)
          rw [Option.isSome_iff_exists] at a1 a2
          obtain ⟨x, hx⟩ := a1
          obtain ⟨y, hy⟩ := a2
          simp [denoteZip, hx, hy]
end

mutual
/-- Decoding consumes the call slots of the type. -/
theorem decode_used (m : Memory) : ∀ (ty : AbiType) (read : ℕ → Except RunErr M31) (off : ℕ) (x : CairoMValue)
    (n : ℕ), decode m ty read off = .ok (x, n) → n = callSlotSize ty
  | .felt, read, off, x, n, h => by
    simp only [decode] at h
    cases hr : read off <;> rw [hr] at h <;> simp at h
    simp [callSlotSize, h.2]
  | .pointer e len, read, off, x, n, h => by
    simp only [decode] at h
    cases hr : read off <;> rw [hr] at h <;> simp only at h
    · cases h
    · cases len with
      | none => simp at h; simp [callSlotSize, h.2]
      | some k =>
        simp only at h
        split at h
        · cases h
        · simp at h; simp [callSlotSize, h.2]
  | .bool, read, off, x, n, h => by
    simp only [decode] at h
    cases hr : read off <;> rw [hr] at h <;> simp only at h
    · cases h
    · split at h
      · cases h
      · simp at h; simp [callSlotSize, h.2]
  | .u32, read, off, x, n, h => by
    simp only [decode] at h
    split at h
    · split at h
      · cases h
      · simp at h; simp [callSlotSize, h.2]
    · cases h
    · cases h
  | .tuple ts, read, off, x, n, h => by
    simp only [decode] at h
    cases hd : decodeTuple m ts read off with
    | error e => rw [hd] at h; cases h
    | ok y =>
      obtain ⟨ys, k⟩ := y
      rw [hd] at h
      simp at h
      rw [← h.2]
      simp [callSlotSize, decodeTuple_used m ts read off ys k hd]
  | .struct _ fs, read, off, x, n, h => by
    simp only [decode] at h
    cases hd : decodeFields m fs read off with
    | error e => rw [hd] at h; cases h
    | ok y =>
      obtain ⟨ys, k⟩ := y
      rw [hd] at h
      simp at h
      rw [← h.2]
      simp [callSlotSize, decodeFields_used m fs read off ys k hd]
  | .array e k, read, off, x, n, h => by
    simp only [decode] at h
    cases hr : read off <;> rw [hr] at h <;> simp only at h
    · cases h
    · split at h
      · cases h
      · simp at h; simp [callSlotSize, h.2]
  | .unit, read, off, x, n, h => by
    simp [decode] at h
    simp [callSlotSize, h.2]

theorem decodeTuple_used (m : Memory) : ∀ (ts : List AbiType) (read : ℕ → Except RunErr M31) (off : ℕ)
    (xs : List CairoMValue) (n : ℕ), decodeTuple m ts read off = .ok (xs, n) → n = callSlotSizes ts
  | [], read, off, xs, n, h => by simp [decodeTuple] at h; simp [callSlotSizes, h.2]
  | t :: ts, read, off, xs, n, h => by
    simp only [decodeTuple] at h
    cases hd : decode m t read off with
    | error e => rw [hd] at h; cases h
    | ok y =>
      obtain ⟨y, k⟩ := y
      rw [hd] at h
      simp only at h
      cases ht : decodeTuple m ts read (off + k) with
      | error e => rw [ht] at h; cases h
      | ok z =>
        obtain ⟨zs, j⟩ := z
        rw [ht] at h
        simp at h
        rw [← h.2, callSlotSizes, decode_used m t read off y k hd,
          decodeTuple_used m ts read (off + k) zs j ht]

theorem decodeFields_used (m : Memory) : ∀ (fs : List (String × AbiType)) (read : ℕ → Except RunErr M31)
    (off : ℕ) (xs : List (String × CairoMValue)) (n : ℕ), decodeFields m fs read off = .ok (xs, n) →
    n = callSlotSizeFields fs
  | [], read, off, xs, n, h => by simp [decodeFields] at h; simp [callSlotSizeFields, h.2]
  | (name, t) :: fs, read, off, xs, n, h => by
    simp only [decodeFields] at h
    cases hd : decode m t read off with
    | error e => rw [hd] at h; cases h
    | ok y =>
      obtain ⟨y, k⟩ := y
      rw [hd] at h
      simp only at h
      cases ht : decodeFields m fs read (off + k) with
      | error e => rw [ht] at h; cases h
      | ok z =>
        obtain ⟨zs, j⟩ := z
        rw [ht] at h
        simp at h
        rw [← h.2, callSlotSizeFields, decode_used m t read off y k hd,
          decodeFields_used m fs read (off + k) zs j ht]
end

theorem writeCells_trace (ws : List M31) : ∀ (base : M31) (i : ℕ) (m m' : Memory),
    writeCells base i ws m = .ok m' → m'.trace = m.trace := by
  induction ws with
  | nil => intro base i m m' h; simp only [writeCells] at h; injection h with h; rw [h]
  | cons w ws ih =>
    intro base i m m' h
    unfold writeCells at h
    rw [Memory.insertNoTrace_eq] at h
    split_ifs at h with hr
    · rw [ih _ _ _ _ h, Memory.trace_store]

theorem materialize_trace {ws : List M31} {st : EncState} {r : List M31 × EncState}
    (h : materialize ws st = .ok r) : r.2.memory.trace = st.memory.trace := by
  unfold materialize at h
  cases hw : writeCells st.cursor 0 ws st.memory with
  | error e => rw [hw] at h; cases h
  | ok m =>
    rw [hw] at h
    injection h with h
    rw [← h]
    exact writeCells_trace _ _ _ _ _ hw

mutual
/-- Encoding logs no access. -/
theorem encode_trace : ∀ (v : InputValue) (ty : AbiType) (st : EncState) (r : List M31 × EncState),
    encode v ty st = .ok r → r.2.memory.trace = st.memory.trace
  | .number n, ty, st, r, h => by
    cases ty <;> simp only [encode] at h <;> (try split_ifs at h) <;>
      first | (injection h with h; rw [← h]) | cases h
  | .bool b, ty, st, r, h => by
    cases ty <;> simp only [encode] at h <;>
      first | (injection h with h; rw [← h]) | cases h
  | .unit, ty, st, r, h => by
    cases ty <;> simp only [encode] at h <;>
      first | (injection h with h; rw [← h]) | cases h
  | .list vs, ty, st, r, h => by
    cases ty with
    | tuple ts =>
      simp only [encode] at h
      split_ifs at h with h1
      exact encodeZip_trace vs ts st r h
    | array e n =>
      simp only [encode] at h
      split_ifs at h with h1
      cases ha : encodeAll vs e st with
      | error e => rw [ha] at h; cases h
      | ok a =>
        rw [ha] at h
        exact (materialize_trace h).trans (encodeAll_trace vs e st a ha)
    | pointer e len =>
      simp only [encode] at h
      split_ifs at h with h1
      cases ha : encodeAll vs e st with
      | error e => rw [ha] at h; cases h
      | ok a =>
        rw [ha] at h
        exact (materialize_trace h).trans (encodeAll_trace vs e st a ha)
    | felt => simp [encode] at h
    | bool => simp [encode] at h
    | u32 => simp [encode] at h
    | struct s fs => simp [encode] at h
    | unit => simp [encode] at h
  | .struct vs, ty, st, r, h => by
    cases ty with
    | struct s fs =>
      simp only [encode] at h
      split_ifs at h with h1
      exact encodeZip_trace vs _ st r h
    | felt => simp [encode] at h
    | bool => simp [encode] at h
    | u32 => simp [encode] at h
    | pointer e len => simp [encode] at h
    | tuple ts => simp [encode] at h
    | array e n => simp [encode] at h
    | unit => simp [encode] at h

theorem encodeAll_trace : ∀ (vs : List InputValue) (e : AbiType) (st : EncState) (r : List M31 × EncState),
    encodeAll vs e st = .ok r → r.2.memory.trace = st.memory.trace
  | [], e, st, r, h => by simp only [encodeAll] at h; injection h with h; rw [← h]
  | v :: vs, e, st, r, h => by
    simp only [encodeAll] at h
    cases h1 : encode v e st with
    | error e => rw [h1] at h; cases h
    | ok a =>
      rw [h1] at h
      simp only at h
      cases h2 : encodeAll vs e a.2 with
      | error e => rw [h2] at h; cases h
      | ok b =>
        rw [h2] at h
        injection h with h
        rw [← h]
        exact (encodeAll_trace vs e a.2 b h2).trans (encode_trace v e st a h1)

theorem encodeZip_trace : ∀ (vs : List InputValue) (ts : List AbiType) (st : EncState)
    (r : List M31 × EncState), encodeZip vs ts st = .ok r → r.2.memory.trace = st.memory.trace
  | [], ts, st, r, h => by simp only [encodeZip] at h; injection h with h; rw [← h]
  | v :: vs, ts, st, r, h => by
    cases ts with
    | nil => simp only [encodeZip] at h; injection h with h; rw [← h]
    | cons t ts =>
      simp only [encodeZip] at h
      cases h1 : encode v t st with
      | error e => rw [h1] at h; cases h
      | ok a =>
        rw [h1] at h
        simp only at h
        cases h2 : encodeZip vs ts a.2 with
        | error e => rw [h2] at h; cases h
        | ok b =>
          rw [h2] at h
          injection h with h
          rw [← h]
          exact (encodeZip_trace vs ts a.2 b h2).trans (encode_trace v t st a h1)
end

end Abi
end CairoM
