import Verif.AbiLemmas
import Verif.SegmentProps

/-!
# Properties C21-C24 and C59: the calling convention

The specification (`denote`, `cells`, `Sized`) is in `Verif.AbiLemmas`.
-/

namespace CairoM
namespace Abi

/-! ### C21 -/

/-- C21: encoding a well-typed value succeeds (given room for its arrays), produces exactly the call slots of
its type, and decoding those slots on the resulting memory returns the value. Pointers are allowed if they carry
their length. -/
theorem C21_round_trip (v : InputValue) (ty : AbiType) (x : CairoMValue) (hx : denote v ty = some x)
    (hs : Sized ty) (st : EncState) (hroom : st.cursor.val + cells v ty ≤ 2 ^ 28) :
    ∃ ws st', encode v ty st = .ok (ws, st') ∧ ws.length = callSlotSize ty ∧
      decode st'.memory ty (slotReader ws) 0 = .ok (x, callSlotSize ty) := by
  obtain ⟨ws, m', h1, h2, _, _, h5⟩ := (encode_good v ty st x hx hroom).out
  refine ⟨ws, _, h1, h2, ?_⟩
  rw [h5 m' (fun _ _ _ => rfl) hs (slotReader ws) 0 ?_, h2]
  intro i hi
  simp [slotReader, hi]

/-- C21: values that do not have the type are rejected, in any state. -/
theorem C21_ill_typed (v : InputValue) (ty : AbiType) (hx : denote v ty = none) (st : EncState) :
    ∃ e, encode v ty st = .error e := by
  cases h : encode v ty st with
  | error e => exact ⟨e, rfl⟩
  | ok r =>
    have := encode_typed v ty st r h
    rw [hx] at this
    cases this

/-- C21 for a list of values, through the function that decodes a whole return frame. -/
theorem C21_round_trip_all (vs : List InputValue) (ts : List AbiType) (xs : List CairoMValue)
    (hx : denoteZip vs ts = some xs) (hs : AllSized ts) (st : EncState)
    (hroom : st.cursor.val + cellsZip vs ts ≤ 2 ^ 28) :
    ∃ ws st', encodeZip vs ts st = .ok (ws, st') ∧ ws.length = callSlotSizes ts ∧
      decodeReturns st'.memory ts ws = .ok xs := by
  obtain ⟨ws, m', h1, h2, _, _, h5⟩ := (encodeZip_good vs ts st xs hx hroom).out
  refine ⟨ws, _, h1, h2, ?_⟩
  unfold decodeReturns
  rw [h5 m' (fun _ _ _ => rfl) hs (slotReader ws) 0 ?_]
  · simp
  · intro i hi
    simp [slotReader, hi]

/-- C21: a return frame of any other size is rejected, never truncated or padded. -/
theorem C21_wrong_frame (m : Memory) (ts : List AbiType) (frame : List M31)
    (h : frame.length ≠ callSlotSizes ts) : ∃ e, decodeReturns m ts frame = .error e := by
  unfold decodeReturns
  cases hd : decodeTuple m ts (slotReader frame) 0 with
  | error e => exact ⟨e, rfl⟩
  | ok r =>
    obtain ⟨xs, n⟩ := r
    have := decodeTuple_used m ts _ 0 xs n hd
    dsimp only
    rw [if_pos (by omega)]
    exact ⟨_, rfl⟩

/-- `[(1, true), (-1, 0)] : [(felt, bool); 2]` and a struct with a `u32` denote values. -/
example : denote (.list [.list [.number 1, .bool true], .list [.number (-1), .number 0]])
      (.array (.tuple [.felt, .bool]) 2) =
      some (.array [.tuple [.felt 1, .bool true], .tuple [.felt (-1), .bool false]]) ∧
    denote (.struct [.number 70000]) (.struct "S" [("a", .u32)]) = some (.struct [("a", .u32 70000)]) ∧
    Sized (.array (.tuple [.felt, .bool]) 2) ∧ denote (.number 4294967296) .u32 = none := by
  simp [denote, denoteAll, denoteZip, Sized, AllSized]

/-! ### C23 -/

mutual
/-- No pointer type occurs. -/
def NoPtr : AbiType → Prop
  | .pointer _ _ => False
  | .array e _ => NoPtr e
  | .tuple ts => AllNoPtr ts
  | .struct _ fs => AllNoPtrFields fs
  | _ => True

/-- see `NoPtr` -/
def AllNoPtr : List AbiType → Prop
  | [] => True
  | t :: ts => NoPtr t ∧ AllNoPtr ts

/-- see `NoPtr` -/
def AllNoPtrFields : List (String × AbiType) → Prop
  | [] => True
  | (_, t) :: fs => NoPtr t ∧ AllNoPtrFields fs
end

mutual
/-- Pointers do not occur inside the elements of arrays or pointers. -/
def Plain : AbiType → Prop
  | .pointer e _ => NoPtr e
  | .array e _ => NoPtr e
  | .tuple ts => AllPlain ts
  | .struct _ fs => AllPlainFields fs
  | _ => True

/-- see `Plain` -/
def AllPlain : List AbiType → Prop
  | [] => True
  | t :: ts => Plain t ∧ AllPlain ts

/-- see `Plain` -/
def AllPlainFields : List (String × AbiType) → Prop
  | [] => True
  | (_, t) :: fs => Plain t ∧ AllPlainFields fs
end

theorem AllNoPtrFields_iff (fs : List (String × AbiType)) :
    AllNoPtrFields fs ↔ AllNoPtr (fs.map Prod.snd) := by
  induction fs with
  | nil => simp [AllNoPtrFields, AllNoPtr]
  | cons f fs ih => obtain ⟨n, t⟩ := f; simp [AllNoPtrFields, AllNoPtr, ih]

theorem AllPlainFields_iff (fs : List (String × AbiType)) :
    AllPlainFields fs ↔ AllPlain (fs.map Prod.snd) := by
  induction fs with
  | nil => simp [AllPlainFields, AllPlain]
  | cons f fs ih => obtain ⟨n, t⟩ := f; simp [AllPlainFields, AllPlain, ih]

theorem matSizeFields_eq (fs : List (String × AbiType)) : matSizeFields fs = matSizes (fs.map Prod.snd) := by
  induction fs with
  | nil => rfl
  | cons f fs ih => obtain ⟨n, t⟩ := f; simp [matSizeFields, matSizes, ih]

mutual
theorem cells_noPtr : ∀ (v : InputValue) (ty : AbiType) (x : CairoMValue), NoPtr ty → denote v ty = some x →
    cells v ty = matSize ty
  | .number n, ty, x, hn, hx => by
    cases ty <;> first | (simp [denote] at hx; done) | (simp [NoPtr] at hn; done) | simp [cells, matSize]
  | .bool n, ty, x, hn, hx => by
    cases ty <;> first | (simp [denote] at hx; done) | (simp [NoPtr] at hn; done) | simp [cells, matSize]
  | .unit, ty, x, hn, hx => by
    cases ty <;> first | (simp [denote] at hx; done) | (simp [NoPtr] at hn; done) | simp [cells, matSize]
  | .list vs, ty, x, hn, hx => by
    cases ty with
    | tuple ts =>
      simp only [denote, Option.map_eq_some_iff] at hx
      obtain ⟨xs, hxs, _⟩ := hx
      simp only [cells, matSize]
      exact cellsZip_noPtr vs ts xs (by simpa [NoPtr] using hn) hxs
    | array e n =>
      simp only [denote] at hx
      split_ifs at hx with hl
      simp only [Option.map_eq_some_iff] at hx
      obtain ⟨xs, hxs, _⟩ := hx
      simp only [cells, matSize]
      rw [cellsAll_noPtr vs e xs (by simpa [NoPtr] using hn) hxs, hl]
      ring
    | pointer e len => simp [NoPtr] at hn
    | felt => simp [denote] at hx
    | bool => simp [denote] at hx
    | u32 => simp [denote] at hx
    | struct s fs => simp [denote] at hx
    | unit => simp [denote] at hx
  | .struct vs, ty, x, hn, hx => by
    cases ty with
    | struct s fs =>
      simp only [denote, Option.map_eq_some_iff] at hx
      obtain ⟨xs, hxs, _⟩ := hx
      simp only [cells, matSize]
      rw [matSizeFields_eq]
      refine cellsZip_noPtr vs _ xs ?_ hxs
      rw [← AllNoPtrFields_iff]
      simpa [NoPtr] using hn
    | tuple ts => simp [denote] at hx
    | array e n => simp [denote] at hx
    | pointer e len => simp [NoPtr] at hn
    | felt => simp [denote] at hx
    | bool => simp [denote] at hx
    | u32 => simp [denote] at hx
    | unit => simp [denote] at hx

theorem cellsAll_noPtr : ∀ (vs : List InputValue) (e : AbiType) (xs : List CairoMValue), NoPtr e →
    denoteAll vs e = some xs → cellsAll vs e = vs.length * matSize e
  | [], e, xs, _, _ => by simp [cellsAll]
  | v :: vs, e, xs, hn, hx => by
    simp only [denoteAll, Option.bind_eq_some_iff, Option.map_eq_some_iff] at hx
    obtain ⟨x, hx1, xs', hx2, rfl⟩ := hx
    rw [cellsAll, cells_noPtr v e x hn hx1, cellsAll_noPtr vs e xs' hn hx2, List.length_cons]
    ring

theorem cellsZip_noPtr : ∀ (vs : List InputValue) (ts : List AbiType) (xs : List CairoMValue), AllNoPtr ts →
    denoteZip vs ts = some xs → cellsZip vs ts = matSizes ts
  | [], ts, xs, _, hx => by
    cases ts with
    | nil => simp [cellsZip, matSizes]
    | cons t ts => simp [denoteZip] at hx
  | v :: vs, ts, xs, hn, hx => by
    cases ts with
    | nil => simp [denoteZip] at hx
    | cons t ts =>
      simp only [denoteZip, Option.bind_eq_some_iff, Option.map_eq_some_iff] at hx
      obtain ⟨x, hx1, xs', hx2, rfl⟩ := hx
      simp only [AllNoPtr] at hn
      rw [cellsZip, matSizes, cells_noPtr v t x hn.1 hx1, cellsZip_noPtr vs ts xs' hn.2 hx2]
end

mutual
theorem matSizeVal_plain : ∀ (v : InputValue) (ty : AbiType) (x : CairoMValue), Plain ty →
    denote v ty = some x → matSizeVal v ty = some (cells v ty)
  | .number n, ty, x, hn, hx => by
    cases ty with
    | pointer e len => cases len <;> simp [denote] at hx
    | felt => simp [matSizeVal, cells]
    | bool => simp [matSizeVal, cells]
    | u32 => simp [matSizeVal, cells]
    | tuple ts => simp [denote] at hx
    | struct s fs => simp [denote] at hx
    | array e n => simp [denote] at hx
    | unit => simp [denote] at hx
  | .bool n, ty, x, hn, hx => by
    cases ty <;> simp [matSizeVal, cells]
  | .unit, ty, x, hn, hx => by
    cases ty <;> simp [matSizeVal, cells]
  | .list vs, ty, x, hn, hx => by
    cases ty with
    | tuple ts =>
      simp only [denote, Option.map_eq_some_iff] at hx
      obtain ⟨xs, hxs, _⟩ := hx
      simp only [cells, matSizeVal]
      exact matSizeVals_plain vs ts xs (by simpa [Plain] using hn) hxs
    | array e n =>
      simp only [denote] at hx
      split_ifs at hx with hl
      simp only [Option.map_eq_some_iff] at hx
      obtain ⟨xs, hxs, _⟩ := hx
      simp only [cells, matSizeVal]
      rw [if_pos hl.symm, cellsAll_noPtr vs e xs (by simpa [Plain] using hn) hxs, hl]
      congr 1; ring
    | pointer e len =>
      have he : NoPtr e := by simpa [Plain] using hn
      cases len with
      | none =>
        simp only [denote, Option.map_eq_some_iff] at hx
        obtain ⟨xs, hxs, _⟩ := hx
        simp only [cells, matSizeVal, Option.getD_none]
        rw [cellsAll_noPtr vs e xs he hxs]
        congr 1; ring
      | some n =>
        simp only [denote] at hx
        split_ifs at hx with hl
        simp only [Option.map_eq_some_iff] at hx
        obtain ⟨xs, hxs, _⟩ := hx
        simp only [cells, matSizeVal, Option.getD_some]
        rw [cellsAll_noPtr vs e xs he hxs, hl]
        congr 1; ring
    | felt => simp [denote] at hx
    | bool => simp [denote] at hx
    | u32 => simp [denote] at hx
    | struct s fs => simp [denote] at hx
    | unit => simp [denote] at hx
  | .struct vs, ty, x, hn, hx => by
    cases ty with
    | struct s fs =>
      simp only [denote, Option.map_eq_some_iff] at hx
      obtain ⟨xs, hxs, _⟩ := hx
      simp only [cells, matSizeVal]
      refine matSizeVals_plain vs _ xs ?_ hxs
      rw [← AllPlainFields_iff]
      simpa [Plain] using hn
    | pointer e len => cases len <;> simp [denote] at hx
    | tuple ts => simp [denote] at hx
    | array e n => simp [denote] at hx
    | felt => simp [denote] at hx
    | bool => simp [denote] at hx
    | u32 => simp [denote] at hx
    | unit => simp [denote] at hx

theorem matSizeVals_plain : ∀ (vs : List InputValue) (ts : List AbiType) (xs : List CairoMValue),
    AllPlain ts → denoteZip vs ts = some xs → matSizeVals vs ts = some (cellsZip vs ts)
  | [], ts, xs, _, hx => by
    cases ts with
    | nil => simp [cellsZip, matSizeVals]
    | cons t ts => simp [denoteZip] at hx
  | v :: vs, ts, xs, hn, hx => by
    cases ts with
    | nil => simp [denoteZip] at hx
    | cons t ts =>
      simp only [denoteZip, Option.bind_eq_some_iff, Option.map_eq_some_iff] at hx
      obtain ⟨x, hx1, xs', hx2, rfl⟩ := hx
      simp only [AllPlain] at hn
      rw [matSizeVals, cellsZip, matSizeVal_plain v t x hn.1 hx1, matSizeVals_plain vs ts xs' hn.2 hx2]
end

/-- C23, proved part: when no pointer occurs inside array or pointer elements, the space reserved for array
contents (`mat`) is exactly the space written: encoding moves the cursor by `mat` and touches only
`[cursor, cursor + mat)`. Missing: nested pointers, for which it is false (`C23_violated`). -/
theorem C23_reserved_partial (vs : List InputValue) (ts : List AbiType) (xs : List CairoMValue)
    (hx : denoteZip vs ts = some xs) (hp : AllPlain ts) (st : EncState) (mat : ℕ)
    (hm : matSizeVals vs ts = some mat) (hroom : st.cursor.val + mat ≤ 2 ^ 28) :
    ∃ ws st', encodeZip vs ts st = .ok (ws, st') ∧ st'.cursor.val = st.cursor.val + mat ∧
      ∀ a : M31, ¬ (st.cursor.val ≤ a.val ∧ a.val < st.cursor.val + mat) →
        st'.memory.view a = st.memory.view a := by
  rw [matSizeVals_plain vs ts xs hp hx, Option.some.injEq] at hm
  subst hm
  obtain ⟨ws, m', h1, h2, h3, _, _⟩ := (encodeZip_good vs ts st xs hx hroom).out
  have hP : P = 2147483647 := rfl
  exact ⟨ws, _, h1, val_add_ofU32 _ _ (by omega), h3⟩

/-- C23: and the sizing function does reserve a size (it does not panic) for well-typed values. -/
theorem C23_sized_partial (vs : List InputValue) (ts : List AbiType) (xs : List CairoMValue)
    (hx : denoteZip vs ts = some xs) (hp : AllPlain ts) : ∃ mat, matSizeVals vs ts = some mat :=
  ⟨_, matSizeVals_plain vs ts xs hp hx⟩

/-- The parameter `[*felt; 2]` (array of two pointers to two felts). -/
def nestedParam : List AbiType := [.array (.pointer .felt (some 2)) 2]

/-- The argument `[[1, 2], [3, 4]]`. -/
def nestedArg : List InputValue := [.list [.list [.number 1, .number 2], .list [.number 3, .number 4]]]

/-- C23 violated: for an array of pointers, two cells are reserved and six are written. In the prepared VM the
argument slot and the saved registers have overwritten the second row: it reads `[5, 6]` instead of `[3, 4]`. -/
theorem C23_violated :
    matSizeVals nestedArg nestedParam = some 2 ∧ cellsZip nestedArg nestedParam = 6 ∧
    (match encodeArgs (VM.load retProgram) ⟨0, nestedParam, []⟩ nestedArg with
      | .ok (vm, _, _) => some ((vm.memory.locals.map QM31.l0).take 5)
      | .error _ => none) = some [11, 1, 2, 3, 4] ∧
    (match prepare retProgram ⟨0, nestedParam, []⟩ nestedArg with
      | .ok vm => some ((vm.memory.locals.map QM31.l0).take 5)
      | .error _ => none) = some [11, 1, 2, 5, 6] := by
  refine ⟨by decide, by decide, by decide, by decide⟩

/-- An array argument of the wrong length makes the sizing function panic before any error is returned. -/
theorem C23_length_mismatch_panics (vs : List InputValue) (e : AbiType) (n : ℕ) (h : vs.length ≠ n)
    (prog : List ProgramData) (pc : ℕ) (rets : List AbiType) :
    prepare prog ⟨pc, [.array e n], rets⟩ [.list vs] = .error .panic := by
  simp [prepare, encodeArgs, matSizeVals, matSizeVal, Ne.symm h]

/-- Hypotheses of C23 are met by nested arrays. -/
example : AllPlain [.pointer (.array .u32 2) none] ∧
    (denoteZip [.list [.list [.number 7, .number 8]]] [.pointer (.array .u32 2) none]).isSome ∧
    matSizeVals [.list [.list [.number 7, .number 8]]] [.pointer (.array .u32 2) none] = some 5 := by
  refine ⟨by simp [AllPlain, Plain, NoPtr], by decide, by decide⟩

/-! ### C24 -/

/-- Membership in a half-open range. -/
def InRange (a : ℕ) (r : ℕ × ℕ) : Prop := r.1 ≤ a ∧ a < r.2

/-- C24: the three ranges follow each other from address 0 and have the stated lengths. -/
theorem C24_consecutive (l m k : ℕ) :
    let r := PublicAddressRanges.new l m k
    r.program.1 = 0 ∧ r.program.2 = r.input.1 ∧ r.input.2 = r.output.1 ∧
      r.program.2 - r.program.1 = l ∧ r.input.2 - r.input.1 = m ∧ r.output.2 - r.output.1 = k ∧
      r.output.2 = l + m + k := by
  dsimp only [PublicAddressRanges.new]
  refine ⟨rfl, rfl, rfl, by omega, by omega, by omega, rfl⟩

/-- C24: every address below the end is in exactly one range, no other address is in any. -/
theorem C24_partition (l m k a : ℕ) :
    let r := PublicAddressRanges.new l m k
    (a < l + m + k ↔ InRange a r.program ∨ InRange a r.input ∨ InRange a r.output) ∧
      ¬ (InRange a r.program ∧ InRange a r.input) ∧ ¬ (InRange a r.program ∧ InRange a r.output) ∧
      ¬ (InRange a r.input ∧ InRange a r.output) := by
  simp only [PublicAddressRanges.new, InRange]
  omega

example : PublicAddressRanges.new 10 3 2 = ⟨(0, 10), (10, 13), (13, 15)⟩ := rfl

/-! ### C22 -/

theorem sub_ofU32 (c : M31) (i j : ℕ) (h : j ≤ i) :
    c - M31.ofU32 (i - j) = c - M31.ofU32 i + M31.ofU32 j := by
  unfold M31.ofU32
  rw [Nat.cast_sub h]
  ring

theorem val_sub_ofU32 (c : M31) (i : ℕ) (h : i ≤ c.val) : (c - M31.ofU32 i).val = c.val - i := by
  have hi : (M31.ofU32 i).val = i := M31.ofU32_val_of_lt (lt_of_le_of_lt h (ZMod.val_lt c))
  rw [ZMod.val_sub (by rw [hi]; exact h), hi]

theorem writeArgs_ok (newFp : M31) (total : ℕ) (args : List M31) : ∀ (i : ℕ) (m : Memory),
    i + args.length ≤ total → total + 2 ≤ newFp.val → newFp.val ≤ 2 ^ 28 →
    ∃ m', VM.writeArgs newFp total i args m = .ok () m' ∧
      (∀ j (hj : j < args.length),
        m'.view (newFp - M31.ofU32 (total + 2 - (i + j))) = QM31.ofM31 args[j]) ∧
      (∀ a : M31, ¬ (newFp.val - (total + 2) + i ≤ a.val ∧ a.val < newFp.val - (total + 2) + i + args.length) →
        m'.view a = m.view a) ∧
      (Low m → newFp.val ≤ 2 ^ 27 → Low m') := by
  induction args with
  | nil => intro i m _ _ _; exact ⟨m, rfl, fun j hj => absurd hj (by simp), fun _ _ => rfl, fun h _ => h⟩
  | cons w ws ih =>
    intro i m hi hfp hmax
    simp only [List.length_cons] at hi
    have hval : (newFp - M31.ofU32 (total + 2 - i)).val = newFp.val - (total + 2 - i) :=
      val_sub_ofU32 _ _ (by omega)
    have hok : (newFp - M31.ofU32 (total + 2 - i)).val ≤ MAX_ADDRESS := by
      rw [hval]; unfold MAX_ADDRESS; omega
    obtain ⟨m', h1, h2, h3, h4⟩ := ih (i + 1)
      (m.store (newFp - M31.ofU32 (total + 2 - i)) (QM31.ofM31 w)) (by omega) hfp hmax
    refine ⟨m', ?_, ?_, ?_, ?_⟩
    · unfold VM.writeArgs
      have he := Memory.insertNoTrace_eq (newFp - M31.ofU32 (total + 2 - i)) (QM31.ofM31 w) m
      rw [if_pos hok] at he
      rw [bind_ok he]
      exact h1
    · intro j hj
      cases j with
      | zero =>
        show m'.view (newFp - M31.ofU32 (total + 2 - i)) = QM31.ofM31 w
        rw [h3 _ (by rw [hval]; omega), Memory.view_store _ _ _ _ hok, if_pos rfl]
      | succ j =>
        have := h2 j (by simpa using hj)
        rw [show i + (j + 1) = i + 1 + j by omega, this]
        simp
    · intro a ha
      simp only [List.length_cons] at ha
      rw [h3 a (by omega), Memory.view_store _ _ _ _ hok, if_neg]
      rintro rfl
      rw [hval] at ha
      omega
    · intro hl hb
      exact h4 (hl.store (by rw [hval]; omega) _) hb

theorem insertEntrypointCall_ok (finalPc fp : M31) (m : Memory) (hl : Low m) (h2 : 2 ≤ fp.val)
    (hmax : fp.val ≤ 2 ^ 27) :
    ∃ m', Memory.insertEntrypointCall finalPc fp m = .ok () m' ∧
      m'.view (fp - 2) = QM31.ofM31 fp ∧ m'.view (fp - 1) = QM31.ofM31 finalPc ∧
      (∀ a : M31, a ≠ fp - 2 → a ≠ fp - 1 → m'.view a = m.view a) ∧ Low m' := by
  have e2 : (fp - 2).val = fp.val - 2 := val_sub_ofU32 fp 2 h2
  have e1 : (fp - 1).val = fp.val - 1 := by
    have := val_sub_ofU32 fp 1 (by omega)
    simpa [M31.ofU32] using this
  have v2 : (fp - 2).val ≤ MAX_ADDRESS := by rw [e2]; unfold MAX_ADDRESS; omega
  have v1 : (fp - 1).val ≤ MAX_ADDRESS := by rw [e1]; unfold MAX_ADDRESS; omega
  unfold Memory.insertEntrypointCall
  rw [bind_ok (Memory.validateAddress_ok v2), bind_ok (Memory.validateAddress_ok v1)]
  refine ⟨_, rfl, ?_⟩
  set l := if (fp - 1).val ≥ m.locals.length then Memory.resize m.locals ((fp - 1).val + 1) else m.locals with hldef
  have hlen : fp.val ≤ l.length := by
    rw [hldef]; split_ifs with h
    · rw [Memory.length_resize]; omega
    · omega
  have hlen2 : l.length ≤ 2 ^ 27 := by
    have := hl.2
    rw [hldef]; split_ifs with h
    · rw [Memory.length_resize]; omega
    · omega
  have hget : ∀ i : ℕ, (l[i]?).getD QM31.zero = (m.locals[i]?).getD QM31.zero := by
    intro i
    rw [hldef]; split_ifs with h
    · rw [Memory.getElem?_resize]
      split_ifs with c1 c2
      · rfl
      · rw [List.getElem?_eq_none (by omega)]; rfl
      · rw [List.getElem?_eq_none (by omega)]
    · rfl
  have hheap := hl.1
  refine ⟨?_, ?_, ?_, ?_⟩
  · unfold Memory.view
    rw [if_pos v2]
    dsimp only
    rw [List.getElem?_set_ne (by omega), List.getElem?_set_self (by omega)]
    rfl
  · unfold Memory.view
    rw [if_pos v1]
    dsimp only
    rw [List.getElem?_set_self (by rw [List.length_set]; omega)]
    rfl
  · intro a ha2 ha1
    unfold Memory.view
    dsimp only
    rw [hheap]
    have n2 : (fp - 2).val ≠ a.val := fun h => ha2 (ZMod.val_injective _ h.symm)
    have n1 : (fp - 1).val ≠ a.val := fun h => ha1 (ZMod.val_injective _ h.symm)
    rw [List.getElem?_set_ne n1, List.getElem?_set_ne n2]
    simp only [List.getElem?_nil, Option.or_none]
    rw [hget]
  · exact ⟨hheap, by simpa using hlen2⟩

/-- C22: the state of the machine when the first instruction of the entry point runs. With `M` argument words
and `K` return words, the frame is `fp' = fp + fpOffset`; argument `j` is at `fp' - M - K - 2 + j` (where compiled
code reads it, see `C54_layout` in `Verif.LayoutProps`), the saved frame pointer at `fp' - 2`, the return
address at `fp' - 1`, and nothing else changed; the `K` return slots `[fp' - K - 2, fp' - 2)` are between. -/
theorem C22_entry (vm : VM) (hlow : Low vm.memory) (pcEntry fpOffset numRet : ℕ) (args : List M31)
    (hoff : args.length + numRet + 2 ≤ fpOffset) (hmax : vm.state.fp.val + fpOffset ≤ 2 ^ 27) :
    ∃ vm0, vm.setupEntrypoint pcEntry fpOffset args numRet = .ok vm0 ∧
      vm0.state = ⟨M31.ofU32 pcEntry, vm.state.fp + M31.ofU32 fpOffset⟩ ∧
      vm0.state.fp.val = vm.state.fp.val + fpOffset ∧
      (∀ j (hj : j < args.length),
        vm0.memory.view (vm0.state.fp - M31.ofU32 (args.length + numRet + 2) + M31.ofU32 j) =
          QM31.ofM31 args[j]) ∧
      vm0.memory.view (vm0.state.fp - 2) = QM31.ofM31 vm0.state.fp ∧
      vm0.memory.view (vm0.state.fp - 1) = QM31.ofM31 vm.finalPc ∧
      (∀ a : M31, ¬ (vm0.state.fp.val - (args.length + numRet + 2) ≤ a.val ∧ a.val < vm0.state.fp.val - (numRet + 2)) →
        ¬ (vm0.state.fp.val - 2 ≤ a.val ∧ a.val < vm0.state.fp.val) →
        vm0.memory.view a = vm.memory.view a) ∧
      Low vm0.memory := by
  set newFp := vm.state.fp + M31.ofU32 fpOffset with hfp
  have hP : P = 2147483647 := rfl
  have hv : newFp.val = vm.state.fp.val + fpOffset := val_add_ofU32 _ _ (by omega)
  obtain ⟨m1, h1, h2, h3, h4⟩ := writeArgs_ok newFp (args.length + numRet) args 0 vm.memory (by omega)
    (by omega) (by omega)
  obtain ⟨m2, g1, g2, g3, g4, g5⟩ := insertEntrypointCall_ok vm.finalPc newFp m1 (h4 hlow (by omega))
    (by omega) (by omega)
  have e2 : (newFp - 2).val = newFp.val - 2 := val_sub_ofU32 newFp 2 (by omega)
  have e1 : (newFp - 1).val = newFp.val - 1 := by
    have := val_sub_ofU32 newFp 1 (by omega)
    simpa [M31.ofU32] using this
  refine ⟨{ vm with memory := m2, state := ⟨M31.ofU32 pcEntry, newFp⟩,
                    initialLocals := m2.locals, initialHeap := m2.heap }, ?_, rfl, hv, ?_, g2, g3, ?_, g5⟩
  · unfold VM.setupEntrypoint
    dsimp only
    rw [← hfp, bind_ok h1, g1]
  · intro j hj
    dsimp only
    have hval : (newFp - M31.ofU32 (args.length + numRet + 2 - j)).val =
        newFp.val - (args.length + numRet + 2 - j) := val_sub_ofU32 _ _ (by omega)
    have := h2 j hj
    rw [Nat.zero_add] at this
    rw [← sub_ofU32 _ _ _ (by omega), g4 _ ?_ ?_, this]
    · intro h; rw [h, e2] at hval; omega
    · intro h; rw [h, e1] at hval; omega
  · intro a ha hb
    dsimp only at ha hb ⊢
    rw [g4 a ?_ ?_, h3 a (by omega)]
    · rintro rfl; rw [e2] at hb; omega
    · rintro rfl; rw [e1] at hb; omega

/-- C22 with the whole call prepared from command-line values: the entry point runs with the denoted values
at its parameters. `L` is the program length. (`AllPlain` excludes the sizing bug `C23_violated`.) -/
theorem C22_arguments (prog : List ProgramData) (entry : Entry) (args : List InputValue)
    (xs : List CairoMValue) (hx : denoteZip args entry.params = some xs) (hs : AllSized entry.params)
    (hp : AllPlain entry.params) (mat : ℕ) (hm : matSizeVals args entry.params = some mat)
    (hroom : (prog.flatMap ProgramData.words).length + mat + callSlotSizes entry.params +
      callSlotSizes entry.returns + 2 ≤ 2 ^ 27) :
    ∃ vm0, prepare prog entry args = .ok vm0 ∧ vm0.state.pc = M31.ofU32 entry.pc ∧
      vm0.state.fp.val = (prog.flatMap ProgramData.words).length + mat + callSlotSizes entry.params +
        callSlotSizes entry.returns + 2 ∧
      decodeTuple vm0.memory entry.params (memReader vm0.memory
          (vm0.state.fp - M31.ofU32 (callSlotSizes entry.params + callSlotSizes entry.returns + 2))) 0 =
        .ok (xs, callSlotSizes entry.params) ∧
      (∀ i (hi : i < (prog.flatMap ProgramData.words).length),
        vm0.memory.view (M31.ofU32 i) = (prog.flatMap ProgramData.words)[i]) ∧
      vm0.memory.WF ∧ Fresh vm0 ∧ Low vm0.memory ∧ vm0.finalPc = M31.ofU32 (prog.flatMap ProgramData.words).length ∧
      vm0.memory.view (vm0.state.fp - 2) = QM31.ofM31 vm0.state.fp ∧
      vm0.memory.view (vm0.state.fp - 1) = QM31.ofM31 vm0.finalPc := by
  rw [matSizeVals_plain args entry.params xs hp hx, Option.some.injEq] at hm
  have hP : P = 2147483647 := rfl
  set L := (prog.flatMap ProgramData.words).length with hL
  have hfp0 : (VM.load prog).state.fp.val = L := by
    show (M31.ofU32 _).val = _
    rw [M31.ofU32_val_of_lt (by rw [← hL]; omega)]
  obtain ⟨ws, m', h1, h2, h3, h4, h5⟩ := (encodeZip_good args entry.params
    ⟨(VM.load prog).memory, (VM.load prog).state.fp⟩ xs hx (by
      show (VM.load prog).state.fp.val + _ ≤ _; rw [hfp0, hm]; omega)).out
  dsimp only at h3 h4 h5
  rw [hfp0, hm] at h3 h4 h5
  have hlow : Low m' := h4 ⟨rfl, by show L ≤ 2 ^ 27; omega⟩ (by omega)
  obtain ⟨vm0, g1, g2, g3, g4, g5, g6, g7, g8⟩ := C22_entry { VM.load prog with memory := m' } hlow entry.pc
    (mat + callSlotSizes entry.params + callSlotSizes entry.returns + 2) (callSlotSizes entry.returns) ws
    (by omega) (by show (VM.load prog).state.fp.val + _ ≤ _; rw [hfp0]; omega)
  dsimp only at g2 g3
  rw [hfp0] at g3
  have henc : encodeArgs (VM.load prog) entry args = .ok ({ VM.load prog with memory := m' },
      mat + callSlotSizes entry.params + callSlotSizes entry.returns + 2, ws) := by
    unfold encodeArgs
    rw [if_neg (by have := denoteZip_length args entry.params xs hx; omega),
      matSizeVals_plain args entry.params xs hp hx, hm, h1]
  have hfresh := setup_fresh (vm := { VM.load prog with memory := m' }) ⟨rfl, by
    exact (encodeZip_trace args entry.params _ _ h1).trans rfl, rfl⟩ g1
  refine ⟨vm0, ?_, by rw [g2], by rw [g3]; omega, ?_, ?_, g8.wf, hfresh.1, g8, hfresh.2.2, g5, ?_⟩
  · unfold prepare
    rw [henc]
    dsimp only
    rw [g1]
  · have hbase : (vm0.state.fp - M31.ofU32 (callSlotSizes entry.params + callSlotSizes entry.returns + 2)).val
        = L + mat := by
      rw [val_sub_ofU32 _ _ (by omega)]; omega
    rw [h5 vm0.memory ?_ hs, h2]
    · intro i hi
      refine memReader_ok (by rw [hbase]; omega) ?_
      have := g4 i hi
      rw [Nat.zero_add, ← this, h2]
    · intro a ha1 ha2
      rw [g7 a (by rw [h2]; omega) (by omega)]
  · intro i hi
    have hv : (M31.ofU32 i).val = i := M31.ofU32_val_of_lt (by omega)
    rw [g7 _ (by rw [hv, h2]; omega) (by rw [hv]; omega)]
    show m'.view _ = _
    rw [h3 _ (by rw [hv]; omega)]
    show (Memory.ofWords _).view _ = _
    unfold Memory.view Memory.ofWords
    rw [if_pos (by rw [hv]; unfold MAX_ADDRESS; omega), hv]
    dsimp only
    rw [List.getElem?_eq_getElem hi]
    rfl
  · rw [g6, hfresh.2.2]

/-- A call of `f(a: [u32; 2], b: bool) -> felt` on a one-instruction program meets the hypotheses. -/
example : ∃ xs mat, denoteZip [.list [.number 70000, .number 1], .bool true] [.array .u32 2, .bool] = some xs ∧
    AllSized [.array .u32 2, .bool] ∧ AllPlain [.array .u32 2, .bool] ∧
    matSizeVals [.list [.number 70000, .number 1], .bool true] [.array .u32 2, .bool] = some mat ∧
    (retProgram.flatMap ProgramData.words).length + mat + callSlotSizes [.array .u32 2, .bool] +
      callSlotSizes [.felt] + 2 ≤ 2 ^ 27 := by
  refine ⟨_, 4, rfl, by simp [AllSized, Sized], by simp [AllPlain, Plain, NoPtr], by decide, by decide⟩

/-- C22 fails for frames in the upper half of the address space: the argument is written to the upper region
and then hidden by the lower region, which is extended up to the frame. Frame at `2^28 - 16`, one argument, which
reads as zero whatever its value. -/
theorem C22_large_frame_violated (x : M31) :
    ∃ vm0, (VM.load []).setupEntrypoint 0 (2 ^ 28 - 16) [x] 0 = .ok vm0 ∧
      vm0.memory.view (vm0.state.fp - M31.ofU32 3) = QM31.zero := by
  set fp : M31 := (VM.load []).state.fp + M31.ofU32 (2 ^ 28 - 16) with hfp
  have hP : P = 2147483647 := rfl
  have h0 : (VM.load []).state.fp.val = 0 := rfl
  have hv : fp.val = 2 ^ 28 - 16 := by rw [hfp, val_add_ofU32 _ _ (by rw [h0]; omega), h0]; omega
  have v3 : (fp - M31.ofU32 3).val = 2 ^ 28 - 19 := by rw [val_sub_ofU32 _ _ (by omega)]; omega
  have v2 : (fp - 2).val = 2 ^ 28 - 18 := by
    have := val_sub_ofU32 fp 2 (by omega)
    simp only [M31.ofU32, Nat.cast_ofNat] at this
    omega
  have v1 : (fp - 1).val = 2 ^ 28 - 17 := by
    have := val_sub_ofU32 fp 1 (by omega)
    simp only [M31.ofU32, Nat.cast_one] at this
    omega
  have hM : MAX_ADDRESS = 2 ^ 28 - 1 := rfl
  set m1 := (VM.load []).memory.store (fp - M31.ofU32 3) (QM31.ofM31 x) with hm1
  have hlocals : m1.locals = [] := by
    rw [hm1]
    unfold Memory.store
    dsimp only
    have e1 : (VM.load []).memory.locals = [] := rfl
    have e2 : (VM.load []).memory.heap = [] := rfl
    rw [e1, e2, if_neg (by simp), if_neg (by simp), if_neg (by rw [v3]; simp; omega)]
  have hw : VM.writeArgs fp 1 0 [x] (VM.load []).memory = .ok () m1 := by
    unfold VM.writeArgs
    have he := Memory.insertNoTrace_eq (fp - M31.ofU32 3) (QM31.ofM31 x) (VM.load []).memory
    rw [if_pos (by omega)] at he
    rw [show 1 + 2 - 0 = 3 by norm_num, bind_ok he]
    rfl
  unfold VM.setupEntrypoint
  dsimp only
  rw [← hfp, List.length_singleton, Nat.add_zero, bind_ok hw]
  unfold Memory.insertEntrypointCall
  rw [bind_ok (Memory.validateAddress_ok (by omega)), bind_ok (Memory.validateAddress_ok (by omega))]
  refine ⟨_, rfl, ?_⟩
  dsimp only
  unfold Memory.view
  rw [if_pos (by omega), hlocals, if_pos (by simp)]
  rw [List.getElem?_set_ne (by omega), List.getElem?_set_ne (by omega), Memory.getElem?_resize,
    if_neg (by simp), if_pos (by omega)]
  rfl

/-! ### C59: the published input range -/

/-- C59, proved part: when no argument is an array or pointer (nothing is materialised), the published input range
is exactly where the argument words are, and the output range is where the return slots are read back (when the
program returns with the frame it was called with). Missing: array arguments, where it is false
(`C59_violated`). -/
theorem C59_public_ranges_partial (L M K : ℕ) (fp : M31) (hfp : fp.val = L + 0 + M + K + 2) (j : ℕ) :
    let r := PublicAddressRanges.new L M K
    (j < M → (fp - M31.ofU32 (M + K + 2) + M31.ofU32 j).val = r.input.1 + j) ∧
    (j < K → (fp - M31.ofU32 (K + 2 - j)).val = r.output.1 + j) := by
  dsimp only [PublicAddressRanges.new]
  constructor
  · intro hj
    rw [← sub_ofU32 _ _ _ (by omega), val_sub_ofU32 _ _ (by omega)]
    omega
  · intro hj
    rw [val_sub_ofU32 _ _ (by omega)]
    omega

/-- C59 violated: with the argument `[7, 8] : [felt; 2]` the published input range is `[1, 2)`, which holds the first
element `7` of the array; the argument word (the pointer `1`) is at address 3. The output range `[2, 3)` holds the
second element and the return slot is at address 4. -/
theorem C59_violated :
    (match prepare retProgram ⟨0, [.array .felt 2], [.felt]⟩ [.list [.number 7, .number 8]] with
      | .ok vm => some (vm.memory.locals.map QM31.l0, vm.state.fp)
      | .error _ => none) = some ([11, 7, 8, 1, 0, 7, 1], 7) ∧
    (match runCairoProgram 5 10 retProgram ⟨0, [.array .felt 2], [.felt]⟩ [.list [.number 7, .number 8]] with
      | some (.ok out) => some (out.ranges, out.vm.state.fp)
      | _ => none) = some (⟨(0, 1), (1, 2), (2, 3)⟩, 7) := by
  refine ⟨by decide +kernel, by decide +kernel⟩

/-! ### C14 for whole program runs -/

/-- The same error, or the same return values, public ranges, final registers and final memory. -/
def SameOutput : Except RunErr Output → Except RunErr Output → Prop
  | .error e1, .error e2 => e1 = e2
  | .ok o1, .ok o2 => o1.returnValues = o2.returnValues ∧ o1.ranges = o2.ranges ∧
      o1.vm.state = o2.vm.state ∧ o1.vm.memory = o2.vm.memory
  | _, _ => False

theorem step_programLength {vm vm' : VM} (h : vm.step = .ok vm') : vm'.programLength = vm.programLength := by
  unfold VM.step at h
  split at h
  · cases h
  · split at h
    · cases h
    · split at h
      · cases h
      · injection h with h; rw [← h]

theorem executeLoop_programLength : ∀ (n : ℕ) (vm vm' : VM), VM.executeLoop n vm = .ok vm' →
    vm'.programLength = vm.programLength := by
  intro n
  induction n with
  | zero => intro vm vm' h; injection h with h; rw [h]
  | succ n ih =>
    intro vm vm' h
    unfold VM.executeLoop at h
    split_ifs at h
    · injection h with h; rw [h]
    · cases hs : vm.step with
      | error e => rw [hs] at h; cases h
      | ok w =>
        rw [hs] at h
        rw [ih _ _ h, step_programLength hs]

theorem execute_programLength {k : ℕ} {vm : VM} {r : VM.Status × VM} (h : vm.execute k = .ok r) :
    r.2.programLength = vm.programLength := by
  unfold VM.execute at h
  split_ifs at h
  · injection h with h; rw [← h]
  · cases hl : VM.executeLoop (k - vm.trace.length) vm with
    | error e => rw [hl] at h; cases h
    | ok w =>
      rw [hl] at h
      injection h with h
      have := executeLoop_programLength _ _ _ hl
      rw [← h]
      exact this

theorem segmentLoop_programLength {k : ℕ} : ∀ (fuel : ℕ) (vm v : VM), VM.segmentLoop k fuel vm = some (.ok v) →
    v.programLength = vm.programLength := by
  intro fuel
  induction fuel with
  | zero => intro vm v h; cases h
  | succ fuel ih =>
    intro vm v h
    unfold VM.segmentLoop at h
    cases he : vm.execute k with
    | error e => rw [he] at h; cases h
    | ok r =>
      have hp := execute_programLength he
      obtain ⟨st, w⟩ := r
      rw [he] at h
      cases st with
      | complete => injection h with h; injection h with h; rw [← h]; exact hp
      | ongoing => exact (ih _ _ h).trans hp

theorem segmentLoop_log {k : ℕ} : ∀ (fuel : ℕ) (vm v : VM), VM.segmentLoop k fuel vm = some (.ok v) →
    v.memory.trace = [] := by
  intro fuel
  induction fuel with
  | zero => intro vm v h; cases h
  | succ fuel ih =>
    intro vm v h
    unfold VM.segmentLoop at h
    cases he : vm.execute k with
    | error e => rw [he] at h; cases h
    | ok r =>
      obtain ⟨st, w⟩ := r
      rw [he] at h
      cases st with
      | complete => injection h with h; injection h with h; rw [← h]; rfl
      | ongoing => exact ih _ _ h

/-- C14 at the level of `run_cairo_program`: two runs with different (positive) step limits give the same error
or the same return values, public ranges, final registers and memory. -/
theorem C14_program_limits_agree (prog : List ProgramData) (entry : Entry) (args : List InputValue)
    (k1 k2 : ℕ) (hk1 : 1 ≤ k1) (hk2 : 1 ≤ k2) (fuel1 : ℕ) (r1 : Except RunErr Output)
    (h1 : runCairoProgram fuel1 k1 prog entry args = some r1) :
    ∃ fuel2 r2, runCairoProgram fuel2 k2 prog entry args = some r2 ∧
      SameOutput r1 r2 := by
  unfold runCairoProgram at h1 ⊢
  cases he : encodeArgs (VM.load prog) entry args with
  | error e =>
    rw [he] at h1
    injection h1 with h1
    subst h1
    exact ⟨0, .error e, rfl, rfl⟩
  | ok x =>
    obtain ⟨vm, fpOffset, ws⟩ := x
    rw [he] at h1
    dsimp only at h1 ⊢
    -- the VM is idle, with the program length of the loaded one
    have hidle : Idle vm := by
      unfold encodeArgs at he
      split_ifs at he
      cases hm : matSizeVals args entry.params with
      | none => rw [hm] at he; cases he
      | some mat =>
        rw [hm] at he
        dsimp only at he
        cases hz : encodeZip args entry.params ⟨(VM.load prog).memory, (VM.load prog).state.fp⟩ with
        | error e => rw [hz] at he; cases he
        | ok y =>
          obtain ⟨ws', st⟩ := y
          rw [hz] at he
          injection he with he
          injection he with he _
          rw [← he]
          exact ⟨rfl, (encodeZip_trace _ _ _ _ hz).trans rfl, rfl⟩
    cases hr : vm.runFromEntrypoint fuel1 k1 entry.pc fpOffset ws (callSlotSizes entry.returns) with
    | none => rw [hr] at h1; cases h1
    | some q =>
      rw [hr] at h1
      obtain ⟨fuel2, q2, hq2, hsame⟩ := C14_limits_agree vm hidle entry.pc fpOffset _ ws k1 k2 hk1 hk2 fuel1 q hr
      refine ⟨fuel2, ?_⟩
      rw [hq2]
      cases q with
      | error e =>
        cases q2 with
        | ok _ => exact absurd hsame id
        | error e2 =>
          have : e = e2 := hsame
          subst this
          injection h1 with h1
          subst h1
          exact ⟨_, rfl, rfl⟩
      | ok v1 =>
        cases q2 with
        | error _ => exact absurd hsame id
        | ok v2 =>
          obtain ⟨s1, s2, s3, _, _⟩ := hsame
          have hlog : ∀ {fuel k v}, vm.runFromEntrypoint fuel k entry.pc fpOffset ws
              (callSlotSizes entry.returns) = some (.ok v) →
              v.memory.trace = [] ∧ v.programLength = vm.programLength := by
            intro fuel k v h
            unfold VM.runFromEntrypoint at h
            cases hs : vm.setupEntrypoint entry.pc fpOffset ws (callSlotSizes entry.returns) with
            | error e => rw [hs] at h; cases h
            | ok vm0 =>
              rw [hs] at h
              refine ⟨segmentLoop_log _ _ _ h, ?_⟩
              rw [segmentLoop_programLength _ _ _ h]
              unfold VM.setupEntrypoint at hs
              dsimp only at hs
              split at hs
              · cases hs
              · injection hs with hs; rw [← hs]
          have hmem : v1.memory = v2.memory := by
            have a := (hlog hr).1
            have b := (hlog hq2).1
            cases hv1 : v1.memory with
            | mk l1 hp1 t1 =>
              cases hv2 : v2.memory with
              | mk l2 hp2 t2 =>
                rw [hv1] at a s2 s3
                rw [hv2] at b s2 s3
                dsimp only at a b s2 s3
                subst a b s2 s3
                rfl
          have hpl : v1.programLength = v2.programLength := ((hlog hr).2).trans ((hlog hq2).2).symm
          dsimp only at h1 ⊢
          rw [← hmem, ← s1]
          cases hf : readFrame v1.memory v1.state.fp (callSlotSizes entry.returns)
              (callSlotSizes entry.returns) with
          | error e =>
            rw [hf] at h1
            injection h1 with h1
            subst h1
            exact ⟨_, rfl, rfl⟩
          | ok frame =>
            rw [hf] at h1
            dsimp only at h1 ⊢
            cases hd : decodeReturns v1.memory entry.returns frame with
            | error e =>
              rw [hd] at h1
              injection h1 with h1
              subst h1
              exact ⟨_, rfl, rfl⟩
            | ok xs =>
              rw [hd] at h1
              injection h1 with h1
              subst h1
              exact ⟨_, rfl, rfl, by dsimp only; rw [hpl], s1, hmem⟩

end Abi
end CairoM
