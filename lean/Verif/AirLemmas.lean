import Verif.AirSpec
import Verif.AirFelt
import Verif.AirU32
import Verif.StepLemmas

/-!
# Lemmas for the opcode circuits
-/

namespace CairoM
namespace Air

open Isa

theorem val_of_lt {n : ℕ} (h : n < P) : ((n : M31)).val = n := ZMod.val_natCast_of_lt h

theorem done_of {reads : List M31} {writes : List (M31 × M31)} {pc fp : M31} (h : ∀ w ∈ writes, InRange w.1) :
    done reads writes pc fp = some ⟨reads, writes, pc, fp⟩ := by
  unfold done; rw [if_pos h]

theorem felt_of {mem : Mem} {a v : M31} (h : InRange a ∧ mem a = ⟨v, 0, 0, 0⟩) : felt mem a = some v := by
  unfold felt; rw [h.2]; rw [if_pos ⟨h.1, rfl, rfl, rfl⟩]

theorem ofLimbs_of {lo hi : M31} (hl : lo.val < 2 ^ 16) (hh : hi.val < 2 ^ 16) :
    ofLimbs lo hi = some (lo.val + 2 ^ 16 * hi.val) := by
  unfold ofLimbs; rw [if_pos ⟨hl, hh⟩]

theorem u32_of {mem : Mem} {a lo hi : M31} (h0 : InRange a ∧ mem a = ⟨lo, 0, 0, 0⟩)
    (h1 : InRange (a + 1) ∧ mem (a + 1) = ⟨hi, 0, 0, 0⟩) (hl : lo.val < 2 ^ 16) (hh : hi.val < 2 ^ 16) :
    u32 mem a = some (lo.val + 2 ^ 16 * hi.val) := by
  unfold u32; rw [felt_of h0, felt_of h1]; exact ofLimbs_of hl hh

theorem split_of {a lo hi : M31} {n : ℕ} (hl : lo.val < 2 ^ 16) (h : n = lo.val + 2 ^ 16 * hi.val) :
    split a n = [(a, lo), (a + 1, hi)] := by
  have h0 : n % 2 ^ 16 = lo.val := by omega
  have h1 : n / 2 ^ 16 = hi.val := by omega
  unfold split; rw [h0, h1, ZMod.natCast_zmod_val, ZMod.natCast_zmod_val]

theorem bool_of {x : M31} (h : x * (1 - x) = 0) : x = 0 ∨ x = 1 := by
  rcases mul_eq_zero.1 h with h | h
  · exact .inl h
  · exact .inr (sub_eq_zero.1 h).symm

theorem neg_one_ne : (-1 : M31) ≠ 0 := by decide

theorem tableHolds_rc8 {v : M31} (h : Entry.TableHolds ⟨.rc8, -1, [v]⟩) : v.val < 2 ^ 8 :=
  h neg_one_ne v (by simp)

theorem tableHolds_rc16 {v : M31} (h : Entry.TableHolds ⟨.rc16, -1, [v]⟩) : v.val < 2 ^ 16 :=
  h neg_one_ne v (by simp)

theorem tableHolds_rc20 {v : M31} (h : Entry.TableHolds ⟨.rc20, -1, [v]⟩) : v.val < 2 ^ 20 :=
  h neg_one_ne v (by simp)

theorem stored_one {mem : Mem} {pc : M31} {w : QM31} (i : Instruction) (h : mem pc = w) (hl : i.encode.length ≤ 4)
    (he : w.limbs.take i.encode.length = i.encode) : Stored mem pc i ∧ fetchLog mem pc i = [⟨pc, w⟩] := by
  constructor
  · unfold Stored
    rw [h, List.take_append_of_le_length (by simpa [QM31.limbs] using hl), he]
  · simp [fetchLog, codeCells, hl, h]

theorem stored_two {mem : Mem} {pc : M31} {w w' : QM31} (i : Instruction) (h : mem pc = w) (h' : mem (pc + 1) = w')
    (hl : 4 < i.encode.length) (he : (w.limbs ++ w'.limbs).take i.encode.length = i.encode) :
    Stored mem pc i ∧ fetchLog mem pc i = [⟨pc, w⟩, ⟨pc + 1, w'⟩] := by
  constructor
  · unfold Stored
    rw [h, h', he]
  · have : ¬ i.encode.length ≤ 4 := by omega
    simp [fetchLog, codeCells, this, h, h']

theorem executes_of {pc fp pc' fp' : M31} {accs : List Access} (i : Instruction) (e : Effect) (hpc : pc' = e.pc)
    (hfp : fp' = e.fp)
    (H : ∀ mem : Mem, (∀ a ∈ accs, InRange a.addr ∧ mem a.addr = a.prev) →
      ∃ f, (Stored mem pc i ∧ fetchLog mem pc i = f) ∧ sem i pc fp mem = some e ∧
        (accs.map fun a => (⟨a.addr, a.new⟩ : MemoryEntry)).Perm (f ++ e.log mem)) :
    Executes pc fp pc' fp' accs := by
  intro mem hm
  obtain ⟨f, ⟨hst, rfl⟩, hsem, hperm⟩ := H mem hm
  exact ⟨i, e, hst, hsem, hpc, hfp, hperm⟩

/-- At most one instruction is stored at an address. -/
theorem stored_unique {mem : Mem} {pc : M31} {i j : Instruction} (hi : Stored mem pc i) (hj : Stored mem pc j) :
    i = j := by
  have h1 := sizeTable_of_stored hi
  rw [sizeTable_of_stored hj] at h1
  have hl : i.encode.length = j.encode.length := by simpa using h1.symm
  unfold Stored at hi hj
  have he : i.encode = j.encode := by rw [← hi, ← hj, hl]
  have := Instruction.decode_encode i
  rw [he, Instruction.decode_encode j] at this
  simpa using this.symm

theorem entries_inj {clock : M31} {xs ys : List Access}
    (h : xs.flatMap (Access.entries clock) = ys.flatMap (Access.entries clock)) : xs = ys := by
  induction xs generalizing ys with
  | nil => cases ys with
    | nil => rfl
    | cons y ys => simp [Access.entries] at h
  | cons x xs ih => cases ys with
    | nil => simp [Access.entries] at h
    | cons y ys =>
      simp only [List.flatMap_cons, Access.entries, QM31.limbs, List.cons_append, List.nil_append, List.cons.injEq,
        Entry.mk.injEq, true_and, and_true] at h
      obtain ⟨⟨h1, h2, h3, h4, h5, h6⟩, ⟨-, g3, g4, g5, g6⟩, ht⟩ := h
      rw [ih ht]
      congr 1
      cases x with | mk a c p n => cases y with | mk a' c' p' n' =>
      cases p; cases n; cases p'; cases n'
      simp_all

/-- What a row performs is determined by its lookups. -/
theorem Performs.unique {ev : Eval} {pc fp c pc' fp' : M31} {accs : List Access} {qc gp d qc' gp' : M31}
    {bccs : List Access} (h : Performs ev pc fp c pc' fp' accs) (g : Performs ev qc gp d qc' gp' bccs) :
    pc = qc ∧ fp = gp ∧ c = d ∧ pc' = qc' ∧ fp' = gp' ∧ accs = bccs := by
  have h1 := h.registers
  rw [g.registers] at h1
  simp only [List.cons.injEq, Entry.mk.injEq, true_and, and_true] at h1
  obtain ⟨⟨a1, a2, a3⟩, b1, b2, -⟩ := h1
  subst a3
  have h2 := h.memory
  rw [g.memory] at h2
  exact ⟨a1.symm, a2.symm, rfl, b1.symm, b2.symm, (entries_inj h2).symm⟩

/-- To refute soundness of an enabled row: a memory holding the consumed values in which the transition is not the one
of the instruction `i` stored at `pc`. -/
theorem not_sound_of {enabler : M31} {ev : Eval} {pc fp c pc' fp' : M31} {accs : List Access}
    (h : Performs ev pc fp c pc' fp' accs) (he : enabler = 1) (mem : Mem)
    (hm : ∀ a ∈ accs, InRange a.addr ∧ mem a.addr = a.prev) (hn : ∀ i, Stored mem pc i → ∀ e, sem i pc fp mem = some e →
      pc' = e.pc → fp' = e.fp →
      ¬ (accs.map fun a => (⟨a.addr, a.new⟩ : MemoryEntry)).Perm (fetchLog mem pc i ++ e.log mem)) :
    ¬ Sound enabler ev := by
  rintro (⟨h0, -⟩ | ⟨-, qc, gp, d, qc', gp', bccs, hp, -, hx⟩)
  · rw [he] at h0; exact absurd h0 (by decide)
  · obtain ⟨rfl, rfl, rfl, rfl, rfl, rfl⟩ := h.unique hp
    obtain ⟨i, e, h1, h2, h3, h4, h5⟩ := hx mem hm
    exact hn i h1 e h2 h3 h4 h5

theorem val_add_le (a b : M31) : (a + b).val ≤ a.val + b.val := ZMod.val_add_le a b

theorem val_mul_le (a b : M31) : (a * b).val ≤ a.val * b.val := ZMod.val_mul_le a b

/-- Two arcs that do not add up to a full turn are the two numbers with the same sum and product. -/
theorem arcs_sum {s l x y : M31} (hlt : s.val + l.val < P) (hsum : s + l = x + y) (hprod : s * l = x * y) :
    x.val + y.val < P := by
  have h : (s - x) * (s - y) = 0 := by linear_combination s * hsum - hprod
  rcases mul_eq_zero.1 h with h | h
  · have hx : s = x := sub_eq_zero.1 h
    have hy : l = y := by rw [hx] at hsum; exact add_left_cancel hsum
    rw [← hx, ← hy]; exact hlt
  · have hy : s = y := sub_eq_zero.1 h
    have hx : l = x := by rw [hy] at hsum; linear_combination hsum
    rw [← hx, ← hy]; omega

theorem val_neg_one_sub (b : M31) : (-1 - b).val = P - 1 - b.val := by
  have hb := ZMod.val_lt b
  have : (-1 - b : M31) = ((P - 1 - b.val : ℕ) : M31) := by
    rw [Nat.cast_sub (by omega), Nat.cast_sub (by decide), ZMod.natCast_self, ZMod.natCast_zmod_val]; push_cast; ring
  rw [this, val_of_lt (by omega)]

theorem val_sub_add (a b : M31) : b.val = (b - a).val + a.val ∨ b.val + P = (b - a).val + a.val := by
  have h := ZMod.val_add (b - a) a
  rw [sub_add_cancel] at h
  have h1 := ZMod.val_lt (b - a)
  have h2 := ZMod.val_lt a
  have h3 := ZMod.val_lt b
  rcases Nat.lt_or_ge ((b - a).val + a.val) P with hlt | hge
  · left; rw [h, Nat.mod_eq_of_lt hlt]
  · right
    rw [h, Nat.mod_eq_sub_mod hge, Nat.mod_eq_of_lt (by omega)]; omega

theorem arcs_le {a b k1 k2 k3 sl sh ll lh : M31} (r0 : sl.val < 2 ^ 16) (r1 : sh.val < 2 ^ 16) (r2 : ll.val < 2 ^ 16)
    (r3 : lh.val < 2 ^ 16) (b1 : k1 = 0 ∨ k1 = 1) (b2 : k2 = 0 ∨ k2 = 1)
    (hk : k1 + k2 + k3 = 1)
    (e1 : k1 * (sl + sh * 10923 + (ll + lh * 16384) - (a + b - a)) = 0)
    (e2 : k1 * ((sl + sh * 10923) * (ll + lh * 16384) - a * (b - a)) = 0)
    (e3 : k2 * (sl + sh * 10923 + (ll + lh * 16384) - (a - 1 - b)) = 0)
    (e4 : k2 * ((sl + sh * 10923) * (ll + lh * 16384) - a * (-1 - b)) = 0)
    (e5 : k3 * (sl + sh * 10923 + (ll + lh * 16384) - (b - a - 1 - b)) = 0)
    (e6 : k3 * ((sl + sh * 10923) * (ll + lh * 16384) - (b - a) * (-1 - b)) = 0) : a.val ≤ b.val := by
  have hlt : (sl + sh * 10923).val + (ll + lh * 16384).val < P := by
    have h1 := val_add_le sl (sh * 10923)
    have h2 := val_mul_le sh 10923
    have h3 := val_add_le ll (lh * 16384)
    have h4 := val_mul_le lh 16384
    have c1 : (10923 : M31).val = 10923 := rfl
    have c2 : (16384 : M31).val = 16384 := rfl
    rw [c1] at h2; rw [c2] at h4
    have : P = 2147483647 := rfl
    omega
  have ha := ZMod.val_lt a
  have hb := ZMod.val_lt b
  have hs := val_sub_add a b
  have hn := val_neg_one_sub b
  rcases b1 with b1 | b1
  · rcases b2 with b2 | b2
    · have b3 : k3 = 1 := by rw [b1, b2] at hk; simpa using hk
      rw [b3, one_mul] at e5 e6
      have := arcs_sum hlt (x := b - a) (y := -1 - b) (by linear_combination e5) (sub_eq_zero.1 e6)
      omega
    · rw [b2, one_mul] at e3 e4
      have := arcs_sum hlt (x := a) (y := -1 - b) (by linear_combination e3) (sub_eq_zero.1 e4)
      omega
  · rw [b1, one_mul] at e1 e2
    have := arcs_sum hlt (x := a) (y := b - a) (by linear_combination e1) (sub_eq_zero.1 e2)
    omega

theorem satisfied_of_check {ev : Eval} (h : ev.constraints.all (fun c => c = 0) = true) : ev.Satisfied := by
  simpa [Eval.Satisfied] using h

/-- Computable form of `Entry.TableHolds`, for concrete rows. -/
def Entry.tableCheck (e : Entry) : Bool :=
  e.mult = 0 ||
  match e.rel with
  | .rc8 => e.tuple.all (·.val < 2 ^ 8)
  | .rc16 => e.tuple.all (·.val < 2 ^ 16)
  | .rc20 => e.tuple.all (·.val < 2 ^ 20)
  | .bitwise => match e.padded.tuple with
    | [op, a, b, c] => op.val < 3 && a.val < 2 ^ 8 && b.val < 2 ^ 8 && c = (bitwiseOp op.val a.val b.val : M31)
    | _ => false
  | _ => true

theorem tableHolds_of_check {e : Entry} (h : e.tableCheck = true) : e.TableHolds := by
  intro hm
  obtain ⟨rel, mult, tuple⟩ := e
  simp only [Entry.tableCheck, Bool.or_eq_true, decide_eq_true_eq] at h
  have h := h.resolve_left hm
  cases rel <;> simp only [List.all_eq_true, decide_eq_true_eq] at h ⊢ <;> try exact h
  split at h
  · rename_i op a b c heq
    simp only [Bool.and_eq_true, decide_eq_true_eq] at h
    refine ⟨op.val, a.val, b.val, h.1.1.1, h.1.1.2, h.1.2, ?_⟩
    rw [heq, ← h.2]
    simp
  · exact absurd h (by simp)

theorem tablesHold_of_check {ev : Eval} (h : ev.entries.all Entry.tableCheck = true) : ev.TablesHold := fun e he =>
  tableHolds_of_check (List.all_eq_true.1 h e he)

/-- Membership in the table of bitwise operations. -/
def InBitwise (op a b c : M31) : Prop :=
  op.val < 3 ∧ a.val < 2 ^ 8 ∧ b.val < 2 ^ 8 ∧ c.val = bitwiseOp op.val a.val b.val

theorem bitwiseOp_lt {op a b : ℕ} (ha : a < 2 ^ 8) (hb : b < 2 ^ 8) : bitwiseOp op a b < 2 ^ 8 := by
  unfold bitwiseOp
  split
  · exact Nat.and_lt_two_pow _ hb
  · split
    · exact Nat.or_lt_two_pow ha hb
    · exact Nat.xor_lt_two_pow ha hb

theorem tableHolds_bitwise {op a b c : M31} (h : Entry.TableHolds ⟨.bitwise, -1, [op, a, b, c]⟩) :
    InBitwise op a b c := by
  obtain ⟨o, x, y, ho, hx, hy, he⟩ := h neg_one_ne
  have hz := bitwiseOp_lt (op := o) hx hy
  simp only [Entry.padded, Rel.arity, List.length_cons, List.length_nil, List.replicate_zero, List.append_nil,
    List.cons.injEq, and_true, Nat.sub_self, Nat.reduceAdd] at he
  obtain ⟨rfl, rfl, rfl, rfl⟩ := he
  have hp : 2 ^ 8 < P := by decide
  unfold InBitwise
  rw [val_of_lt (by omega), val_of_lt (by omega), val_of_lt (by omega), val_of_lt (by omega)]
  exact ⟨ho, hx, hy, rfl⟩

end Air
end CairoM
