import Verif.ControlFlow
import Verif.ControlFlowSpec

/-!
# Helper lemmas on control flow
-/

namespace CairoM.Syntax

theorem loop_ends' {b : Stmt} : ∀ {s : Stmt} {o : Way}, Ends s o → s = .loop_ b →
    (o = .normal ∧ Ends b .brk) ∨ (o = .ret ∧ Ends b .ret)
  | _, _, .loopNext _ _ h, e => loop_ends' h e
  | _, _, .loopBreak h, e => by cases e; exact .inl ⟨rfl, h⟩
  | _, _, .loopReturn h, e => by cases e; exact .inr ⟨rfl, h⟩

theorem loop_ends {b : Stmt} {o : Way} (h : Ends (.loop_ b) o) :
    (o = .normal ∧ Ends b .brk) ∨ (o = .ret ∧ Ends b .ret) := loop_ends' h rfl

theorem while_ends' {c : Expr} {b : Stmt} : ∀ {s : Stmt} {o : Way}, Ends s o → s = .while_ c b →
    o = .normal ∨ (o = .ret ∧ Ends b .ret)
  | _, _, .whileNext _ _ h, e => while_ends' h e
  | _, _, .whileDone, _ => .inl rfl
  | _, _, .whileBreak _, _ => .inl rfl
  | _, _, .whileReturn h, e => by cases e; exact .inr ⟨rfl, h⟩

theorem while_ends {c : Expr} {b : Stmt} {o : Way} (h : Ends (.while_ c b) o) :
    o = .normal ∨ (o = .ret ∧ Ends b .ret) := while_ends' h rfl

theorem for_ends' {i s b : Stmt} {c : Expr} : ∀ {s' : Stmt} {o : Way}, Ends s' o → s' = .for_ i c s b →
    o = .normal ∨ (o = .ret ∧ Ends b .ret)
  | _, _, .forNext _ _ _ _ h, e => for_ends' h e
  | _, _, .forDone _, _ => .inl rfl
  | _, _, .forBreak _ _, _ => .inl rfl
  | _, _, .forReturn _ h, e => by cases e; exact .inr ⟨rfl, h⟩

theorem for_ends {i s b : Stmt} {c : Expr} {o : Way} (h : Ends (.for_ i c s b) o) :
    o = .normal ∨ (o = .ret ∧ Ends b .ret) := for_ends' h rfl

mutual
/-- Without a `break` outside of nested loops, a statement does not end with one. -/
theorem no_break : ∀ (s : Stmt), s.containsBreak = false → ¬ Ends s .brk
  | .let_ .., _, h | .const _, _, h | .assign .., _, h | .expr _, _, h | .return_ _, _, h | .continue_, _, h => by
    cases h
  | .break_, h, _ => by simp [Stmt.containsBreak] at h
  | .block ss, h, .block he => no_breaks ss (by simpa only [Stmt.containsBreak] using h) he
  | .if_ c t none, h, .then_ he => no_break t (by simpa only [Stmt.containsBreak] using h) he
  | .if_ c t (some e), h, he => by
    simp only [Stmt.containsBreak, Bool.or_eq_false_iff] at h
    cases he with
    | then_ he => exact no_break t h.1 he
    | else_ he => exact no_break e h.2 he
  | .loop_ b, _, h => by rcases loop_ends h with ⟨h, -⟩ | ⟨h, -⟩ <;> cases h
  | .while_ _ b, _, h => by rcases while_ends h with h | ⟨h, -⟩ <;> cases h
  | .for_ _ _ _ b, _, h => by rcases for_ends h with h | ⟨h, -⟩ <;> cases h
theorem no_breaks : ∀ (ss : List Stmt), Stmt.anyBreak ss = false → ¬ EndsAll ss .brk
  | [], _, h => by cases h
  | s :: ss, h, he => by
    simp only [Stmt.anyBreak, Bool.or_eq_false_iff] at h
    cases he with
    | cons _ he => exact no_breaks ss h.2 he
    | stop _ he => exact no_break s h.1 he
end

theorem mem_below {i : Nat} {ds : List (Pos × FlowDiag)} {p : Pos} {d : FlowDiag} (h : (p, d) ∈ below i ds) :
    ∃ q, p = i :: q ∧ (q, d) ∈ ds := by
  obtain ⟨⟨q, d'⟩, hq, he⟩ := List.mem_map.mp h
  cases he
  exact ⟨q, rfl, hq⟩

mutual
/-- A statement that terminates the control flow does not end normally. -/
theorem terminates : ∀ (s : Stmt) (n : Nat), (s.flow n).2 = true → ¬ Ends s .normal
  | .let_ .., _, h, _ | .const _, _, h, _ | .assign .., _, h, _ | .expr _, _, h, _ => by
    simp [Stmt.flow] at h
  | .return_ _, _, _, h | .break_, _, _, h | .continue_, _, _, h => by cases h
  | .block ss, n, h, .block he => by
    rw [Stmt.flow] at h
    rcases terminate_all ss n 0 false h with h | h
    · cases h
    · exact h he
  | .if_ c t none, _, h, _ => by simp [Stmt.flow] at h
  | .if_ c t (some e), n, h, he => by
    simp only [Stmt.flow, Bool.and_eq_true] at h
    cases he with
    | then_ he => exact terminates t n h.1 he
    | else_ he => exact terminates e n h.2 he
  | .loop_ b, n, h, he => by
    simp only [Stmt.flow, Bool.not_eq_true'] at h
    rcases loop_ends he with ⟨-, h'⟩ | ⟨h', -⟩
    · exact no_break b h h'
    · cases h'
  | .while_ .., _, h, _ | .for_ .., _, h, _ => by simp [Stmt.flow] at h
theorem terminate_all : ∀ (ss : List Stmt) (n i : Nat) (dead : Bool), (Stmt.flows n i dead ss).2 = true →
    dead = true ∨ ¬ EndsAll ss .normal
  | [], _, _, _, h => by simp only [Stmt.flows] at h; exact .inl h
  | s :: ss, n, i, dead, h => by
    simp only [Stmt.flows] at h
    rcases terminate_all ss n (i + 1) _ h with h | h
    · rcases Bool.or_eq_true_iff.mp h with h | h
      · exact .inl h
      · refine .inr fun he => ?_
        cases he with
        | cons he _ => exact terminates s n h he
        | stop hn _ => exact hn rfl
    · refine .inr fun he => ?_
      cases he with
      | cons _ he => exact h he
      | stop hn _ => exact hn rfl
end

mutual
/-- A position reported as unreachable is not reached. -/
theorem unreachable_sound : ∀ (s : Stmt) (n : Nat) (p : Pos), (p, .unreachable) ∈ (s.flow n).1 → ¬ Reaches s p
  | .let_ .., _, _, h, _ | .const _, _, _, h, _ | .assign .., _, _, h, _ | .expr _, _, _, h, _
  | .return_ _, _, _, h, _ => by simp [Stmt.flow] at h
  | .break_, n, _, h, _ => by simp only [Stmt.flow] at h; split at h <;> simp at h
  | .continue_, n, _, h, _ => by simp only [Stmt.flow] at h; split at h <;> simp at h
  | .block ss, n, p, h, hr => by
    rw [Stmt.flow] at h
    obtain ⟨i, q, rfl, hi, hq⟩ := unreachable_all ss n 0 false p h
    cases hr with
    | block hr =>
      rcases hq with hq | hq
      · cases hq
      · exact hq hr
  | .if_ c t none, n, p, h, hr => by
    simp only [Stmt.flow] at h
    obtain ⟨q, rfl, hq⟩ := mem_below h
    cases hr with
    | then_ hr => exact unreachable_sound t n q hq hr
  | .if_ c t (some e), n, p, h, hr => by
    simp only [Stmt.flow, List.mem_append] at h
    rcases h with h | h
    · obtain ⟨q, rfl, hq⟩ := mem_below h
      cases hr with
      | then_ hr => exact unreachable_sound t n q hq hr
    · obtain ⟨q, rfl, hq⟩ := mem_below h
      cases hr with
      | else_ hr => exact unreachable_sound e n q hq hr
  | .loop_ b, n, p, h, hr => by
    simp only [Stmt.flow] at h
    obtain ⟨q, rfl, hq⟩ := mem_below h
    cases hr with
    | loop_ hr => exact unreachable_sound b _ q hq hr
  | .while_ c b, n, p, h, hr => by
    simp only [Stmt.flow] at h
    obtain ⟨q, rfl, hq⟩ := mem_below h
    cases hr with
    | while_ hr => exact unreachable_sound b _ q hq hr
  | .for_ i c s b, n, p, h, hr => by
    simp only [Stmt.flow, List.mem_append] at h
    rcases h with (h | h) | h
    · obtain ⟨q, rfl, hq⟩ := mem_below h
      cases hr with
      | init hr => exact unreachable_sound i _ q hq hr
    · obtain ⟨q, rfl, hq⟩ := mem_below h
      cases hr with
      | body _ hr => exact unreachable_sound b _ q hq hr
    · obtain ⟨q, rfl, hq⟩ := mem_below h
      cases hr with
      | step _ _ _ hr => exact unreachable_sound s _ q hq hr
theorem unreachable_all : ∀ (ss : List Stmt) (n i : Nat) (dead : Bool) (p : Pos),
    (p, .unreachable) ∈ (Stmt.flows n i dead ss).1 →
    ∃ j q, p = j :: q ∧ i ≤ j ∧ (dead = true ∨ ¬ ReachesAll ss (j - i) q)
  | [], _, _, _, _, h => by simp [Stmt.flows] at h
  | s :: ss, n, i, dead, p, h => by
    simp only [Stmt.flows, List.mem_append] at h
    rcases h with (h | h) | h
    · split at h
      · simp only [List.mem_singleton, Prod.mk.injEq, and_true] at h
        exact ⟨i, [], h, Nat.le_refl _, .inl ‹_›⟩
      · cases h
    · obtain ⟨q, rfl, hq⟩ := mem_below h
      refine ⟨i, q, rfl, Nat.le_refl _, .inr ?_⟩
      rw [Nat.sub_self]
      intro hr
      cases hr with
      | head hr => exact unreachable_sound s n q hq hr
    · obtain ⟨j, q, rfl, hj, hq⟩ := unreachable_all ss n (i + 1) _ p h
      refine ⟨j, q, rfl, by omega, ?_⟩
      obtain ⟨k, rfl⟩ : ∃ k, j = k + i + 1 := ⟨j - i - 1, by omega⟩
      rw [show k + i + 1 - (i + 1) = k by omega] at hq
      rw [show k + i + 1 - i = k + 1 by omega]
      rcases hq with hq | hq
      · rcases Bool.or_eq_true_iff.mp hq with hq | hq
        · exact .inl hq
        · refine .inr fun hr => ?_
          cases hr with
          | tail he _ => exact terminates s n hq he
      · refine .inr fun hr => ?_
        cases hr with
        | tail _ hr => exact hq hr
end

theorem plain_ends {s : Stmt} (h : plain s = true) : Ends s .normal := by
  cases s <;> first | exact .let_ | exact .assign | exact .expr | simp [plain] at h

theorem below_nil {i : Nat} {ds : List (Pos × FlowDiag)} : below i ds = [] ↔ ds = [] := by
  cases ds <;> simp [below]

/-- A sequence without reports: the first statement has none, and if more follow, it does not terminate. -/
theorem flows_nil {n i : Nat} {dead : Bool} {s : Stmt} {ss : List Stmt} (h : (Stmt.flows n i dead (s :: ss)).1 = []) :
    dead = false ∧ (s.flow n).1 = [] ∧ (Stmt.flows n (i + 1) (s.flow n).2 ss).1 = [] := by
  simp only [Stmt.flows, List.append_eq_nil_iff, below_nil] at h
  cases dead with
  | true => simp at h
  | false => exact ⟨rfl, h.1.2, by simpa using h.2⟩

theorem flows_snd {n i : Nat} {s : Stmt} {ss : List Stmt} :
    (Stmt.flows n i false (s :: ss)).2 = (Stmt.flows n (i + 1) (s.flow n).2 ss).2 := by
  simp only [Stmt.flows, Bool.false_or]

/-- After a statement that terminates, nothing follows. -/
theorem flows_dead {n i : Nat} {ss : List Stmt} (h : (Stmt.flows n i true ss).1 = []) : ss = [] := by
  cases ss with
  | nil => rfl
  | cons s ss => exact absurd (flows_nil h).1 (by simp)

mutual
/-- A statement without reports about it that does not terminate can end normally. -/
theorem can_end : ∀ (s : Stmt) (n : Nat), (s.flow n).1 = [] → (s.flow n).2 = false → s.plainFor = true → Ends s .normal
  | .let_ .., _, _, _, _ => .let_
  | .const _, _, _, _, _ => .const
  | .assign .., _, _, _, _ => .assign
  | .expr _, _, _, _, _ => .expr
  | .return_ _, _, _, h, _ => by simp [Stmt.flow] at h
  | .break_, n, h, h', _ | .continue_, n, h, h', _ => by
    cases n with
    | zero => simp [Stmt.flow] at h
    | succ n => simp [Stmt.flow] at h'
  | .block ss, n, h, h', hp => by
    rw [Stmt.flow] at h h'
    simp only [Stmt.plainFor] at hp
    exact .block (can_end_all ss n 0 h h' hp)
  | .if_ c t none, _, _, _, _ => .skip
  | .if_ c t (some e), n, h, h', hp => by
    simp only [Stmt.flow, List.append_eq_nil_iff, below_nil, Bool.and_eq_false_iff] at h h'
    simp only [Stmt.plainFor, Bool.and_eq_true] at hp
    rcases h' with h' | h'
    · exact .then_ (can_end t n h.1 h' hp.1)
    · exact .else_ (can_end e n h.2 h' hp.2)
  | .loop_ b, n, h, h', hp => by
    simp only [Stmt.flow, below_nil, Bool.not_eq_false'] at h h'
    simp only [Stmt.plainFor] at hp
    exact .loopBreak (can_break b _ h h' hp)
  | .while_ c b, _, _, _, _ => .whileDone
  | .for_ i c s b, _, _, _, hp => by
    simp only [Stmt.plainFor, Bool.and_eq_true] at hp
    exact .forDone (plain_ends hp.1.1)
theorem can_end_all : ∀ (ss : List Stmt) (n i : Nat), (Stmt.flows n i false ss).1 = [] →
    (Stmt.flows n i false ss).2 = false → Stmt.plainFors ss = true → EndsAll ss .normal
  | [], _, _, _, _, _ => .nil
  | s :: ss, n, i, h, h', hp => by
    simp only [Stmt.plainFors, Bool.and_eq_true] at hp
    obtain ⟨-, h1, h2⟩ := flows_nil h
    rw [flows_snd] at h'
    cases hs : (s.flow n).2 with
    | false =>
      rw [hs] at h2 h'
      exact .cons (can_end s n h1 hs hp.1) (can_end_all ss n _ h2 h' hp.2)
    | true =>
      rw [hs] at h2 h'
      rw [flows_dead h2] at h'
      simp [Stmt.flows] at h'
/-- A `break` in a statement without reports is executed. -/
theorem can_break : ∀ (s : Stmt) (n : Nat), (s.flow n).1 = [] → s.containsBreak = true → s.plainFor = true → Ends s .brk
  | .let_ .., _, _, h, _ | .const _, _, _, h, _ | .assign .., _, _, h, _ | .expr _, _, _, h, _
  | .return_ _, _, _, h, _ | .continue_, _, _, h, _ | .loop_ _, _, _, h, _ | .while_ .., _, _, h, _
  | .for_ .., _, _, h, _ => by simp [Stmt.containsBreak] at h
  | .break_, _, _, _, _ => .break_
  | .block ss, n, h, h', hp => by
    rw [Stmt.flow] at h
    rw [Stmt.containsBreak] at h'
    simp only [Stmt.plainFor] at hp
    exact .block (can_break_all ss n 0 h h' hp)
  | .if_ c t none, n, h, h', hp => by
    simp only [Stmt.flow, below_nil] at h
    rw [Stmt.containsBreak] at h'
    simp only [Stmt.plainFor] at hp
    exact .then_ (can_break t n h h' hp)
  | .if_ c t (some e), n, h, h', hp => by
    simp only [Stmt.flow, List.append_eq_nil_iff, below_nil] at h
    simp only [Stmt.containsBreak, Bool.or_eq_true] at h'
    simp only [Stmt.plainFor, Bool.and_eq_true] at hp
    rcases h' with h' | h'
    · exact .then_ (can_break t n h.1 h' hp.1)
    · exact .else_ (can_break e n h.2 h' hp.2)
theorem can_break_all : ∀ (ss : List Stmt) (n i : Nat), (Stmt.flows n i false ss).1 = [] →
    Stmt.anyBreak ss = true → Stmt.plainFors ss = true → EndsAll ss .brk
  | [], _, _, _, h, _ => by simp [Stmt.anyBreak] at h
  | s :: ss, n, i, h, h', hp => by
    simp only [Stmt.plainFors, Bool.and_eq_true] at hp
    obtain ⟨-, h1, h2⟩ := flows_nil h
    by_cases hb : s.containsBreak = true
    · exact .stop (by simp) (can_break s n h1 hb hp.1)
    · have hb' : Stmt.anyBreak ss = true := by
        simp only [Stmt.anyBreak, Bool.or_eq_true] at h'
        exact h'.resolve_left hb
      cases hs : (s.flow n).2 with
      | false =>
        rw [hs] at h2
        exact .cons (can_end s n h1 hs hp.1) (can_break_all ss n _ h2 hb' hp.2)
      | true =>
        rw [hs] at h2
        rw [flows_dead h2] at hb'
        simp [Stmt.anyBreak] at hb'
end

mutual
/-- Every position in a statement without reports is reached. -/
theorem all_reached : ∀ (s : Stmt) (n : Nat), (s.flow n).1 = [] → s.plainFor = true → ∀ p, At s p → Reaches s p
  | .block ss, n, h, hp, _, .block hi hat => by
    rw [Stmt.flow] at h
    simp only [Stmt.plainFor] at hp
    exact .block (all_reached_all ss n 0 h hp _ _ _ hi hat)
  | .if_ c t none, n, h, hp, _, .then_ hat => by
    simp only [Stmt.flow, below_nil] at h
    simp only [Stmt.plainFor] at hp
    exact .then_ (all_reached t n h hp _ hat)
  | .if_ c t (some e), n, h, hp, _, hat => by
    simp only [Stmt.flow, List.append_eq_nil_iff, below_nil] at h
    simp only [Stmt.plainFor, Bool.and_eq_true] at hp
    cases hat with
    | here => exact .here
    | then_ hat => exact .then_ (all_reached t n h.1 hp.1 _ hat)
    | else_ hat => exact .else_ (all_reached e n h.2 hp.2 _ hat)
  | .loop_ b, n, h, hp, _, .loop_ hat => by
    simp only [Stmt.flow, below_nil] at h
    simp only [Stmt.plainFor] at hp
    exact .loop_ (all_reached b _ h hp _ hat)
  | .while_ c b, n, h, hp, _, .while_ hat => by
    simp only [Stmt.flow, below_nil] at h
    simp only [Stmt.plainFor] at hp
    exact .while_ (all_reached b _ h hp _ hat)
  | .for_ i c s b, n, h, hp, _, hat => by
    simp only [Stmt.flow, List.append_eq_nil_iff, below_nil] at h
    simp only [Stmt.plainFor, Bool.and_eq_true] at hp
    cases hat with
    | here => exact .here
    | init hat =>
      refine .init ?_
      cases hat with
      | here => exact .here
      | _ => simp [plain] at hp
    | body hat => exact .body (plain_ends hp.1.1) (all_reached b _ h.1.2 hp.2 _ hat)
  | _, _, _, _, _, .here => .here
theorem all_reached_all : ∀ (ss : List Stmt) (n i : Nat), (Stmt.flows n i false ss).1 = [] →
    Stmt.plainFors ss = true → ∀ (k : Nat) (s : Stmt) (p : Pos), ss[k]? = some s → At s p → ReachesAll ss k p
  | [], _, _, _, _, _, _, _, h, _ => by simp at h
  | s :: ss, n, i, h, hp, k, s', p, hk, hat => by
    simp only [Stmt.plainFors, Bool.and_eq_true] at hp
    obtain ⟨-, h1, h2⟩ := flows_nil h
    cases k with
    | zero =>
      simp only [List.getElem?_cons_zero, Option.some.injEq] at hk
      subst hk
      exact .head (all_reached s n h1 hp.1 _ hat)
    | succ k =>
      simp only [List.getElem?_cons_succ] at hk
      cases hs : (s.flow n).2 with
      | false =>
        rw [hs] at h2
        exact .tail (can_end s n h1 hs hp.1) (all_reached_all ss n _ h2 hp.2 k s' p hk hat)
      | true =>
        rw [hs] at h2
        rw [flows_dead h2] at hk
        simp at hk
end

/-! ### `break` and `continue` in loops -/

mutual
/-- Without a report about `break` and `continue` outside loops, a statement that is in no loop ends with neither. -/
theorem stays : ∀ (s : Stmt), (∀ d ∈ (s.flow 0).1, d.2 = .unreachable) → s.plainFor = true → ∀ o, Ends s o →
    o = .normal ∨ o = .ret
  | .let_ .., _, _, _, h | .const _, _, _, _, h | .assign .., _, _, _, h | .expr _, _, _, _, h
  | .return_ _, _, _, _, h => by cases h <;> simp
  | .break_, h, _, _, _ | .continue_, h, _, _, _ => by simp [Stmt.flow] at h
  | .block ss, h, hp, o, .block he => by
    rw [Stmt.flow] at h
    simp only [Stmt.plainFor] at hp
    exact stay ss 0 false h hp o he
  | .if_ c t none, h, hp, o, he => by
    simp only [Stmt.flow] at h
    simp only [Stmt.plainFor] at hp
    cases he with
    | skip => exact .inl rfl
    | then_ he => exact stays t (fun d hd => h (0 :: d.1, d.2) (List.mem_map.mpr ⟨d, hd, rfl⟩)) hp o he
  | .if_ c t (some e), h, hp, o, he => by
    simp only [Stmt.flow, List.mem_append] at h
    simp only [Stmt.plainFor, Bool.and_eq_true] at hp
    cases he with
    | then_ he => exact stays t (fun d hd => h (0 :: d.1, d.2) (.inl (List.mem_map.mpr ⟨d, hd, rfl⟩))) hp.1 o he
    | else_ he => exact stays e (fun d hd => h (1 :: d.1, d.2) (.inr (List.mem_map.mpr ⟨d, hd, rfl⟩))) hp.2 o he
  | .loop_ b, _, _, o, he => by rcases loop_ends he with ⟨h, -⟩ | ⟨h, -⟩ <;> simp [h]
  | .while_ c b, _, _, o, he => by rcases while_ends he with h | ⟨h, -⟩ <;> simp [h]
  | .for_ i c s b, _, _, o, he => by rcases for_ends he with h | ⟨h, -⟩ <;> simp [h]
theorem stay : ∀ (ss : List Stmt) (i : Nat) (dead : Bool), (∀ d ∈ (Stmt.flows 0 i dead ss).1, d.2 = .unreachable) →
    Stmt.plainFors ss = true → ∀ o, EndsAll ss o → o = .normal ∨ o = .ret
  | [], _, _, _, _, _, h => by cases h; exact .inl rfl
  | s :: ss, i, dead, h, hp, o, he => by
    simp only [Stmt.flows, List.mem_append] at h
    simp only [Stmt.plainFors, Bool.and_eq_true] at hp
    cases he with
    | cons _ he => exact stay ss _ _ (fun d hd => h d (.inr hd)) hp.2 o he
    | stop _ he => exact stays s (fun d hd => h (i :: d.1, d.2) (.inl (.inr (List.mem_map.mpr ⟨d, hd, rfl⟩)))) hp.1 o he
end

/-! ### Missing return -/

mutual
/-- No `loop` contains a `break` that leaves it. -/
def Stmt.noLoopBreak : Stmt → Bool
  | .block ss => Stmt.noLoopBreaks ss
  | .if_ _ t none => t.noLoopBreak
  | .if_ _ t (some e) => t.noLoopBreak && e.noLoopBreak
  | .loop_ b => !b.containsBreak && b.noLoopBreak
  | _ => true
/-- The same for all statements of a list. -/
def Stmt.noLoopBreaks : List Stmt → Bool
  | [] => true
  | s :: ss => s.noLoopBreak && Stmt.noLoopBreaks ss
end

mutual
theorem hard_ends : ∀ (s : Stmt), s.hardReturn = true → s.noLoopBreak = true → ¬ Ends s .normal
  | .let_ .., h, _, _ | .const _, h, _, _ | .assign .., h, _, _ | .expr _, h, _, _ | .break_, h, _, _
  | .continue_, h, _, _ | .while_ .., h, _, _ | .for_ .., h, _, _ | .if_ _ _ none, h, _, _ => by
    simp [Stmt.hardReturn] at h
  | .return_ _, _, _, h => by cases h
  | .block ss, h, hn, .block he => by
    rw [Stmt.hardReturn] at h
    rw [Stmt.noLoopBreak] at hn
    exact hard_ends_all ss h hn he
  | .if_ c t (some e), h, hn, he => by
    simp only [Stmt.hardReturn, Bool.and_eq_true] at h
    simp only [Stmt.noLoopBreak, Bool.and_eq_true] at hn
    cases he with
    | then_ he => exact hard_ends t h.1 hn.1 he
    | else_ he => exact hard_ends e h.2 hn.2 he
  | .loop_ b, _, hn, he => by
    simp only [Stmt.noLoopBreak, Bool.and_eq_true, Bool.not_eq_true'] at hn
    rcases loop_ends he with ⟨-, h⟩ | ⟨h, -⟩
    · exact no_break b hn.1 h
    · cases h
theorem hard_ends_all : ∀ (ss : List Stmt), Stmt.anyHard ss = true → Stmt.noLoopBreaks ss = true → ¬ EndsAll ss .normal
  | [], h, _, _ => by simp [Stmt.anyHard] at h
  | s :: ss, h, hn, he => by
    simp only [Stmt.anyHard, Bool.or_eq_true] at h
    simp only [Stmt.noLoopBreaks, Bool.and_eq_true] at hn
    cases he with
    | stop hne _ => exact hne rfl
    | cons he he' =>
      rcases h with h | h
      · exact hard_ends s h hn.1 he
      · exact hard_ends_all ss h hn.2 he'
end

mutual
theorem provides_ends : ∀ (s : Stmt), s.provides = true → s.noLoopBreak = true → ¬ Ends s .normal
  | .let_ .., h, _, _ | .const _, h, _, _ | .assign .., h, _, _ | .expr _, h, _, _ | .break_, h, _, _
  | .continue_, h, _, _ | .while_ .., h, _, _ | .for_ .., h, _, _ | .if_ _ _ none, h, _, _ => by
    simp [Stmt.provides] at h
  | .return_ _, _, _, h => by cases h
  | .block ss, h, hn, .block he => by
    rw [Stmt.provides] at h
    rw [Stmt.noLoopBreak] at hn
    exact returns_ends ss h hn he
  | .if_ c t (some e), h, hn, he => by
    simp only [Stmt.provides, Bool.and_eq_true] at h
    simp only [Stmt.noLoopBreak, Bool.and_eq_true] at hn
    cases he with
    | then_ he => exact provides_ends t h.1 hn.1 he
    | else_ he => exact provides_ends e h.2 hn.2 he
  | .loop_ b, _, hn, he => by
    simp only [Stmt.noLoopBreak, Bool.and_eq_true, Bool.not_eq_true'] at hn
    rcases loop_ends he with ⟨-, h⟩ | ⟨h, -⟩
    · exact no_break b hn.1 h
    · cases h
theorem returns_ends : ∀ (ss : List Stmt), Stmt.returns ss = true → Stmt.noLoopBreaks ss = true → ¬ EndsAll ss .normal
  | [], h, _, _ => by simp [Stmt.returns] at h
  | [s], h, hn, he => by
    simp only [Stmt.returns] at h
    simp only [Stmt.noLoopBreaks, Bool.and_true] at hn
    cases he with
    | stop hne _ => exact hne rfl
    | cons he _ => exact provides_ends s h hn he
  | s :: s' :: ss, h, hn, he => by
    simp only [Stmt.returns, Bool.or_eq_true] at h
    rw [Stmt.noLoopBreaks, Bool.and_eq_true] at hn
    cases he with
    | stop hne _ => exact hne rfl
    | cons he he' =>
      rcases h with h | h
      · exact hard_ends s h hn.1 he
      · exact returns_ends (s' :: ss) h hn.2 he'
end

end CairoM.Syntax
