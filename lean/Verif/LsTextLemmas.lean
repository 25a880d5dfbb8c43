import Verif.LsTextSpec
import Mathlib.Data.List.TakeWhile
import Mathlib.Tactic.Common

/-! # Lemmas on positions and edits -/

namespace CairoM
namespace LsText

/-- The position after reading a text, as the server counts. -/
def walk (p : Pos) (s : List Char) : Pos := s.foldl advance p

theorem utf8Size_pos (c : Char) : 0 < c.utf8Size := Char.utf8Size_pos c

theorem bytes_cons (c : Char) (s : List Char) : bytes (c :: s) = c.utf8Size + bytes s := by simp [bytes]

theorem bytes_append (s t : List Char) : bytes (s ++ t) = bytes s + bytes t := by simp [bytes]

theorem offsetLoop_eq (pre post : List Char) (i : ℕ) (p : Pos) :
    offsetLoop (i + bytes pre) (pre ++ post) i p = walk p pre := by
  induction pre generalizing i p with
  | nil =>
    cases post with
    | nil => rfl
    | cons c cs => simp [offsetLoop, bytes, walk]
  | cons c cs ih =>
    have h := utf8Size_pos c
    rw [List.cons_append, offsetLoop, if_neg (by rw [bytes_cons]; omega), bytes_cons, ← Nat.add_assoc, ih]
    rfl

theorem walk_line (p : Pos) (s : List Char) : (walk p s).line + (walk p s).character ≤ p.line + p.character + s.length := by
  induction s generalizing p with
  | nil => simp [walk]
  | cons c cs ih =>
    have h := ih (advance p c)
    have h2 : (advance p c).line + (advance p c).character ≤ p.line + p.character + 1 := by
      simp only [advance]; split <;> simp; omega
    simp only [walk, List.foldl_cons, List.length_cons] at h ⊢
    omega

theorem walk_mono (p : Pos) (s : List Char) : p.line ≤ (walk p s).line := by
  induction s generalizing p with
  | nil => simp [walk]
  | cons c cs ih =>
    have h := ih (advance p c)
    have h2 : p.line ≤ (advance p c).line := by simp only [advance]; split <;> simp
    simp only [walk, List.foldl_cons] at h ⊢
    omega

theorem walk_ne (p : Pos) (c : Char) (s : List Char) (h : (walk p (c :: s)).line = p.line) :
    p.character < (walk p (c :: s)).character := by
  induction s generalizing p c with
  | nil =>
    simp only [walk, List.foldl_cons, List.foldl_nil, advance] at h ⊢
    split at h <;> simp_all
  | cons d ds ih =>
    have hm := walk_mono (advance p c) (d :: ds)
    have h' : (walk (advance p c) (d :: ds)).line = p.line := h
    have hc : c ≠ '\n' := by
      rintro rfl
      simp only [advance, if_true] at hm h'
      omega
    have hl : (advance p c).line = p.line := by simp [advance, hc]
    have := ih (advance p c) d (by rw [hl]; exact h')
    have h3 : (advance p c).character = p.character + 1 := by simp [advance, hc]
    have h4 : (walk p (c :: d :: ds)) = walk (advance p c) (d :: ds) := rfl
    rw [h4]; omega

theorem positionLoop_eq (len : ℕ) (pre post : List Char) (i : ℕ) (p : Pos) (h : len = i + bytes (pre ++ post)) :
    positionLoop len (walk p pre) (pre ++ post) i p = i + bytes pre := by
  induction pre generalizing i p with
  | nil =>
    cases post with
    | nil => simp [positionLoop, h, bytes]
    | cons c cs => simp [positionLoop, walk, bytes]
  | cons c cs ih =>
    rw [List.cons_append, positionLoop, if_neg, if_neg]
    · have := ih (i + c.utf8Size) (advance p c) (by rw [h, List.cons_append, bytes_cons]; omega)
      rw [show walk p (c :: cs) = walk (advance p c) cs from rfl, this, bytes_cons]; omega
    · rintro ⟨rfl, h2⟩
      have := walk_mono (advance p '\n') cs
      rw [show walk p ('\n' :: cs) = walk (advance p '\n') cs from rfl] at h2
      simp only [advance, if_true] at this h2
      omega
    · rintro ⟨h1, h2⟩
      have := walk_ne p c cs h1.symm
      omega

/-! ### Agreement with the protocol -/

theorem PlainEnds.tail {c : Char} {s : List Char} (h : PlainEnds (c :: s)) : PlainEnds s := by
  intro a b e
  exact h (c :: a) b (by rw [e, List.cons_append])

theorem lspPosFrom_cons {c : Char} (h1 : c ≠ '\r') (s : List Char) (p : Pos) :
    lspPosFrom (c :: s) p = if c = '\n' then lspPosFrom s ⟨p.line + 1, 0⟩ else lspPosFrom s ⟨p.line, p.character + utf16 c⟩ := by
  rw [lspPosFrom]
  · simp [h1]
  · intro s' hc; exact absurd hc h1

theorem walk_lsp (s : List Char) (hp : PlainEnds s) (hb : ∀ c ∈ s.reverse.takeWhile (· ≠ '\n'), c.val < 0x10000) (p q : Pos)
    (hl : p.line = q.line) (hc : p.character = q.character ∨ '\n' ∈ s) : walk p s = lspPosFrom s q := by
  induction hn : s.length using Nat.strong_induction_on generalizing s p q with
  | _ n ih =>
    cases s with
    | nil =>
      simp only [List.not_mem_nil, or_false] at hc
      simp only [walk, List.foldl_nil, lspPosFrom]
      cases p; cases q; simp_all
    | cons c cs =>
      have hbt : ∀ t d, c :: cs = d ++ t → ∀ x ∈ t.reverse.takeWhile (· ≠ '\n'), x.val < 0x10000 := by
        intro t d e x hx
        apply hb
        rw [e, List.reverse_append, List.takeWhile_append]
        split
        · exact List.mem_append_left _ ((List.takeWhile_subset _) hx)
        · exact hx
      by_cases hr : c = '\r'
      · subst hr
        obtain ⟨ds, rfl⟩ := hp [] cs rfl
        have := ih ds.length (by rw [← hn]; simp; omega) ds hp.tail.tail (hbt ds ['\r', '\n'] rfl) ⟨p.line + 1, 0⟩
          ⟨q.line + 1, 0⟩ (by simp [hl]) (Or.inl rfl) rfl
        rw [lspPosFrom, ← this]
        simp [walk, advance]
      · rw [lspPosFrom_cons hr]
        by_cases hnl : c = '\n'
        · subst hnl
          rw [if_pos rfl, ← ih cs.length (by rw [← hn]; simp) cs hp.tail (hbt cs ['\n'] rfl) ⟨p.line + 1, 0⟩
            ⟨q.line + 1, 0⟩ (by simp [hl]) (Or.inl rfl) rfl]
          simp [walk, advance]
        · rw [if_neg hnl, ← ih cs.length (by rw [← hn]; simp) cs hp.tail (hbt cs [c] rfl) (advance p c)
            ⟨q.line, q.character + utf16 c⟩ (by simp [advance, hnl, hl]) ?_ rfl]
          · rfl
          · by_cases hm : '\n' ∈ cs
            · exact Or.inr hm
            · left
              have hcb : c.val < 0x10000 := by
                apply hb
                rw [List.reverse_cons, List.takeWhile_append_of_pos]
                · simp [hnl]
                · intro x hx
                  simp only [ne_eq, decide_eq_true_eq]
                  rintro rfl
                  exact hm (List.mem_reverse.1 hx)
              simp only [advance, if_neg hnl, utf16, if_pos hcb]
              rcases hc with hc | hc
              · omega
              · exact absurd hc (by simp [hm, Ne.symm hnl])

/-! ### Lines -/

theorem splitInclusive_line (l rest : List Char) (h : '\n' ∉ l) :
    splitInclusive (l ++ '\n' :: rest) = (l ++ ['\n']) :: splitInclusive rest := by
  induction l with
  | nil => simp [splitInclusive]
  | cons c cs ih =>
    simp only [List.mem_cons, not_or] at h
    rw [List.cons_append, splitInclusive, if_neg (Ne.symm h.1), ih h.2]
    rfl

theorem splitInclusive_last (l : List Char) (h : '\n' ∉ l) (hl : l ≠ []) : splitInclusive l = [l] := by
  induction l with
  | nil => exact absurd rfl hl
  | cons c cs ih =>
    simp only [List.mem_cons, not_or] at h
    rw [splitInclusive, if_neg (Ne.symm h.1)]
    cases cs with
    | nil => rfl
    | cons d ds => rw [ih h.2 (by simp)]

theorem split_newline (s : List Char) : '\n' ∉ s ∨ ∃ l rest, s = l ++ '\n' :: rest ∧ '\n' ∉ l := by
  by_cases h : '\n' ∈ s
  · obtain ⟨l, rest, e, h2⟩ := List.eq_append_cons_of_mem h
    exact Or.inr ⟨l, rest, e, h2⟩
  · exact Or.inl h

theorem utf16_le (c : Char) : utf16 c ≤ c.utf8Size := by
  simp only [utf16, Char.utf8Size]
  split
  · split <;> (try split) <;> (try split) <;> omega
  · rename_i h
    rw [if_neg, if_neg, if_neg]
    · omega
    · intro h'; exact h (UInt32.lt_of_le_of_lt h' (by decide))
    · intro h'; exact h (UInt32.lt_of_le_of_lt h' (by decide))
    · intro h'; exact h (UInt32.lt_of_le_of_lt h' (by decide))

theorem charIndex_all (s : List Char) (k : ℕ) (hk : bytes s ≤ k) (hn : '\n' ∉ s) (hr : '\r' ∉ s) : charIndex k s = s.length := by
  induction s generalizing k with
  | nil => cases k <;> rfl
  | cons c cs ih =>
    simp only [List.mem_cons, not_or] at hn hr
    rw [bytes_cons] at hk
    have h0 := utf8Size_pos c
    have h16 := utf16_le c
    cases k with
    | zero => omega
    | succ k =>
      rw [charIndex, if_neg (by rintro (h | h); exacts [hn.1 h.symm, hr.1 h.symm]), ih _ (by omega) hn.2 hr.2]
      simp [Nat.add_comm]

theorem charIndex_line (s rest : List Char) (e : Char) (he : e = '\n' ∨ e = '\r') (k : ℕ) (hk : bytes s ≤ k) (hn : '\n' ∉ s)
    (hr : '\r' ∉ s) : charIndex k (s ++ e :: rest) = s.length := by
  induction s generalizing k with
  | nil => cases k <;> simp [charIndex, he]
  | cons c cs ih =>
    simp only [List.mem_cons, not_or] at hn hr
    rw [bytes_cons] at hk
    have h0 := utf8Size_pos c
    have h16 := utf16_le c
    cases k with
    | zero => omega
    | succ k =>
      rw [List.cons_append, charIndex, if_neg (by rintro (h | h); exacts [hn.1 h.symm, hr.1 h.symm]), ih _ (by omega) hn.2 hr.2]
      simp [Nat.add_comm]

theorem lspIndex_cons {c : Char} (h1 : c ≠ '\r') (s : List Char) (k n : ℕ) :
    lspIndex k (n + 1) (c :: s) = if c = '\n' then 1 + lspIndex k n s else 1 + lspIndex k (n + 1) s := by
  rw [lspIndex]
  · simp [h1]
  · intro s' hc; exact absurd hc h1

/-- A line end in the text takes one line of the position. -/
theorem lspIndex_line (l rest : List Char) (k n : ℕ) (hn : '\n' ∉ l) (hp : PlainEnds (l ++ '\n' :: rest)) :
    lspIndex k (n + 1) (l ++ '\n' :: rest) = l.length + 1 + lspIndex k n rest := by
  induction l with
  | nil => rw [List.nil_append, lspIndex_cons (by decide), if_pos rfl]; simp
  | cons c cs ih =>
    simp only [List.mem_cons, not_or] at hn
    by_cases hr : c = '\r'
    · subst hr
      obtain ⟨b', hb⟩ := hp [] (cs ++ '\n' :: rest) rfl
      cases cs with
      | nil => simp [lspIndex]
      | cons d ds =>
        simp only [List.cons_append, List.cons.injEq] at hb
        exact absurd (by simp [hb.1]) hn.2
    · rw [List.cons_append, lspIndex_cons hr, if_neg (Ne.symm hn.1), ih hn.2 hp.tail]
      simp; omega

theorem PlainEnds.rest {l rest : List Char} (h : PlainEnds (l ++ rest)) : PlainEnds rest := by
  intro a b e
  exact h (l ++ a) b (by rw [e, List.append_assoc])

theorem PlainEnds.noReturn {t rest : List Char} {e : Char} (h : PlainEnds (t ++ e :: rest)) (hn : '\n' ∉ t)
    (he : t.getLast? ≠ some '\r' ∨ e ≠ '\n') : '\r' ∉ t := by
  intro hm
  obtain ⟨a, b, rfl⟩ := List.append_of_mem hm
  obtain ⟨b', hb⟩ := h a (b ++ e :: rest) (by simp)
  cases b with
  | nil =>
    simp only [List.nil_append, List.cons.injEq] at hb
    rcases he with he | he
    · simp at he
    · exact he hb.1
  | cons d ds =>
    simp only [List.cons_append, List.cons.injEq] at hb
    exact hn (by simp [hb.1])

/-- The final line end of a document, or the empty text if its last line is not ended. -/
def FinalEnd (t e : List Char) : Prop :=
  (e = [] ∧ t ≠ [] ∧ t.getLast? ≠ some '\n') ∨ (e = ['\n'] ∧ t.getLast? ≠ some '\r') ∨ e = ['\r', '\n']

/-- The end of the range of the formatting edit is the place before the final line end. -/
theorem index_last (t e : List Char) (hp : PlainEnds (t ++ e)) (he : FinalEnd t e) :
    ∃ last, (lines (t ++ e)).getLast? = some last ∧ bytes last ≤ bytes t ∧
      (lines (t ++ e)).length ≤ (t ++ e).length ∧
      lspIndex (bytes last) ((lines (t ++ e)).length - 1) (t ++ e) = t.length := by
  induction hlen : t.length using Nat.strong_induction_on generalizing t with
  | _ n ih =>
    rcases split_newline t with hn | ⟨l, rest, rfl, hn⟩
    · -- one line
      have hr : '\r' ∉ t := by
        rcases he with ⟨rfl, -, -⟩ | ⟨rfl, h⟩ | rfl
        · intro hm
          obtain ⟨a, b, rfl⟩ := List.append_of_mem hm
          obtain ⟨b', hb⟩ := hp a b (by simp)
          exact hn (by simp [hb])
        · exact hp.noReturn hn (Or.inl h)
        · exact hp.noReturn hn (Or.inr (by decide))
      have hl : lines (t ++ e) = [t] := by
        rcases he with ⟨rfl, h1, h2⟩ | ⟨rfl, h⟩ | rfl
        · rw [List.append_nil, lines, splitInclusive_last t hn h1]
          simp [stripEnd, h2]
        · rw [lines, splitInclusive_line t [] hn]
          simp [stripEnd, splitInclusive, h]
        · have := splitInclusive_line (t ++ ['\r']) [] (by simp [hn])
          rw [show t ++ ['\r', '\n'] = (t ++ ['\r']) ++ '\n' :: [] by simp, lines, this]
          have e1 : (t ++ ['\r'] ++ ['\n']).dropLast = t ++ ['\r'] := List.dropLast_concat
          simp only [stripEnd, splitInclusive, List.map_cons, List.map_nil, e1, List.dropLast_concat]
          simp
      refine ⟨t, by rw [hl]; rfl, Nat.le_refl _, ?_, ?_⟩
      · rw [hl]
        rcases he with ⟨rfl, h1, _⟩ | ⟨rfl, _⟩ | rfl
        · have := List.length_pos_iff.2 h1; simp; omega
        · simp
        · simp
      · rw [hl]
        simp only [List.length_singleton, Nat.sub_self, lspIndex]
        rcases he with ⟨rfl, h1, h2⟩ | ⟨rfl, h⟩ | rfl
        · rw [List.append_nil]; exact hlen ▸ charIndex_all t _ (Nat.le_refl _) hn hr
        · exact hlen ▸ charIndex_line t [] _ (Or.inl rfl) _ (Nat.le_refl _) hn hr
        · exact hlen ▸ charIndex_line t ['\n'] _ (Or.inr rfl) _ (Nat.le_refl _) hn hr
    · rw [List.append_assoc, List.cons_append] at hp ⊢
      have he' : FinalEnd rest e ∨ (e = ['\n'] ∧ rest = []) := by
        rcases he with ⟨rfl, h1, h2⟩ | ⟨rfl, h⟩ | rfl
        · refine Or.inl (Or.inl ⟨rfl, ?_, ?_⟩)
          · rintro rfl; simp at h2
          · intro h; apply h2; rw [List.getLast?_append, List.getLast?_cons, h]; rfl
        · left; right; left
          refine ⟨rfl, ?_⟩
          intro h'; apply h; rw [List.getLast?_append, List.getLast?_cons, h']; rfl
        · exact Or.inl (Or.inr (Or.inr rfl))
      rw [show lines (l ++ '\n' :: (rest ++ e)) = stripEnd (l ++ ['\n']) :: lines (rest ++ e) by
        rw [lines, splitInclusive_line l _ hn]; rfl]
      have hpr : PlainEnds (rest ++ e) := by
        have := hp.rest (l := l)
        exact this.tail
      have hfe : FinalEnd rest e := by
        rcases he' with h | ⟨rfl, rfl⟩
        · exact h
        · exact Or.inr (Or.inl ⟨rfl, by simp⟩)
      obtain ⟨last, h1, h2, h3, h4⟩ := ih rest.length (by rw [← hlen]; simp; omega) rest hpr hfe rfl
      have hne : lines (rest ++ e) ≠ [] := by intro h; rw [h] at h1; simp at h1
      have hpos := List.length_pos_iff.2 hne
      refine ⟨last, ?_, ?_, ?_, ?_⟩
      · rw [List.getLast?_cons, h1]; rfl
      · rw [bytes_append, bytes_cons]; omega
      · simp only [List.length_cons, List.length_append] at h3 ⊢; omega
      · rw [List.length_cons, show (lines (rest ++ e)).length + 1 - 1 = ((lines (rest ++ e)).length - 1) + 1 by omega,
          lspIndex_line l _ _ _ hn hp, h4, ← hlen]
        simp; omega

theorem length_le_bytes (s : List Char) : s.length ≤ bytes s := by
  induction s with
  | nil => simp
  | cons c cs ih => have := utf8Size_pos c; rw [bytes_cons, List.length_cons]; omega

theorem utf16_pos (c : Char) : 1 ≤ utf16 c := by unfold utf16; split <;> omega

theorem lspIndex_step (k n : ℕ) (c : Char) (s : List Char) (h : ¬ (c = '\r' ∧ ∃ t, s = '\n' :: t)) :
    lspIndex k (n + 1) (c :: s) =
      if c = '\n' ∨ c = '\r' then 1 + lspIndex k n s else 1 + lspIndex k (n + 1) s := by
  rw [lspIndex]
  rintro t rfl rfl
  exact h ⟨rfl, t, rfl⟩

theorem charIndex_cons (k : ℕ) (c : Char) (s : List Char) (hk : 1 ≤ k) (h : ¬ (c = '\n' ∨ c = '\r')) :
    charIndex k (c :: s) = 1 + charIndex (k - utf16 c) s := by
  obtain ⟨j, rfl⟩ : ∃ j, k = j + 1 := ⟨k - 1, by omega⟩
  rw [charIndex, if_neg h]

/-- The position of a place leads back to the place. -/
theorem lspIndex_from (after : List Char) (before : List Char) (p : Pos)
    (h : ∀ b a, before = b ++ ['\r'] → after ≠ '\n' :: a) :
    p.line ≤ (lspPosFrom before p).line ∧
    ((lspPosFrom before p).line = p.line → p.character ≤ (lspPosFrom before p).character ∧
      charIndex ((lspPosFrom before p).character - p.character) (before ++ after) = before.length) ∧
    (p.line < (lspPosFrom before p).line →
      lspIndex (lspPosFrom before p).character ((lspPosFrom before p).line - p.line) (before ++ after) = before.length) := by
  fun_induction lspPosFrom before p with
  | case1 p => simp [charIndex]
  | case2 s p ih =>
    obtain ⟨h1, h2, h3⟩ := ih (fun b a e => h ('\r' :: '\n' :: b) a (by simp [e]))
    simp only at h1 h2 h3
    refine ⟨by omega, fun e => by omega, fun _ => ?_⟩
    obtain ⟨n, hn⟩ : ∃ n, (lspPosFrom s ⟨p.line + 1, 0⟩).line = p.line + 1 + n := ⟨_, (Nat.add_sub_cancel' h1).symm⟩
    rw [hn] at h2 h3 ⊢
    rw [show p.line + 1 + n - p.line = n + 1 by omega, List.cons_append, List.cons_append, lspIndex]
    rcases Nat.eq_zero_or_pos n with rfl | hp
    · have := (h2 (by omega)).2
      simp only [lspIndex, List.length_cons]; simp only [Nat.sub_zero] at this; omega
    · have := h3 (by omega)
      rw [show p.line + 1 + n - (p.line + 1) = n by omega] at this
      simp only [List.length_cons]; omega
  | case3 c s p hne hc ih =>
    obtain ⟨h1, h2, h3⟩ := ih (fun b a e => h (c :: b) a (by simp [e]))
    simp only at h1 h2 h3
    refine ⟨by omega, fun e => by omega, fun _ => ?_⟩
    obtain ⟨n, hn⟩ : ∃ n, (lspPosFrom s ⟨p.line + 1, 0⟩).line = p.line + 1 + n := ⟨_, (Nat.add_sub_cancel' h1).symm⟩
    rw [hn] at h2 h3 ⊢
    rw [show p.line + 1 + n - p.line = n + 1 by omega, List.cons_append, lspIndex_step, if_pos hc]
    · rcases Nat.eq_zero_or_pos n with rfl | hp
      · have := (h2 (by omega)).2
        simp only [lspIndex, List.length_cons]; simp only [Nat.sub_zero] at this; omega
      · have := h3 (by omega)
        rw [show p.line + 1 + n - (p.line + 1) = n by omega] at this
        simp only [List.length_cons]; omega
    · rintro ⟨rfl, t, ht⟩
      cases s with
      | nil => exact h [] t rfl ht
      | cons d s' =>
        simp only [List.cons_append, List.cons.injEq] at ht
        exact hne s' rfl (by rw [ht.1])
  | case4 c s p hne hc ih =>
    obtain ⟨h1, h2, h3⟩ := ih (fun b a e => h (c :: b) a (by simp [e]))
    simp only at h1 h2 h3
    have hu := utf16_pos c
    refine ⟨h1, fun e => ?_, fun e => ?_⟩
    · obtain ⟨h4, h5⟩ := h2 e
      refine ⟨by omega, ?_⟩
      rw [List.cons_append, charIndex_cons _ _ _ (by omega) hc,
        show ∀ x : ℕ, x - p.character - utf16 c = x - (p.character + utf16 c) from fun x => by omega, h5, List.length_cons]
      omega
    · have := h3 e
      obtain ⟨n, hn⟩ : ∃ n, (lspPosFrom s ⟨p.line, p.character + utf16 c⟩).line - p.line = n + 1 :=
        ⟨_, (Nat.succ_pred_eq_of_pos (by omega)).symm⟩
      rw [hn] at this ⊢
      rw [List.cons_append, lspIndex_step _ _ _ _ (fun h => hc (Or.inr h.1)), if_neg hc, this, List.length_cons]
      omega

end LsText
end CairoM
