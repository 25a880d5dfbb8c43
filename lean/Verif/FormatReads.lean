import Verif.FormatLayout
import Verif.FormatSpec

/-!
# What a rendering spells

`Writes ps ts`: every layout of the pieces spells the tokens, if what follows cannot merge with the last word.
-/

namespace CairoM.Syntax

/-- The character is never the continuation of a token. -/
def safeChar (c : Char) : Bool := !isWord c && !['&', '|', '=', '>', ':', '/'].contains c

def SafeFirst (r : List Char) : Prop := ∀ d, r.head? = some d → safeChar d = true

/-- The first character of any layout is safe. -/
def safeStart : List Piece → Bool
  | .word (c :: _) :: _ => safeChar c
  | _ => true

def Writes (ps : List Piece) (ts : List Token) : Prop :=
  ∀ s, Layout ps s → ∀ r rs, Spelled false r rs → SafeFirst r → Spelled false (s ++ r) (ts ++ rs)

theorem blank_safe {c : Char} (h : isBlank c = true) : safeChar c = true := by
  simp only [isBlank, Bool.or_eq_true, beq_iff_eq] at h
  rcases h with ((rfl | rfl) | rfl) | rfl <;> decide

theorem twoChar_second : ∀ x ∈ twoChar, safeChar x.1.2 = false := by decide +kernel

theorem safe_no_glue {w : List Char} {d : Char} (hw : w ≠ []) (h : safeChar d = true) : ¬ Glues w d := by
  have hd : isWord d = false := by
    simp only [safeChar, Bool.and_eq_true, Bool.not_eq_true'] at h
    exact h.1
  rintro (⟨t, ht⟩ | h1 | ⟨_, h2⟩)
  · rcases symbol_cases ht with h1 | ⟨a, b, hab, h1⟩ | ⟨a, ha, h1⟩
    · have := (keywords_word _ (lookup_mem h1)).2 d (by simp)
      rw [hd] at this; simp at this
    · have h2 := twoChar_second _ (lookup_mem h1)
      have : d = b := by
        have := congrArg List.getLast? hab
        simpa using this
      subst this
      rw [h] at h2; simp at h2
    · cases w with
      | nil => exact hw rfl
      | cons c cs => simp at ha
  · have : d = '/' := by
      have := congrArg List.getLast? h1
      simpa using this
    subst this
    simp [safeChar] at h
  · rw [hd] at h2; simp at h2

theorem safe_append {ps : List Piece} {s r : List Char} (hs : safeStart ps = true) (h : Layout ps s) (hr : SafeFirst r) :
    SafeFirst (s ++ r) := by
  cases h with
  | nil => exact hr
  | @word w ps s h1 h2 _ =>
    cases w with
    | nil => exact absurd rfl h2
    | cons c cs =>
      intro d hd
      simp at hd
      subst hd
      exact hs
  | gap h1 _ =>
    intro d hd
    simp at hd
    subst hd
    exact blank_safe h1
  | space h1 _ =>
    intro d hd
    simp at hd
    subst hd
    exact blank_safe h1

theorem layout_append_inv {ps qs : List Piece} : ∀ {s : List Char}, Layout (ps ++ qs) s →
    ∃ s1 s2, s = s1 ++ s2 ∧ Layout ps s1 ∧ Layout qs s2 := by
  intro s h
  generalize hp : ps ++ qs = rs at h
  induction h generalizing ps with
  | nil =>
    simp at hp
    obtain ⟨rfl, rfl⟩ := hp
    exact ⟨[], [], rfl, .nil, .nil⟩
  | @word w rs s h1 h2 h3 ih =>
    cases ps with
    | nil => exact ⟨[], _, rfl, .nil, by rw [List.nil_append] at hp; rw [hp]; exact .word h1 h2 h3⟩
    | cons p ps =>
      simp only [List.cons_append, List.cons.injEq] at hp
      obtain ⟨rfl, hp⟩ := hp
      obtain ⟨s1, s2, rfl, i1, i2⟩ := ih hp
      exact ⟨w ++ s1, s2, by simp, .word h1 h2 i1, i2⟩
  | @gap c rs s h1 h3 ih =>
    cases ps with
    | nil => exact ⟨[], _, rfl, .nil, by rw [List.nil_append] at hp; rw [hp]; exact .gap h1 h3⟩
    | cons p ps =>
      simp only [List.cons_append, List.cons.injEq] at hp
      obtain ⟨rfl, hp⟩ := hp
      obtain ⟨s1, s2, rfl, i1, i2⟩ := ih hp
      exact ⟨c :: s1, s2, by simp, .gap h1 i1, i2⟩
  | @space c rs s h1 h3 ih =>
    obtain ⟨s1, s2, rfl, i1, i2⟩ := ih hp
    exact ⟨c :: s1, s2, rfl, .space h1 i1, i2⟩

theorem layout_nil {s : List Char} (h : Layout [] s) : ∀ c ∈ s, isBlank c = true := by
  generalize hp : ([] : List Piece) = ps at h
  induction h with
  | nil => simp
  | word => simp at hp
  | gap => simp at hp
  | space h1 _ ih =>
    intro x hx
    rcases List.mem_cons.1 hx with rfl | hx
    · exact h1
    · exact ih hp x hx

theorem spelled_blanks {b s : List Char} {ts : List Token} (h : ∀ c ∈ b, isBlank c = true) (hs : Spelled false s ts) :
    Spelled false (b ++ s) ts := by
  induction b with
  | nil => exact hs
  | cons c cs ih => exact .space (h c (by simp)) (ih (fun c hc => h c (by simp [hc])))

theorem layout_word {w : List Char} {ps : List Piece} {s : List Char} (h : Layout (.word w :: ps) s) :
    ∃ b s', s = b ++ (w ++ s') ∧ (∀ c ∈ b, isBlank c = true) ∧ w ≠ [] ∧ Layout ps s' := by
  generalize hp : Piece.word w :: ps = rs at h
  induction h with
  | nil => simp at hp
  | @word w' ps' s' h1 h2 h3 _ =>
    simp only [List.cons.injEq, Piece.word.injEq] at hp
    obtain ⟨rfl, rfl⟩ := hp
    exact ⟨[], s', rfl, by simp, h2, h3⟩
  | gap => simp at hp
  | @space c ps' s' h1 _ ih =>
    obtain ⟨b, s'', rfl, hb, hw, hl⟩ := ih hp
    refine ⟨c :: b, s'', rfl, ?_, hw, hl⟩
    intro x hx
    rcases List.mem_cons.1 hx with rfl | hx
    · exact h1
    · exact hb x hx

theorem Writes.nil : Writes [] [] := by
  intro s h r rs hr _
  exact spelled_blanks (layout_nil h) hr

theorem Writes.append {ps qs : List Piece} {ts us : List Token} (h : Writes ps ts) (h' : Writes qs us)
    (hq : safeStart qs = true) : Writes (ps ++ qs) (ts ++ us) := by
  intro s hs r rs hr hsafe
  obtain ⟨s1, s2, rfl, h1, h2⟩ := layout_append_inv hs
  rw [List.append_assoc, List.append_assoc]
  exact h s1 h1 _ _ (h' s2 h2 r rs hr hsafe) (safe_append hq h2 hsafe)

theorem Writes.gap {ps : List Piece} {ts : List Token} (h : Writes ps ts) : Writes (.gap :: ps) ts := by
  intro s hs
  generalize hp : Piece.gap :: ps = rs at hs
  induction hs with
  | nil => simp at hp
  | word => simp at hp
  | gap h1 hl _ =>
    simp only [List.cons.injEq, true_and] at hp
    subst hp
    intro r rs hr hsafe
    exact .space h1 (h _ hl r rs hr hsafe)
  | space h1 _ ih =>
    intro r rs hr hsafe
    exact .space h1 (ih hp r rs hr hsafe)

/-- A word that is a token, followed by something with which it does not merge. -/
theorem Writes.word' {w : List Char} {t : Token} {ps : List Piece} {ts : List Token} (hw : Spells w t) (h : Writes ps ts)
    (hg : ∀ s r, Layout ps s → SafeFirst r → ∀ d, (s ++ r).head? = some d → ¬ Glues w d) :
    Writes (.word w :: ps) (t :: ts) := by
  intro s hs r rs hr hsafe
  obtain ⟨b, s', rfl, hb, _, hl⟩ := layout_word hs
  rw [List.append_assoc, List.append_assoc]
  refine spelled_blanks hb ?_
  exact .token hw (hg s' r hl hsafe) (h s' hl r rs hr hsafe)

theorem Writes.word {w : List Char} {t : Token} {ps : List Piece} {ts : List Token} (hw : Spells w t) (hne : w ≠ [])
    (h : Writes ps ts) (hs : safeStart ps = true) : Writes (.word w :: ps) (t :: ts) :=
  Writes.word' hw h (fun _ _ hl hsafe d hd => safe_no_glue hne (safe_append hs hl hsafe d hd))

/-- Tokens that never merge with what follows. -/
def closedToken : Token → Bool
  | .lParen | .rParen | .lBrace | .rBrace | .lBrack | .rBrack | .comma | .semicolon | .dot | .colonColon | .mul => true
  | _ => false

theorem closed_no_glue {t : Token} {w : List Char} (h : closedToken t = true) (hw : t.symbol = some w) (d : Char) :
    ¬ Glues w d := by
  rintro (⟨t', ht'⟩ | h1 | ⟨⟨c, hc, hcw⟩, _⟩)
  · rcases symbol_cases ht' with h1 | ⟨a, b, hab, h1⟩ | ⟨a, ha, h1⟩
    · have h2 := (keywords_word _ (lookup_mem h1)).2
      cases t <;> simp only [closedToken, Bool.false_eq_true] at h <;> simp only [Token.symbol, Option.some.injEq] at hw <;>
        subst hw <;> exact absurd (h2 _ (by simp; exact Or.inl rfl)) (by decide)
    · have h2 : twoChar.all (fun x => !['(', ')', '{', '}', '[', ']', ',', ';', '.', '*'].contains x.1.1) = true := by
        decide +kernel
      have h3 := List.all_eq_true.1 h2 _ (lookup_mem h1)
      cases t <;> simp only [closedToken, Bool.false_eq_true] at h <;> simp only [Token.symbol, Option.some.injEq] at hw <;>
        subst hw <;> simp at hab <;> simp [← hab.1] at h3
    · cases t <;> simp only [closedToken, Bool.false_eq_true] at h <;> simp only [Token.symbol, Option.some.injEq] at hw <;>
        subst hw <;> simp at ha
  · cases t <;> simp only [closedToken, Bool.false_eq_true] at h <;> simp only [Token.symbol, Option.some.injEq] at hw <;>
        subst hw <;> simp at h1
  · cases t <;> simp only [closedToken, Bool.false_eq_true] at h <;> simp only [Token.symbol, Option.some.injEq] at hw <;>
        subst hw <;> simp at hc <;> subst hc <;> simp [isWord] at hcw

theorem Writes.closed {t : Token} {w : List Char} {ps : List Piece} {ts : List Token} (hw : t.symbol = some w)
    (hc : closedToken t = true) (h : Writes ps ts) : Writes (.word w :: ps) (t :: ts) :=
  Writes.word' (.symbol hw) h (fun _ _ _ _ d _ => closed_no_glue hc hw d)

/-! ## Names and numbers -/

/-- The token has a spelling. -/
def Writable (t : Token) : Prop := ∃ w, Spells w t

theorem split_word {s : List Char} (h : ∀ c ∈ s, isBlank c = false) (hne : s ≠ []) : splitWords s = [.word s] := by
  induction s with
  | nil => exact absurd rfl hne
  | cons c cs ih =>
    rw [splitWords, if_neg (by rw [h c (by simp)]; simp)]
    by_cases hcs : cs = []
    · subst hcs; rfl
    · rw [ih (fun c hc => h c (by simp [hc])) hcs]

theorem word_not_blank {c : Char} (h : isWord c = true) : isBlank c = false := (word_not_space h).1

theorem writable_ident {s : String} (h : Writable (.identifier s)) : Spells s.toList (.identifier s) ∧ IsName s.toList := by
  obtain ⟨w, hw⟩ := h
  generalize ht : Token.identifier s = t at hw
  cases hw with
  | symbol h => subst ht; simp [Token.symbol] at h
  | name h =>
    simp only [Token.identifier.injEq] at ht
    subst ht
    rw [String.toList_ofList]
    exact ⟨.name h, h⟩
  | number => simp at ht

theorem name_word {w : List Char} (h : IsName w) : splitWords w = [.word w] ∧ w ≠ [] := by
  obtain ⟨⟨c, hc, _⟩, hall, _⟩ := h
  have hne : w ≠ [] := by rintro rfl; simp at hc
  exact ⟨split_word (fun c hc => word_not_blank (hall c hc)) hne, hne⟩

theorem writes_ident {s : String} (h : Writable (.identifier s)) : (Doc.str s).pieces = [.word s.toList] ∧
    Spells s.toList (.identifier s) ∧ s.toList ≠ [] := by
  obtain ⟨h1, h2⟩ := writable_ident h
  obtain ⟨h3, h4⟩ := name_word h2
  exact ⟨by rw [Doc.str, Doc.pieces]; exact h3, h1, h4⟩

theorem writable_number {n : Nat} {s : Option String} (h : Writable (.number n s)) : n < 2 ^ 64 ∧ ∃ w, Suffix w s := by
  obtain ⟨w, hw⟩ := h
  generalize ht : Token.number n s = t at hw
  cases hw with
  | symbol h => subst ht; simp [Token.symbol] at h
  | name h => simp at ht
  | number _ _ _ hv hs =>
    simp only [Token.number.injEq] at ht
    obtain ⟨rfl, rfl⟩ := ht
    exact ⟨hv, _, hs⟩

theorem fold_digits (ds : List Char) (h : ∀ c ∈ ds, c.isDigit = true) (a : Nat) :
    ds.foldl (fun v c => v * 10 + digitValue c) a = Nat.ofDigitChars 10 ds a := by
  induction ds generalizing a with
  | nil => rfl
  | cons c cs ih =>
    rw [List.foldl_cons, ih (fun c hc => h c (by simp [hc])), Nat.ofDigitChars, Nat.ofDigitChars, List.foldl_cons]
    rw [digitValue, if_pos (h c (by simp)), Nat.mul_comm]

theorem decimal_digits (n : Nat) : ∀ c ∈ decimal n, c.isDigit = true :=
  fun _ hc => Nat.isDigit_of_mem_toDigits (by omega) (by omega) hc

theorem decimal_value (n : Nat) : positional 10 (decimal n) = n := by
  rw [positional, fold_digits _ (decimal_digits n)]
  exact Nat.ofDigitChars_ten_toDigits

theorem decimal_ne (n : Nat) : decimal n ≠ [] := Nat.toDigits_ne_nil

theorem digit_ten {c : Char} (h : c.isDigit = true) : isDigitIn 10 c = true := by
  have := char_digit h
  have e : '0'.toNat = 48 := rfl
  simp only [isDigitIn, digitValue, h, Bool.or_true, Bool.true_and, if_pos, decide_eq_true_eq, e]
  omega

/-- The characters of a suffix. -/
def suffixChars : Option String → List Char
  | some s => s.toList
  | none => []

theorem suffix_chars {w : List Char} {s : Option String} (h : Suffix w s) : w = suffixChars s := by
  cases h <;> rfl

theorem writes_number {n : Nat} {s : Option String} (h : Writable (.number n s)) :
    splitWords (decimal n ++ suffixChars s) = [.word (decimal n ++ suffixChars s)] ∧
    Spells (decimal n ++ suffixChars s) (.number n s) ∧ decimal n ++ suffixChars s ≠ [] := by
  obtain ⟨h1, w, hw⟩ := writable_number h
  have hs := suffix_chars hw
  subst hs
  refine ⟨?_, ?_, by simp [decimal_ne]⟩
  · apply split_word
    · intro c hc
      rcases List.mem_append.1 hc with hc | hc
      · exact word_not_blank (by simp [isWord, decimal_digits n c hc])
      · exact word_not_blank (suffix_word hw c hc)
    · simp [decimal_ne]
  · have h2 := Spells.number (p := []) .decimal (decimal_ne n) (fun c hc => digit_ten (decimal_digits n c hc))
      (by rw [decimal_value]; exact h1) hw
    rw [decimal_value] at h2
    exact h2

end CairoM.Syntax
