import Verif.LexLemmas

/-!
# C76: texts are split into tokens by longest match; C77: number literals denote their value

The specification is `LexSpec.lean`.
-/

namespace CairoM.Syntax

/-- A text that writes a sequence of tokens, with any layout and any comments, is read as this sequence. -/
theorem C76_read (s : List Char) (ts : List Token) (h : Spelled true s ts) : lex s = some ts := lex_spelled h

/-- Conversely every text that is read (and has no unknown number suffix, which the parser refuses) writes the tokens
that were read. Together with `C76_read`: the tokens of a text are exactly the sequence it writes. -/
theorem C76_read_conv (s : List Char) (ts : List Token) (h : lex s = some ts) (hk : ∀ t ∈ ts, t.knownSuffix = true) :
    Spelled true s ts := spelled_lex _ s ts (Nat.lt_succ_self _) h hk

/-- A text writes at most one sequence of tokens. -/
theorem C76_unique (s : List Char) (ts us : List Token) (h : Spelled true s ts) (h' : Spelled true s us) : ts = us := by
  have h1 := lex_spelled h
  rw [lex_spelled h'] at h1
  simpa using h1.symm

/-- Layout does not matter: two texts that write the same tokens are the same program. -/
theorem C76_layout (s s' : List Char) (ts : List Token) (h : Spelled true s ts) (h' : Spelled true s' ts) :
    parseSource s = parseSource s' := by
  rw [parseSource, parseSource, lex_spelled h, lex_spelled h']

/-- A literal is read as the number its digits denote, whatever follows. -/
theorem C77_value (p ds s rest : List Char) (base : Nat) (suffix : Option String) (hp : BasePrefix p base) (hne : ds ≠ [])
    (hd : ∀ c ∈ ds, isDigitIn base c = true) (hs : Suffix s suffix) (hv : positional base ds < 2 ^ 64)
    (hrest : ∀ c, rest.head? = some c → isWord c = false) :
    lex (p ++ ds ++ s ++ rest) = (lex rest).map (.number (positional base ds) suffix :: ·) := by
  apply lex_token
  rw [lexStep_number hp hne hd hs hrest, if_pos hv]

/-- A literal that does not fit into 64 bits makes the text invalid. -/
theorem C77_overflow (p ds s rest : List Char) (base : Nat) (suffix : Option String) (hp : BasePrefix p base)
    (hne : ds ≠ []) (hd : ∀ c ∈ ds, isDigitIn base c = true) (hs : Suffix s suffix) (hv : 2 ^ 64 ≤ positional base ds)
    (hrest : ∀ c, rest.head? = some c → isWord c = false) :
    lex (p ++ ds ++ s ++ rest) = none ∧ parseSource (p ++ ds ++ s ++ rest) = none := by
  have h : lex (p ++ ds ++ s ++ rest) = none := by
    apply lex_error
    rw [lexStep_number hp hne hd hs hrest, if_neg (by omega)]
  exact ⟨h, by rw [parseSource, h]⟩

/-- A word that begins with a digit is accepted exactly if it is a prefix, digits of this base and a suffix, with a
value below `2^64`, which is then the value that is read. -/
theorem C77_iff (w : List Char) (hw : ∃ c, w.head? = some c ∧ c.isDigit = true) (hall : ∀ c ∈ w, isWord c = true) (v : Nat)
    (suffix : Option String) :
    (lex w = some [.number v suffix] ∧ (Token.number v suffix).knownSuffix = true) ↔
      ∃ p base ds s, w = p ++ ds ++ s ∧ BasePrefix p base ∧ ds ≠ [] ∧ (∀ c ∈ ds, isDigitIn base c = true) ∧
        Suffix s suffix ∧ v = positional base ds ∧ v < 2 ^ 64 := by
  constructor
  · rintro ⟨h, hk⟩
    obtain ⟨c, hc, hd⟩ := hw
    cases w with
    | nil => simp at hc
    | cons c' cs =>
      simp only [List.head?_cons, Option.some.injEq] at hc
      subst hc
      obtain ⟨h1, h2⟩ := word_not_space (hall c' (by simp))
      obtain ⟨h4, h5⟩ := takeWhile_app (p := isWordChar) (l := cs) (r := []) (fun x hx => hall x (by simp [hx]))
        (by simp)
      rw [List.append_nil] at h4 h5
      have hst : lexStep (c' :: cs) = match parseNumber (c' :: cs) with
          | .ok (v, s) => .token (.number v s) []
          | .error _ => .error := by
        rw [lexStep, h1, hd, h4, h5]
        simp [h2]
        rcases parseNumber (c' :: cs) with _ | ⟨_, _⟩ <;> rfl
      cases hn : parseNumber (c' :: cs) with
      | error e =>
        rw [hn] at hst
        rw [lex_error hst] at h
        simp at h
      | ok x =>
        obtain ⟨v', suf'⟩ := x
        rw [hn] at hst
        rw [lex_token hst, lex_done rfl] at h
        simp only [Option.map_some, Option.some.injEq, List.cons.injEq, Token.number.injEq, and_true] at h
        obtain ⟨rfl, rfl⟩ := h
        obtain ⟨p, base, ds, s, hw, hp, hne, hd, hv, hv2, hsuf⟩ := parseNumber_inv hn
        refine ⟨p, base, ds, s, hw, hp, hne, hd, ?_, hv, hv2⟩
        by_cases he : s = []
        · subst he; rw [hsuf]; exact .none
        · rw [if_neg (by simpa using he)] at hsuf
          subst hsuf
          simp only [Token.knownSuffix, Bool.or_eq_true, beq_iff_eq] at hk
          rcases hk with hk | hk
          · have : s = "felt".toList := by
              have := congrArg String.toList hk
              simpa using this
            subst this
            exact .felt
          · have : s = "u32".toList := by
              have := congrArg String.toList hk
              simpa using this
            subst this
            exact .u32
  · rintro ⟨p, base, ds, s, rfl, hp, hne, hd, hs, rfl, hv⟩
    have h := C77_value p ds s [] base suffix hp hne hd hs hv (by simp)
    rw [List.append_nil, lex_done (s := []) rfl] at h
    exact ⟨h, by cases hs <;> rfl⟩

/-- In every text that is read, every number token stands for a literal of the text with this value. -/
theorem C77_text (src : List Char) (ts : List Token) (h : lex src = some ts) (hk : ∀ t ∈ ts, t.knownSuffix = true) (v : Nat)
    (suffix : Option String) (hv : .number v suffix ∈ ts) :
    v < 2 ^ 64 ∧ ∃ p base ds s, BasePrefix p base ∧ ds ≠ [] ∧ (∀ c ∈ ds, isDigitIn base c = true) ∧ Suffix s suffix ∧
      v = positional base ds ∧ p ++ ds ++ s <:+: src := by
  have hsp := C76_read_conv src ts h hk
  clear h hk
  induction hsp with
  | nil => simp at hv
  | space _ _ ih =>
    obtain ⟨h0, p, base, ds, s, h1, h2, h3, h4, h5, h6⟩ := ih hv
    exact ⟨h0, p, base, ds, s, h1, h2, h3, h4, h5, h6.trans (List.suffix_cons _ _).isInfix⟩
  | comment _ _ _ _ ih =>
    obtain ⟨h0, p, base, ds, s, h1, h2, h3, h4, h5, h6⟩ := ih hv
    exact ⟨h0, p, base, ds, s, h1, h2, h3, h4, h5, h6.trans (List.suffix_append _ _).isInfix⟩
  | token hw _ _ ih =>
    rcases List.mem_cons.1 hv with heq | hv
    · subst heq
      cases hw with
      | symbol h => simp [Token.symbol] at h
      | number h1 h2 h3 h4 h5 =>
        exact ⟨h4, _, _, _, _, h1, h2, h3, h5, rfl, (List.prefix_append _ _).isInfix⟩
    · obtain ⟨h0, p, base, ds, s, h1, h2, h3, h4, h5, h6⟩ := ih hv
      exact ⟨h0, p, base, ds, s, h1, h2, h3, h4, h5, h6.trans (List.suffix_append _ _).isInfix⟩

/-! ## Concrete cases -/

example : lex "let x=0xFFfelt; // c\n x<=-1".toList =
    some [.let_, .identifier "x", .eq_, .number 255 (some "felt"), .semicolon, .identifier "x", .lessEqual, .minus,
      .number 1 none] := by decide +kernel

/-- The hypotheses of `C77_value` for `0xFFfelt`. -/
example : BasePrefix "0x".toList 16 ∧ (∀ c ∈ "FF".toList, isDigitIn 16 c = true) ∧ Suffix "felt".toList (some "felt") ∧
    positional 16 "FF".toList = 255 := ⟨.hexLower, by decide +kernel, .felt, by decide +kernel⟩

/-- The hypotheses of `C77_overflow`: `2^64` in decimal. -/
example : BasePrefix [] 10 ∧ (∀ c ∈ "18446744073709551616".toList, isDigitIn 10 c = true) ∧
    2 ^ 64 ≤ positional 10 "18446744073709551616".toList := ⟨.decimal, by decide +kernel, by decide +kernel⟩

example : lex "18446744073709551615".toList = some [.number 18446744073709551615 none] := by decide +kernel
example : lex "0b12".toList = none ∧ lex "0xfelt".toList = none ∧ lex "0x".toList = none ∧ lex "1u32felt".toList = none := by
  decide +kernel

/-- Digits have the usual values. -/
example : "0123456789".toList.map digitValue = [0, 1, 2, 3, 4, 5, 6, 7, 8, 9] ∧
    "abcdef".toList.map digitValue = [10, 11, 12, 13, 14, 15] ∧
    "ABCDEF".toList.map digitValue = [10, 11, 12, 13, 14, 15] := by decide +kernel

/-- Without white space where the neighbours merge, the text is another one. -/
example : lex "a<=b".toList ≠ lex "a< =b".toList ∧ lex "a b".toList ≠ lex "ab".toList := by decide +kernel

/-- A spelling, for the hypothesis of `C76_read`: `-x`. -/
example : Spelled true "-x".toList [.minus, .identifier "x"] := by
  have hx : Spells ['x'] (.identifier "x") :=
    .name ⟨⟨'x', rfl, by decide⟩, by decide, fun t => by cases t <;> simp [Token.symbol]⟩
  have h1 : Spelled true ['x'] [.identifier "x"] := Spelled.token (s := []) hx (by simp) .nil
  show Spelled true (['-'] ++ ['x']) _
  refine Spelled.token (w := ['-']) (.symbol rfl) ?_ h1
  intro d hd
  simp at hd
  subst hd
  rintro (⟨t, ht⟩ | h | ⟨⟨c, hc, hw⟩, _⟩)
  · cases t <;> simp [Token.symbol] at ht
  · simp at h
  · simp at hc
    subst hc
    simp [isWord] at hw

end CairoM.Syntax
