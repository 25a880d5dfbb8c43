import Verif.Lexer
import Verif.LexSpec

/-!
# Lemmas on the lexer
-/

namespace CairoM.Syntax

theorem isSpace_eq (c : Char) : isSpace c = isBlank c := rfl
theorem isWordChar_eq (c : Char) : isWordChar c = isWord c := rfl

theorem suffixOk_eq (t : Token) : suffixOk t = t.knownSuffix := by
  cases t <;> rfl

/-! ## Number literals -/

theorem char_digit {c : Char} (h : c.isDigit = true) : 48 ≤ c.toNat ∧ c.toNat ≤ 57 := by
  simp only [Char.isDigit, Bool.and_eq_true, decide_eq_true_eq, ge_iff_le, UInt32.le_iff_toNat_le] at h
  simpa using h

theorem char_lower {c : Char} (h : c.isLower = true) : 97 ≤ c.toNat ∧ c.toNat ≤ 122 := by
  simp only [Char.isLower, Bool.and_eq_true, decide_eq_true_eq, ge_iff_le, UInt32.le_iff_toNat_le] at h
  simpa using h

theorem char_upper {c : Char} (h : c.isUpper = true) : 65 ≤ c.toNat ∧ c.toNat ≤ 90 := by
  simp only [Char.isUpper, decide_eq_true_eq, ge_iff_le, UInt32.le_iff_toNat_le] at h
  simpa using h

theorem digitOf_some {base : Nat} {c : Char} {v : Nat} : digitOf base c = some v ↔
    isDigitIn base c = true ∧ digitValue c = v := by
  unfold digitOf isDigitIn digitValue Char.isAlpha
  have e0 : '0'.toNat = 48 := rfl
  have ea : 'a'.toNat = 97 := rfl
  have eA : 'A'.toNat = 65 := rfl
  rw [e0, ea, eA]
  by_cases h1 : c.isDigit = true
  · have := char_digit h1
    simp [h1]
  · by_cases h2 : c.isLower = true
    · have := char_lower h2
      have e : c.toNat - 87 = c.toNat - 97 + 10 := by omega
      simp [h1, h2, e]
    · by_cases h3 : c.isUpper = true
      · have := char_upper h3
        have e : c.toNat - 55 = c.toNat - 65 + 10 := by omega
        simp [h1, h2, h3, e]
      · simp [h1, h2, h3]

theorem digitOf_isSome {base : Nat} {c : Char} : (digitOf base c).isSome = isDigitIn base c := by
  cases h : digitOf base c with
  | none =>
    cases h' : isDigitIn base c with
    | false => rfl
    | true => rw [digitOf_some.2 ⟨h', rfl⟩] at h; simp at h
  | some v => rw [(digitOf_some.1 h).1]; rfl

/-- The value of further digits. -/
theorem fold_ge (base : Nat) (ds : List Char) (hb : 1 ≤ base) (a : Nat) :
    a ≤ ds.foldl (fun v c => v * base + digitValue c) a := by
  induction ds generalizing a with
  | nil => exact Nat.le_refl _
  | cons c cs ih =>
    refine Nat.le_trans ?_ (ih _)
    exact Nat.le_trans (Nat.le_mul_of_pos_right _ hb) (Nat.le_add_right _ _)

theorem fromRadix_ok {base : Nat} (hb : 1 ≤ base) {ds : List Char} {a : Nat}
    (h : ∀ c ∈ ds, isDigitIn base c = true)
    (hv : ds.foldl (fun v c => v * base + digitValue c) a < 2 ^ 64) :
    fromRadix base a ds = .ok (ds.foldl (fun v c => v * base + digitValue c) a) := by
  induction ds generalizing a with
  | nil => rfl
  | cons c cs ih =>
    have hc : digitOf base c = some (digitValue c) := digitOf_some.2 ⟨h c (by simp), rfl⟩
    have hge := fold_ge base cs hb (a * base + digitValue c)
    rw [List.foldl_cons] at hv ⊢
    rw [fromRadix, hc]
    have h1 : ¬ 2 ^ 64 ≤ a * base := by omega
    have h2 : ¬ 2 ^ 64 ≤ a * base + digitValue c := by omega
    simp only [if_neg h1, if_neg h2]
    exact ih (fun c hc => h c (by simp [hc])) hv

theorem fromRadix_overflow {base : Nat} {ds : List Char} {a : Nat} (ha : a < 2 ^ 64)
    (h : ∀ c ∈ ds, isDigitIn base c = true)
    (hv : 2 ^ 64 ≤ ds.foldl (fun v c => v * base + digitValue c) a) :
    fromRadix base a ds = .error .overflow := by
  induction ds generalizing a with
  | nil => simp at hv; omega
  | cons c cs ih =>
    have hc : digitOf base c = some (digitValue c) := digitOf_some.2 ⟨h c (by simp), rfl⟩
    rw [List.foldl_cons] at hv
    rw [fromRadix, hc]
    simp only
    split
    · rfl
    · split
      · rfl
      · exact ih (by omega) (fun c hc => h c (by simp [hc])) hv

theorem fromRadix_inv {base : Nat} {ds : List Char} {a v : Nat} (h : fromRadix base a ds = .ok v) :
    (∀ c ∈ ds, isDigitIn base c = true) ∧ ds.foldl (fun v c => v * base + digitValue c) a = v ∧
      (a < 2 ^ 64 → v < 2 ^ 64) := by
  induction ds generalizing a with
  | nil =>
    have h : a = v := by simpa [fromRadix] using h
    subst h
    exact ⟨by simp, rfl, id⟩
  | cons c cs ih =>
    simp only [fromRadix] at h
    cases hc : digitOf base c with
    | none => rw [hc] at h; simp at h
    | some d =>
      rw [hc] at h
      simp only at h
      split at h
      · simp at h
      · split at h
        · simp at h
        · rename_i h1 h2
          obtain ⟨i1, i2, i3⟩ := ih h
          obtain ⟨j1, j2⟩ := digitOf_some.1 hc
          refine ⟨?_, ?_, fun _ => i3 (by omega)⟩
          · intro x hx
            rcases List.mem_cons.1 hx with rfl | hx
            · exact j1
            · exact i1 x hx
          · rw [List.foldl_cons, j2, i2]

theorem rfind_mem {pat s : List Char} {i : Nat} (h : rfind pat s = some i) : ∀ c ∈ pat, c ∈ s := by
  induction s generalizing i with
  | nil => simp [rfind] at h
  | cons c cs ih =>
    simp only [rfind] at h
    cases hr : rfind pat cs with
    | some j => exact fun x hx => List.mem_cons_of_mem _ (ih hr x hx)
    | none =>
      rw [hr] at h
      simp only at h
      split at h
      · rename_i hp
        exact fun x hx => (List.isPrefixOf_iff_prefix.1 hp).subset hx
      · simp at h

theorem rfind_short {pat s : List Char} (h : s.length < pat.length) : rfind pat s = none := by
  induction s with
  | nil => rfl
  | cons c cs ih =>
    simp only [rfind, ih (by simp at h; omega)]
    split
    · rename_i hp
      have := (List.isPrefixOf_iff_prefix.1 hp).length_le
      omega
    · rfl

theorem rfind_end {pat : List Char} (hp : pat ≠ []) (ds : List Char) : rfind pat (ds ++ pat) = some ds.length := by
  induction ds with
  | nil =>
    cases pat with
    | nil => simp at hp
    | cons c cs =>
      rw [List.nil_append, rfind, rfind_short (by simp)]
      simp
  | cons d ds ih => simp [rfind, ih]

theorem rfind_none {pat s : List Char} (c : Char) (hc : c ∈ pat) (hs : c ∉ s) : rfind pat s = none := by
  cases h : rfind pat s with
  | none => rfl
  | some i => exact absurd (rfind_mem h c hc) hs

theorem not_digit_l {base : Nat} (hb : base ≤ 16) : isDigitIn base 'l' = false := by
  simp [isDigitIn, show digitValue 'l' = 21 from rfl]; omega

theorem not_digit_u {base : Nat} (hb : base ≤ 16) : isDigitIn base 'u' = false := by
  simp [isDigitIn, show digitValue 'u' = 30 from rfl]; omega

theorem base_le {p : List Char} {base : Nat} (h : BasePrefix p base) : 1 ≤ base ∧ base ≤ 16 := by
  cases h <;> omega

theorem takeWhile_all {p : Char → Bool} {l : List Char} (h : ∀ c ∈ l, p c = true) : l.takeWhile p = l := by
  induction l with
  | nil => rfl
  | cons c cs ih =>
    rw [List.takeWhile_cons, if_pos (h c (by simp)), ih (fun c hc => h c (by simp [hc]))]

theorem digitEnd_spec {base : Nat} (hb : base ≤ 16) {ds s : List Char} {suffix : Option String} (hne : ds ≠ [])
    (hd : ∀ c ∈ ds, isDigitIn base c = true) (hs : Suffix s suffix) : digitEnd base (ds ++ s) = ds.length := by
  have hl : 'l' ∉ ds := fun h => by have := hd _ h; rw [not_digit_l hb] at this; simp at this
  have hu : 'u' ∉ ds := fun h => by have := hd _ h; rw [not_digit_u hb] at this; simp at this
  have hlen : 0 < ds.length := List.length_pos_iff.2 hne
  cases hs with
  | none =>
    rw [List.append_nil]
    have h1 : rfind ['f', 'e', 'l', 't'] ds = none := rfind_none 'l' (by decide) hl
    have h2 : rfind ['u', '3', '2'] ds = none := rfind_none 'u' (by decide) hu
    have h3 : ds.takeWhile (fun c => (digitOf base c).isSome) = ds := by
      apply takeWhile_all
      intro c hc
      rw [digitOf_isSome]
      exact hd c hc
    simp [digitEnd, validSuffixes, h1, h2, digitRun, h3]
  | felt =>
    have h1 : rfind ['f', 'e', 'l', 't'] (ds ++ ['f', 'e', 'l', 't']) = some ds.length := rfind_end (by simp) ds
    have h2 : rfind ['u', '3', '2'] (ds ++ ['f', 'e', 'l', 't']) = none := rfind_none 'u' (by decide) (by simp [hu])
    simp [digitEnd, validSuffixes, h1, h2, hlen]
  | u32 =>
    have h1 : rfind ['f', 'e', 'l', 't'] (ds ++ ['u', '3', '2']) = none := rfind_none 'l' (by decide) (by simp [hl])
    have h2 : rfind ['u', '3', '2'] (ds ++ ['u', '3', '2']) = some ds.length := rfind_end (by simp) ds
    simp [digitEnd, validSuffixes, h1, h2, hlen]

theorem splitBase_prefix {p r : List Char} {base : Nat} (h : BasePrefix p base) (hp : p ≠ []) :
    splitBase (p ++ r) = (r, base) := by
  cases h <;> first | exact absurd rfl hp | rfl

theorem splitBase_decimal {r : List Char}
    (h : ∀ c, r.tail.head? = some c → c ∉ ['x', 'X', 'o', 'O', 'b', 'B']) : splitBase r = (r, 10) := by
  unfold splitBase
  split <;> first | rfl | exact absurd (h _ rfl) (by decide)

theorem splitBase_inv (slice : List Char) : ∃ p, BasePrefix p (splitBase slice).2 ∧ slice = p ++ (splitBase slice).1 := by
  unfold splitBase
  split
  · exact ⟨_, .hexLower, rfl⟩
  · exact ⟨_, .hexUpper, rfl⟩
  · exact ⟨_, .octalLower, rfl⟩
  · exact ⟨_, .octalUpper, rfl⟩
  · exact ⟨_, .binaryLower, rfl⟩
  · exact ⟨_, .binaryUpper, rfl⟩
  · exact ⟨_, .decimal, rfl⟩

theorem splitBase_spec {p ds s : List Char} {base : Nat} {suffix : Option String} (hp : BasePrefix p base) (hne : ds ≠ [])
    (hd : ∀ c ∈ ds, isDigitIn base c = true) (hs : Suffix s suffix) : splitBase (p ++ ds ++ s) = (ds ++ s, base) := by
  rw [List.append_assoc]
  by_cases hp0 : p = []
  · cases hp <;> simp at hp0
    apply splitBase_decimal
    intro c hc
    cases ds with
    | nil => exact absurd rfl hne
    | cons d ds =>
      simp only [List.nil_append, List.cons_append, List.tail_cons] at hc
      cases ds with
      | nil => cases hs <;> simp at hc <;> subst hc <;> decide
      | cons d' ds =>
        simp only [List.cons_append, List.head?_cons, Option.some.injEq] at hc
        subst hc
        have := hd d' (by simp)
        intro hm
        simp only [List.mem_cons, List.not_mem_nil, or_false] at hm
        rcases hm with rfl | rfl | rfl | rfl | rfl | rfl <;> simp [isDigitIn, digitValue] at this
  · exact splitBase_prefix hp hp0

theorem suffix_head {s : List Char} {suffix : Option String} (hs : Suffix s suffix) :
    s.head?.any Char.isDigit = false ∧ (if s.isEmpty then none else some (String.ofList s)) = suffix := by
  cases hs <;> decide

theorem parseNumber_spec {p ds s : List Char} {base : Nat} {suffix : Option String} (hp : BasePrefix p base)
    (hne : ds ≠ []) (hd : ∀ c ∈ ds, isDigitIn base c = true) (hs : Suffix s suffix) :
    parseNumber (p ++ ds ++ s) =
      match fromRadix base 0 ds with
      | .error err => .error err
      | .ok n => .ok (n, suffix) := by
  have h1 := splitBase_spec hp hne hd hs
  have h2 := digitEnd_spec (base_le hp).2 hne hd hs
  obtain ⟨h3, h4⟩ := suffix_head hs
  rw [parseNumber, h1]
  simp only [h2, List.take_left, List.drop_left, h3, h4]
  rw [if_neg (by simpa using hne), if_neg (by simp)]
  cases fromRadix base 0 ds <;> rfl

theorem parseNumber_inv {w : List Char} {v : Nat} {suffix : Option String} (h : parseNumber w = .ok (v, suffix)) :
    ∃ p base ds s, w = p ++ ds ++ s ∧ BasePrefix p base ∧ ds ≠ [] ∧ (∀ c ∈ ds, isDigitIn base c = true) ∧
      v = positional base ds ∧ v < 2 ^ 64 ∧ suffix = (if s.isEmpty then none else some (String.ofList s)) := by
  obtain ⟨p, hp, hw⟩ := splitBase_inv w
  rw [parseNumber] at h
  simp only at h
  generalize splitBase w = sb at *
  obtain ⟨rem, base⟩ := sb
  simp only at *
  generalize digitEnd base rem = e at *
  split at h
  · simp at h
  · rename_i hne
    split at h
    · simp at h
    · split at h
      · simp at h
      · rename_i n hn
        simp only [Except.ok.injEq, Prod.mk.injEq] at h
        obtain ⟨i1, i2, i3⟩ := fromRadix_inv hn
        refine ⟨p, base, rem.take e, rem.drop e, ?_, hp, by simpa using hne, i1, ?_, ?_, h.2.symm⟩
        · rw [List.append_assoc, List.take_append_drop]
          exact hw
        · rw [← h.1, ← i2]; rfl
        · rw [← h.1]; exact i3 (by omega)

/-! ## Steps of the lexer -/

theorem takeWhile_app {p : Char → Bool} {l r : List Char} (h : ∀ c ∈ l, p c = true)
    (hr : ∀ c, r.head? = some c → p c = false) : (l ++ r).takeWhile p = l ∧ (l ++ r).dropWhile p = r := by
  induction l with
  | nil =>
    cases r with
    | nil => simp
    | cons c cs => simp [hr c rfl]
  | cons c cs ih =>
    have hc := h c (by simp)
    obtain ⟨i1, i2⟩ := ih (fun c hc => h c (by simp [hc]))
    constructor
    · rw [List.cons_append, List.takeWhile_cons, if_pos hc, i1]
    · rw [List.cons_append, List.dropWhile_cons, if_pos hc, i2]

theorem dropWhile_length (p : Char → Bool) (l : List Char) : (l.dropWhile p).length ≤ l.length := by
  induction l with
  | nil => simp
  | cons c cs ih =>
    rw [List.dropWhile_cons]
    split
    · simp; omega
    · exact Nat.le_refl _

theorem lexStep_lt {s : List Char} :
    (∀ r, lexStep s = .skip r → r.length < s.length) ∧ (∀ t r, lexStep s = .token t r → r.length < s.length) := by
  cases s with
  | nil => simp [lexStep]
  | cons c cs =>
    have h1 := dropWhile_length (· != '\n') cs
    have h2 := dropWhile_length isWordChar cs
    have h3 : cs.tail.length ≤ cs.length := by simp
    have aux : ∀ (x : LexStep), lexStep (c :: cs) = x →
        (∀ r, x = .skip r → r.length ≤ cs.length) ∧ (∀ t r, x = .token t r → r.length ≤ cs.length) := by
      intro x hx
      subst hx
      rw [lexStep]
      split
      · constructor
        · intro r h; simp at h; rw [← h]; omega
        · intro t r h; simp at h
      · split
        · constructor
          · intro r h; simp at h; rw [← h]; exact h1
          · intro t r h; simp at h
        · split
          · split
            · constructor
              · intro r h; simp at h
              · intro t r h; simp at h; rw [← h.2]; exact h2
            · constructor <;> · intros; simp_all
          · split
            · constructor
              · intro r h; simp at h
              · intro t r h; simp at h; rw [← h.2]; exact h2
            · split
              · constructor
                · intro r h; simp at h
                · intro t r h
                  simp only [LexStep.token.injEq] at h
                  rw [← h.2]; exact h3
              · split
                · constructor
                  · intro r h; simp at h
                  · intro t r h; simp at h; rw [← h.2]; omega
                · constructor <;> · intros; simp_all
    obtain ⟨a1, a2⟩ := aux _ rfl
    constructor
    · intro r h; have := a1 r h; simp; omega
    · intro t r h; have := a2 t r h; simp; omega

theorem lexN_fuel : ∀ (n m : Nat) (s : List Char), s.length < n → s.length < m → lexN n s = lexN m s
  | 0, _, _, h, _ => absurd h (by omega)
  | _ + 1, 0, _, _, h => absurd h (by omega)
  | n + 1, m + 1, s, hn, hm => by
    rw [lexN, lexN]
    cases hs : lexStep s with
    | done => rfl
    | error => rfl
    | skip r =>
      have := lexStep_lt.1 r hs
      exact lexN_fuel n m r (by omega) (by omega)
    | token t r =>
      have := lexStep_lt.2 t r hs
      simp only
      rw [lexN_fuel n m r (by omega) (by omega)]

theorem lex_skip {s r : List Char} (h : lexStep s = .skip r) : lex s = lex r := by
  have := lexStep_lt.1 r h
  rw [lex, lexN, h]
  exact lexN_fuel _ _ _ (by omega) (by omega)

theorem lex_token {s r : List Char} {t : Token} (h : lexStep s = .token t r) : lex s = (lex r).map (t :: ·) := by
  have := lexStep_lt.2 t r h
  rw [lex, lexN, h]
  simp only
  rw [lexN_fuel _ (r.length + 1) r (by omega) (by omega)]
  rfl

theorem lex_done {s : List Char} (h : lexStep s = .done) : lex s = some [] := by
  rw [lex, lexN, h]

theorem lex_error {s : List Char} (h : lexStep s = .error) : lex s = none := by
  rw [lex, lexN, h]

/-! ## Reading one token -/

theorem word_not_space {c : Char} (h : isWord c = true) : isSpace c = false ∧ c ≠ '/' := by
  constructor
  · cases hs : isSpace c with
    | false => rfl
    | true =>
      simp only [isSpace, Bool.or_eq_true, beq_iff_eq] at hs
      rcases hs with ((rfl | rfl) | rfl) | rfl <;> simp [isWord] at h
  · rintro rfl
    simp [isWord] at h

theorem glue_word {w : List Char} (c : Char) (hc : w.head? = some c) (hw : isWord c = true) {s : List Char}
    (h : ∀ d, s.head? = some d → ¬ Glues w d) : ∀ d, s.head? = some d → isWordChar d = false := by
  intro d hd
  cases hh : isWordChar d with
  | false => rfl
  | true => exact absurd (Or.inr (Or.inr ⟨⟨c, hc, hw⟩, hh⟩)) (h d hd)

theorem lexStep_word {c : Char} {w s : List Char} (hc : c.isDigit = false) (hall : ∀ x ∈ c :: w, isWord x = true)
    (hs : ∀ d, s.head? = some d → isWordChar d = false) :
    lexStep (c :: w ++ s) = .token (wordToken (c :: w)) s := by
  obtain ⟨h1, h2⟩ := word_not_space (hall c (by simp))
  have h3 : isWordStart c = true := by
    have := hall c (by simp)
    simpa [isWord, isWordStart, hc] using this
  obtain ⟨h4, h5⟩ := takeWhile_app (p := isWordChar) (l := w) (r := s) (fun x hx => hall x (by simp [hx])) hs
  rw [List.cons_append, lexStep, h1, hc, h3, h4, h5]
  simp [h2]

theorem digitIn_word {base : Nat} {c : Char} (h : isDigitIn base c = true) : isWord c = true := by
  simp only [isDigitIn, Bool.and_eq_true] at h
  simp [isWord, h.1]

theorem number_head {p ds s : List Char} {base : Nat} (hp : BasePrefix p base) (hne : ds ≠ [])
    (hd : ∀ c ∈ ds, isDigitIn base c = true) : ∃ c r, p ++ ds ++ s = c :: r ∧ c.isDigit = true := by
  cases hp with
  | decimal =>
    cases ds with
    | nil => exact absurd rfl hne
    | cons d ds =>
      refine ⟨d, ds ++ s, rfl, ?_⟩
      have := hd d (by simp)
      simp only [isDigitIn, Bool.and_eq_true, decide_eq_true_eq] at this
      rw [digitValue] at this
      by_cases h : d.isDigit = true
      · exact h
      · rw [if_neg h] at this
        split at this <;> omega
  | _ => exact ⟨_, _, rfl, by decide⟩

theorem suffix_word {s : List Char} {suffix : Option String} (hs : Suffix s suffix) : ∀ c ∈ s, isWord c = true := by
  cases hs <;> decide

theorem prefix_word {p : List Char} {base : Nat} (hs : BasePrefix p base) : ∀ c ∈ p, isWord c = true := by
  cases hs <;> decide

theorem lexStep_number {p ds s r : List Char} {base : Nat} {suffix : Option String} (hp : BasePrefix p base)
    (hne : ds ≠ []) (hd : ∀ c ∈ ds, isDigitIn base c = true) (hs : Suffix s suffix)
    (hr : ∀ d, r.head? = some d → isWordChar d = false) :
    lexStep (p ++ ds ++ s ++ r) =
      if positional base ds < 2 ^ 64 then .token (.number (positional base ds) suffix) r else .error := by
  obtain ⟨c, w, hw, hc⟩ := number_head (s := s) hp hne hd
  have hall : ∀ x ∈ c :: w, isWord x = true := by
    rw [← hw]
    intro x hx
    simp only [List.mem_append] at hx
    rcases hx with (hx | hx) | hx
    · exact prefix_word hp x hx
    · exact digitIn_word (hd x hx)
    · exact suffix_word hs x hx
  obtain ⟨h1, h2⟩ := word_not_space (hall c (by simp))
  obtain ⟨h4, h5⟩ := takeWhile_app (p := isWordChar) (l := w) (r := r) (fun x hx => hall x (by simp [hx])) hr
  have hn := parseNumber_spec hp hne hd hs
  rw [hw] at hn ⊢
  rw [List.cons_append, lexStep, h1, hc, h4, h5, hn]
  by_cases hv : positional base ds < 2 ^ 64
  · rw [fromRadix_ok (base_le hp).1 hd hv, if_pos hv]
    simp [h2]
    rfl
  · rw [fromRadix_overflow (by omega) hd (Nat.le_of_not_lt hv), if_neg hv]
    simp [h2]

theorem lookup_mem {α β : Type} [BEq α] [LawfulBEq α] {l : List (α × β)} {a : α} {b : β} (h : l.lookup a = some b) :
    (a, b) ∈ l := by
  induction l with
  | nil => simp at h
  | cons x xs ih =>
    obtain ⟨a', b'⟩ := x
    rw [List.lookup_cons] at h
    cases hab : a == a' with
    | true =>
      rw [hab] at h
      simp at h hab
      subst h; subst hab; simp
    | false =>
      rw [hab] at h
      exact List.mem_cons_of_mem _ (ih h)

theorem keywords_symbol : ∀ x ∈ keywords, x.2.symbol = some x.1 := by decide +kernel
theorem twoChar_symbol : ∀ x ∈ twoChar, x.2.symbol = some [x.1.1, x.1.2] := by decide +kernel
theorem oneChar_symbol : ∀ x ∈ oneChar, x.2.symbol = some [x.1] := by decide +kernel

/-- Tokens with a fixed text are keywords or operators. -/
theorem symbol_cases {t : Token} {w : List Char} (h : t.symbol = some w) :
    keywords.lookup w = some t ∨ (∃ c d, w = [c, d] ∧ twoChar.lookup (c, d) = some t) ∨
      (∃ c, w = [c] ∧ oneChar.lookup c = some t) := by
  cases t <;> simp only [Token.symbol, Option.some.injEq] at h <;> first
    | (simp at h; done)
    | (subst h
       first
         | exact Or.inl (by decide +kernel)
         | exact Or.inr (Or.inr ⟨_, rfl, by decide +kernel⟩)
         | exact Or.inr (Or.inl ⟨_, _, rfl, by decide +kernel⟩))

theorem keywords_word : ∀ x ∈ keywords, (∃ c w, x.1 = c :: w ∧ c.isDigit = false) ∧ ∀ c ∈ x.1, isWord c = true := by
  intro x hx
  have h1 : keywords.all (fun x => (match x.1 with | c :: _ => !c.isDigit | [] => false) && x.1.all isWord) = true := by
    decide +kernel
  have h2 := List.all_eq_true.1 h1 x hx
  simp only [Bool.and_eq_true, List.all_eq_true] at h2
  refine ⟨?_, h2.2⟩
  obtain ⟨w, t⟩ := x
  cases w with
  | nil => simp at h2
  | cons c w => exact ⟨c, w, rfl, by simpa using h2.1⟩

/-- The first character of an operator. -/
def opHead (c : Char) : Bool := !isSpace c && !c.isDigit && !isWordStart c

theorem twoChar_head : ∀ x ∈ twoChar, opHead x.1.1 = true ∧ x.1.1 ≠ '/' := by decide +kernel
theorem oneChar_head : ∀ x ∈ oneChar, opHead x.1 = true := by decide +kernel

theorem lexStep_two {c d : Char} {t : Token} {s : List Char} (h : twoChar.lookup (c, d) = some t) :
    lexStep (c :: d :: s) = .token t s := by
  obtain ⟨h1, h2⟩ := twoChar_head _ (lookup_mem h)
  simp only [opHead, Bool.and_eq_true, Bool.not_eq_true'] at h1
  rw [lexStep]
  simp [h1, h2, h]

theorem lexStep_one {c : Char} {t : Token} {s : List Char} (h : oneChar.lookup c = some t)
    (hs : ∀ d, s.head? = some d → ¬ Glues [c] d) : lexStep (c :: s) = .token t s := by
  have h1 := oneChar_head _ (lookup_mem h)
  simp only [opHead, Bool.and_eq_true, Bool.not_eq_true'] at h1
  have h2 : (c == '/' && s.head? == some '/') = false := by
    cases hh : (c == '/' && s.head? == some '/') with
    | false => rfl
    | true =>
      simp at hh
      exact absurd (Or.inr (Or.inl (by rw [hh.1]; rfl))) (hs _ hh.2)
  have h3 : s.head?.bind (fun d => twoChar.lookup (c, d)) = none := by
    cases hd : s.head? with
    | none => rfl
    | some d =>
      cases hl : twoChar.lookup (c, d) with
      | none => simpa using hl
      | some t' => exact absurd (Or.inl ⟨t', twoChar_symbol _ (lookup_mem hl)⟩) (hs _ hd)
  rw [lexStep, h1.1.1, h1.1.2, h1.2, h2, h3, h]
  simp

theorem keywords_lookup_symbol {t : Token} {w : List Char} (h : keywords.lookup w = some t) : t.symbol = some w :=
  keywords_symbol _ (lookup_mem h)

/-- A token is read back from its text. -/
theorem lexStep_spells {w s : List Char} {t : Token} (h : Spells w t) (hs : ∀ d, s.head? = some d → ¬ Glues w d) :
    lexStep (w ++ s) = .token t s := by
  cases h with
  | symbol h =>
    rcases symbol_cases h with h1 | ⟨c, d, rfl, h1⟩ | ⟨c, rfl, h1⟩
    · obtain ⟨⟨c, w', hw, hc⟩, hall⟩ := keywords_word _ (lookup_mem h1)
      simp only at hw hall
      subst hw
      rw [lexStep_word hc hall (glue_word c rfl (hall c (by simp)) hs), wordToken, h1]
    · exact lexStep_two h1
    · exact lexStep_one h1 hs
  | name h =>
    obtain ⟨⟨c, hc, hd⟩, hall, hno⟩ := h
    cases w with
    | nil => simp at hc
    | cons c' w =>
      simp only [List.head?_cons, Option.some.injEq] at hc
      subst hc
      rw [lexStep_word hd hall (glue_word _ rfl (hall _ (by simp)) hs), wordToken]
      cases hk : keywords.lookup (c' :: w) with
      | none => rfl
      | some t => exact absurd (keywords_lookup_symbol hk) (hno t)
  | number hp hne hd hv hsuf =>
    rename_i p ds s' base suffix
    obtain ⟨c, w, hw, hc⟩ := number_head (s := s') hp hne hd
    have hcw : isWord c = true := by simp [isWord, hc]
    rw [lexStep_number hp hne hd hsuf (glue_word c (by rw [hw]; rfl) hcw hs), if_pos hv]

theorem lex_spelled {b : Bool} {s : List Char} {ts : List Token} (h : Spelled b s ts) : lex s = some ts := by
  induction h with
  | nil => rfl
  | space hc _ ih =>
    rename_i c s ts
    rw [← ih]
    apply lex_skip
    rw [lexStep, isSpace_eq, hc]
    rfl
  | @comment b s ts _ hb hs _ ih =>
    rw [← ih]
    apply lex_skip
    have h1 : ('/' :: b ++ s).dropWhile (· != '\n') = s := by
      apply (takeWhile_app _ _).2
      · intro c hc
        rcases List.mem_cons.1 hc with rfl | hc
        · decide
        · simp [hb c hc]
      · intro c hc; simp [hs c hc]
    show lexStep ('/' :: ('/' :: b ++ s)) = _
    rw [lexStep, h1]
    rfl
  | token hw hs _ ih =>
    rw [lex_token (lexStep_spells hw hs), ih]
    rfl

theorem spells_known {w : List Char} {t : Token} (h : Spells w t) : t.knownSuffix = true := by
  cases h with
  | symbol h => cases t <;> first | rfl | simp [Token.symbol] at h
  | name _ => rfl
  | number _ _ _ _ hs => cases hs <;> rfl

theorem spelled_known {b : Bool} {s : List Char} {ts : List Token} (h : Spelled b s ts) :
    ∀ t ∈ ts, t.knownSuffix = true := by
  induction h with
  | nil => simp
  | space _ _ ih => exact ih
  | comment _ _ _ _ ih => exact ih
  | token hw _ _ ih =>
    intro t ht
    rcases List.mem_cons.1 ht with rfl | ht
    · exact spells_known hw
    · exact ih t ht

/-! ## The converse -/

theorem takeWhile_dropWhile (p : Char → Bool) (l : List Char) : l.takeWhile p ++ l.dropWhile p = l :=
  List.takeWhile_append_dropWhile

theorem takeWhile_mem {p : Char → Bool} {l : List Char} : ∀ c ∈ l.takeWhile p, p c = true := by
  induction l with
  | nil => simp
  | cons c cs ih =>
    rw [List.takeWhile_cons]
    split
    · intro x hx
      rcases List.mem_cons.1 hx with rfl | hx
      · assumption
      · exact ih x hx
    · simp

theorem dropWhile_head {p : Char → Bool} {l : List Char} {c : Char} (h : (l.dropWhile p).head? = some c) :
    p c = false := by
  induction l with
  | nil => simp at h
  | cons d ds ih =>
    rw [List.dropWhile_cons] at h
    split at h
    · exact ih h
    · simp at h; subst h; simpa using ‹¬ p d = true›

theorem symbol_word {t : Token} {w : List Char} {d : Char} (h : t.symbol = some (w ++ [d]))
    (hw : ∃ c ∈ w, isWord c = true) : isWord d = true := by
  obtain ⟨x, hx, hxw⟩ := hw
  rcases symbol_cases h with h1 | ⟨a, b, hab, h1⟩ | ⟨a, ha, h1⟩
  · exact (keywords_word _ (lookup_mem h1)).2 d (by simp)
  · have h2 := (twoChar_head _ (lookup_mem h1)).1
    have : w = [a] := by
      have := congrArg List.dropLast hab
      simpa using this
    subst this
    simp at hx
    subst hx
    simp only [opHead, isWordStart, isWord, Bool.and_eq_true, Bool.not_eq_true', Bool.or_eq_false_iff,
      Bool.or_eq_true] at h2 hxw
    simp_all
  · have : w = [] := by
      have := congrArg List.dropLast ha
      simpa using this
    subst this
    simp at hx

theorem word_no_glue {c : Char} {w s : List Char} (hall : ∀ x ∈ c :: w, isWord x = true)
    (hs : ∀ d, s.head? = some d → isWord d = false) : ∀ d, s.head? = some d → ¬ Glues (c :: w) d := by
  intro d hd hg
  have h := hs d hd
  rcases hg with ⟨t, ht⟩ | h1 | ⟨_, h2⟩
  · have := symbol_word ht ⟨c, by simp, hall c (by simp)⟩
    rw [h] at this; simp at this
  · have : c = '/' := by simp at h1; exact h1.1
    subst this
    have := hall '/' (by simp)
    simp [isWord] at this
  · rw [h] at h2; simp at h2

theorem wordToken_spells {c : Char} {w : List Char} (hc : c.isDigit = false) (hall : ∀ x ∈ c :: w, isWord x = true) :
    Spells (c :: w) (wordToken (c :: w)) := by
  rw [wordToken]
  cases hk : keywords.lookup (c :: w) with
  | some t => exact .symbol (keywords_lookup_symbol hk)
  | none =>
    refine .name ⟨⟨c, rfl, hc⟩, hall, fun t ht => ?_⟩
    rcases symbol_cases ht with h1 | ⟨a, b, hab, h1⟩ | ⟨a, ha, h1⟩
    · rw [hk] at h1; simp at h1
    · have h2 := (twoChar_head _ (lookup_mem h1)).1
      have h3 := hall c (by simp)
      simp at hab
      rw [← hab.1] at h2
      simp only [opHead, isWordStart, isWord, Bool.and_eq_true, Bool.not_eq_true', Bool.or_eq_false_iff,
        Bool.or_eq_true] at h2 h3
      simp_all
    · have h2 := oneChar_head _ (lookup_mem h1)
      have h3 := hall c (by simp)
      simp at ha
      rw [← ha.1] at h2
      simp only [opHead, isWordStart, isWord, Bool.and_eq_true, Bool.not_eq_true', Bool.or_eq_false_iff,
        Bool.or_eq_true] at h2 h3
      simp_all

theorem one_no_glue {c : Char} {s : List Char} (h1 : (c == '/' && s.head? == some '/') = false)
    (hc : opHead c = true) (h2 : s.head?.bind (fun d => twoChar.lookup (c, d)) = none) :
    ∀ d, s.head? = some d → ¬ Glues [c] d := by
  intro d hd hg
  have hword : isWord c = false := by
    simp only [opHead, isWordStart, Bool.and_eq_true, Bool.not_eq_true', Bool.or_eq_false_iff] at hc
    simp [isWord, hc]
  rcases hg with ⟨t, ht⟩ | hg | ⟨⟨x, hx, hxw⟩, _⟩
  · rcases symbol_cases ht with h | ⟨a, b, hab, h⟩ | ⟨a, ha, h⟩
    · have := (keywords_word _ (lookup_mem h)).2 c (by simp)
      rw [hword] at this; simp at this
    · simp at hab
      obtain ⟨rfl, rfl⟩ := hab
      rw [hd] at h2
      simp only [Option.bind_some] at h2
      rw [h2] at h
      simp at h
    · simp at ha
  · simp at hg
    rw [hd] at h1
    simp [hg] at h1
  · simp at hx
    rw [hx] at hword
    rw [hword] at hxw; simp at hxw

theorem two_no_glue {c d : Char} {t : Token} {s : List Char} (h : twoChar.lookup (c, d) = some t) :
    ∀ x, s.head? = some x → ¬ Glues [c, d] x := by
  intro x _ hg
  have hc := (twoChar_head _ (lookup_mem h)).1
  simp only at hc
  have hword : isWord c = false := by
    simp only [opHead, isWordStart, Bool.and_eq_true, Bool.not_eq_true', Bool.or_eq_false_iff] at hc
    simp [isWord, hc]
  rcases hg with ⟨t, ht⟩ | hg | ⟨⟨x, hx, hxw⟩, _⟩
  · rcases symbol_cases ht with h | ⟨a, b, hab, h⟩ | ⟨a, ha, h⟩
    · have := (keywords_word _ (lookup_mem h)).2 c (by simp)
      rw [hword] at this; simp at this
    · simp at hab
    · simp at ha
  · simp at hg
  · simp at hx
    rw [hx] at hword
    rw [hword] at hxw; simp at hxw

theorem spelled_lex : ∀ (n : Nat) (s : List Char) (ts : List Token), s.length < n → lex s = some ts →
    (∀ t ∈ ts, t.knownSuffix = true) → Spelled true s ts
  | 0, _, _, h, _, _ => absurd h (by omega)
  | n + 1, [], ts, _, h, _ => by
    rw [lex_done rfl] at h
    simp at h
    subst h
    exact .nil
  | n + 1, c :: cs, ts, hn, h, hk => by
    have ih := spelled_lex n
    simp only [List.length_cons] at hn
    have hst : ∃ st, lexStep (c :: cs) = st := ⟨_, rfl⟩
    obtain ⟨st, hst⟩ := hst
    have hst' := hst
    rw [lexStep] at hst
    split at hst
    · rename_i hc
      subst hst
      rw [lex_skip hst'] at h
      exact .space hc (ih cs ts (by omega) h hk)
    · rename_i hsp
      split at hst
      · rename_i hc
        subst hst
        rw [lex_skip hst'] at h
        simp only [Bool.and_eq_true, beq_iff_eq] at hc
        obtain ⟨hc1, hc2⟩ := hc
        cases cs with
        | nil => simp at hc2
        | cons d ds =>
          simp only [List.head?_cons, Option.some.injEq] at hc2
          subst hc1; subst hc2
          have e : ('/' :: ds).dropWhile (· != '\n') = ds.dropWhile (· != '\n') := rfl
          rw [e] at h
          have hl := dropWhile_length (· != '\n') ds
          simp only [List.length_cons] at hn
          have := Spelled.comment (b := ds.takeWhile (· != '\n')) rfl
            (fun c hc => by simpa using takeWhile_mem c hc)
            (fun c hc => by simpa using dropWhile_head hc) (ih _ ts (by omega) h hk)
          rw [List.cons_append, List.cons_append, takeWhile_dropWhile] at this
          exact this
      · rename_i hcom
        have hl := dropWhile_length isWordChar cs
        have hsplit := takeWhile_dropWhile isWordChar cs
        have hhead : ∀ d, (cs.dropWhile isWordChar).head? = some d → isWord d = false :=
          fun d hd => dropWhile_head (p := isWordChar) hd
        split at hst
        · rename_i hdig
          have hall : ∀ x ∈ c :: cs.takeWhile isWordChar, isWord x = true := by
            intro x hx
            rcases List.mem_cons.1 hx with rfl | hx
            · simp [isWord, hdig]
            · exact takeWhile_mem (p := isWordChar) x hx
          split at hst
          · rename_i v suf hnum
            subst hst
            rw [lex_token hst'] at h
            obtain ⟨ts', hts, rfl⟩ := Option.map_eq_some_iff.1 h
            obtain ⟨p, base, ds, s, hw, hp, hne, hd, hv, hv2, hsuf⟩ := parseNumber_inv hnum
            have hks := hk (.number v suf) (by simp)
            have hS : Suffix s suf := by
              by_cases he : s = []
              · subst he; rw [hsuf]; exact .none
              · rw [if_neg (by simpa using he)] at hsuf
                subst hsuf
                simp only [Token.knownSuffix, Bool.or_eq_true, beq_iff_eq] at hks
                rcases hks with hks | hks
                · have : s = "felt".toList := by
                    have := congrArg String.toList hks
                    simpa using this
                  subst this
                  exact .felt
                · have : s = "u32".toList := by
                    have := congrArg String.toList hks
                    simpa using this
                  subst this
                  exact .u32
            subst hv
            have hsp := Spells.number hp hne hd hv2 hS
            rw [← hw] at hsp
            have := Spelled.token hsp (word_no_glue hall hhead)
              (ih _ ts' (by omega) hts (fun t ht => hk t (by simp [ht])))
            rw [List.cons_append, hsplit] at this
            exact this
          · subst hst
            rw [lex_error hst'] at h
            simp at h
        · rename_i hdig
          have hdig : c.isDigit = false := by simpa using hdig
          split at hst
          · rename_i hws
            have hall : ∀ x ∈ c :: cs.takeWhile isWordChar, isWord x = true := by
              intro x hx
              rcases List.mem_cons.1 hx with rfl | hx
              · simp only [isWordStart, Bool.or_eq_true, beq_iff_eq] at hws
                rcases hws with hws | hws <;> simp [isWord, hws]
              · exact takeWhile_mem (p := isWordChar) x hx
            subst hst
            rw [lex_token hst'] at h
            obtain ⟨ts', hts, rfl⟩ := Option.map_eq_some_iff.1 h
            have := Spelled.token (wordToken_spells hdig hall) (word_no_glue hall hhead)
              (ih _ ts' (by omega) hts (fun t ht => hk t (by simp [ht])))
            rw [List.cons_append, hsplit] at this
            exact this
          · rename_i hws
            split at hst
            · rename_i t ht
              subst hst
              rw [lex_token hst'] at h
              obtain ⟨ts', hts, rfl⟩ := Option.map_eq_some_iff.1 h
              cases cs with
              | nil => simp at ht
              | cons d ds =>
                simp only [List.head?_cons, Option.bind_some] at ht
                simp only [List.length_cons] at hn
                have := Spelled.token (.symbol (twoChar_symbol _ (lookup_mem ht))) (two_no_glue ht)
                  (ih ds ts' (by omega) hts (fun t ht => hk t (by simp [ht])))
                exact this
            · rename_i htwo
              split at hst
              · rename_i t ht
                subst hst
                rw [lex_token hst'] at h
                obtain ⟨ts', hts, rfl⟩ := Option.map_eq_some_iff.1 h
                have := Spelled.token (.symbol (oneChar_symbol _ (lookup_mem ht)))
                  (one_no_glue (by simpa using hcom) (oneChar_head _ (lookup_mem ht)) htwo)
                  (ih cs ts' (by omega) hts (fun t ht => hk t (by simp [ht])))
                exact this
              · subst hst
                rw [lex_error hst'] at h
                simp at h

end CairoM.Syntax
