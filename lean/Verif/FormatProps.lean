import Verif.FormatStmt
import Verif.LexProps
import Verif.ParserProps

/-!
# Formatting does not change the program (C75)
-/

namespace CairoM.Syntax

theorem spelled_mono {s : List Char} {ts : List Token} (h : Spelled false s ts) : Spelled true s ts := by
  induction h with
  | nil => exact .nil
  | space h1 _ ih => exact .space h1 ih
  | comment h => simp at h
  | token h1 h2 _ ih => exact .token h1 h2 ih

theorem spelled_writable {b : Bool} {s : List Char} {ts : List Token} (h : Spelled b s ts) : ∀ t ∈ ts, Writable t := by
  induction h with
  | nil => simp
  | space _ _ ih => exact ih
  | comment _ _ _ _ ih => exact ih
  | token h1 _ _ ih =>
    intro t ht
    rcases List.mem_cons.1 ht with rfl | ht
    · exact ⟨_, h1⟩
    · exact ih t ht

theorem hasComment_append {w s : List Char} (hw : ∀ c ∈ w, c ≠ '/') : hasComment (w ++ s) = hasComment s := by
  induction w with
  | nil => rfl
  | cons c w ih =>
    rw [List.cons_append, hasComment, ih (fun c hc => hw c (by simp [hc]))]
    have := hw c (by simp)
    simp [this]

theorem slash_symbols : twoChar.all (fun x => x.1.1 != '/' && x.1.2 != '/') = true := by
  decide +kernel

theorem word_slash {c : Char} (h : isWord c = true) : c ≠ '/' := by
  rintro rfl
  simp [isWord] at h

theorem spells_slash {w : List Char} {t : Token} (h : Spells w t) : w = ['/'] ∨ ∀ c ∈ w, c ≠ '/' := by
  cases h with
  | symbol h =>
    rcases symbol_cases h with h1 | ⟨a, b, rfl, h1⟩ | ⟨a, rfl, h1⟩
    · exact .inr (fun c hc => word_slash ((keywords_word _ (lookup_mem h1)).2 c hc))
    · have h2 := List.all_eq_true.1 slash_symbols _ (lookup_mem h1)
      simp at h2
      simp [h2]
    · by_cases ha : a = '/'
      · exact .inl (by rw [ha])
      · simp [ha]
  | name h => exact .inr (fun c hc => word_slash (h.2.1 c hc))
  | number h1 _ h3 _ h5 =>
    refine .inr (fun c hc => ?_)
    simp only [List.mem_append] at hc
    rcases hc with (hc | hc) | hc
    · exact word_slash (prefix_word h1 c hc)
    · exact word_slash (digitIn_word (h3 c hc))
    · exact word_slash (suffix_word h5 c hc)

theorem spelled_no_comment {s : List Char} {ts : List Token} (h : Spelled false s ts) : hasComment s = false := by
  induction h with
  | nil => rfl
  | @space c s ts h1 _ ih =>
    have : c ≠ '/' := by rintro rfl; simp [isBlank] at h1
    rw [hasComment, ih]
    simp [this]
  | comment h => simp at h
  | @token w s t ts h1 h2 _ ih =>
    rcases spells_slash h1 with rfl | h3
    · rw [List.cons_append, List.nil_append, hasComment, ih]
      cases s with
      | nil => rfl
      | cons d s =>
        have := h2 d rfl
        simp only [List.head?_cons, beq_self_eq_true, Bool.true_and, Bool.or_false, beq_eq_false_iff_ne, ne_eq,
          Option.some.injEq]
        rintro rfl
        exact this (.inr (.inl rfl))
    · rw [hasComment_append h3]; exact ih

theorem parse_writable {s : List Char} {items : List Item} (h : parseSource s = some items) :
    programShaped items = true ∧ ∀ t ∈ programToks items, Writable t := by
  rw [parseSource] at h
  split at h
  · simp at h
  · rename_i ts hts
    split at h
    · rename_i hk
      obtain ⟨h1, h2⟩ := C74_program_conv ts items h
      refine ⟨h1, ?_⟩
      have hs : Spelled true s ts := C76_read_conv s ts hts (by
        intro t ht
        have := List.all_eq_true.1 hk t ht
        cases t <;> exact this)
      intro t ht
      by_cases hsig : t.significant = true
      · have : t ∈ ts.filter Token.significant := by
          rw [h2]; exact List.mem_filter.2 ⟨ht, hsig⟩
        exact spelled_writable hs t (List.mem_filter.1 this).1
      · cases t <;> simp [Token.significant] at hsig
        all_goals exact ⟨_, .symbol rfl⟩
    · simp at h

theorem format_spells (cfg : FmtConfig) {items : List Item} (h1 : programShaped items = true)
    (h2 : ∀ t ∈ programToks items, Writable t) (hp : programPlain items = true) :
    Spelled false (formatModule cfg items) (programToks items) := by
  have := module_writes cfg.indentWidth items h1 hp h2 _ (layout_render cfg.maxWidth _ .flat 0) [] [] .nil (by intro d hd; simp at hd)
  simpa [formatModule] using this

theorem parse_spelled {s : List Char} {items : List Item} (h : Spelled true s (programToks items))
    (hs : programShaped items = true) : parseSource s = some items := by
  rw [parseSource, C76_read s _ h]
  have hk : (programToks items).all suffixOk = true := by
    rw [List.all_eq_true]
    intro t ht
    have := spelled_known h t ht
    cases t <;> exact this
  simp only [hk, if_true]
  exact C74_program items hs

/-- Formatting a text that parses gives a text that parses to the same program, whatever the widths. Missing from the
property: texts with comments are not modelled, and the program must not use the constructs excluded by `plain`,
which the formatter changes (see the counterexamples below). -/
theorem C75_same_program_partial (cfg : FmtConfig) (s : List Char) (items : List Item) (h : parseSource s = some items)
    (hc : hasComment s = false) (hp : programPlain items = true) :
    ∃ s', formatSource cfg s = some s' ∧ parseSource s' = some items := by
  obtain ⟨h1, h2⟩ := parse_writable h
  refine ⟨formatModule cfg items, ?_, ?_⟩
  · rw [formatSource, h, hc]; rfl
  · exact parse_spelled (spelled_mono (format_spells cfg h1 h2 hp)) h1

/-- Formatting is idempotent, and the formatted text does not depend on how the input was laid out. -/
theorem C75_idempotent_partial (cfg : FmtConfig) (s : List Char) (items : List Item) (h : parseSource s = some items)
    (hc : hasComment s = false) (hp : programPlain items = true) :
    ∃ s', formatSource cfg s = some s' ∧ formatSource cfg s' = some s' := by
  obtain ⟨h1, h2⟩ := parse_writable h
  have h3 := format_spells cfg h1 h2 hp
  refine ⟨formatModule cfg items, ?_, ?_⟩
  · rw [formatSource, h, hc]; rfl
  · rw [formatSource, parse_spelled (spelled_mono h3) h1, spelled_no_comment h3]; rfl

/-- The formatted text depends only on the program, not on the layout of the input. -/
theorem C75_canonical (cfg : FmtConfig) (s t : List Char) (items : List Item) (hs : parseSource s = some items)
    (ht : parseSource t = some items) (hcs : hasComment s = false) (hct : hasComment t = false) :
    formatSource cfg s = formatSource cfg t := by
  rw [formatSource, formatSource, hs, ht, hcs, hct]

/-- A text that does not parse is left as it is. -/
theorem C75_rejected (cfg : FmtConfig) (s : List Char) (h : parseSource s = none) (hc : hasComment s = false) :
    formatSource cfg s = some s := by
  rw [formatSource, h, hc]; rfl

/-- The hypotheses hold for a program with imports, structs, loops and conditions, at different widths. -/
def formatExample : String :=
  "use lib::{a,b};struct P{x:felt,y:u32*}fn f(n:felt)->felt{let x:felt=n;while x!=0{x=x-1;if x==0{break;}}" ++
  "for(let i=0;i<n;i=i+1){let (p,q)=g(x,[1,2])[0];}return -x as felt;}"

example : ((parseSource formatExample.toList).any programPlain && !hasComment formatExample.toList) = true := by
  decide +kernel

/-! ## Where the formatter changes the program

In each case the text parses, has no comments, and the formatted text means something else or does not parse. -/

/-- The program `s` is formatted to `t`. -/
def formatsTo (s t : String) : Prop :=
  hasComment s.toList = false ∧ formatSource .default s.toList = some t.toList

theorem parse_eq {s : List Char} {items : List Item} (hs : programShaped items = true)
    (h : (parseSource s).map programToks = some (programToks items)) : parseSource s = some items := by
  cases hp : parseSource s with
  | none => rw [hp] at h; simp at h
  | some is =>
    rw [hp] at h
    rw [C74_unambiguous is items (parse_writable hp).1 hs (by simpa using h)]

instance (s t : String) : Decidable (formatsTo s t) := by unfold formatsTo; exact inferInstance

/-- The type of a constant is dropped. -/
theorem C75_violated_const_type :
    formatsTo "const X: u32 = 5;" "const X = 5;\n" ∧
    parseSource "const X: u32 = 5;".toList = some [.const ⟨"X", some (.named .u32), .literal 5 none⟩] ∧
    parseSource "const X = 5;\n".toList = some [.const ⟨"X", none, .literal 5 none⟩] := by
  refine ⟨by decide +kernel, parse_eq ?_ ?_, parse_eq ?_ ?_⟩ <;> decide +kernel

/-- Tuples with one component, and their types, become parenthesised. -/
theorem C75_violated_tuple :
    formatsTo "fn f(){let x:(felt,)=(1,);}" "fn f() {\n    let x: (felt) = (1);\n}\n" ∧
    parseSource "fn f(){let x:(felt,)=(1,);}".toList = some [.function ⟨"f", [], .tuple [],
      [.let_ (.ident "x") (some (.tuple [.named .felt])) (.tuple [.literal 1 none])]⟩] ∧
    parseSource "fn f() {\n    let x: (felt) = (1);\n}\n".toList = some [.function ⟨"f", [], .tuple [],
      [.let_ (.ident "x") (some (.named .felt)) (.paren (.literal 1 none))]⟩] := by
  refine ⟨by decide +kernel, parse_eq ?_ ?_, parse_eq ?_ ?_⟩ <;> decide +kernel

/-- The parentheses around a condition that begins with a parenthesis are dropped: the text no longer parses. -/
theorem C75_violated_condition :
    formatsTo "fn f(){if((a&&b)||c){g();}}" "fn f() {\n    if (a && b) || c {\n        g();\n    }\n}\n" ∧
    (parseSource "fn f(){if((a&&b)||c){g();}}".toList).isSome = true ∧
    parseSource "fn f() {\n    if (a && b) || c {\n        g();\n    }\n}\n".toList = none := by
  decide +kernel

/-- The same for `while`. -/
theorem C75_violated_while :
    formatsTo "fn f(){while((a)){g();}}" "fn f() {\n    while (a) {\n        g();\n    }\n}\n" ∧
    parseSource "fn f(){while((a)){g();}}".toList = some [.function ⟨"f", [], .tuple [],
      [.while_ (.paren (.ident "a")) (.block [.expr (.call (.ident "g") [])])]⟩] ∧
    parseSource "fn f() {\n    while (a) {\n        g();\n    }\n}\n".toList = some [.function ⟨"f", [], .tuple [],
      [.while_ (.ident "a") (.block [.expr (.call (.ident "g") [])])]⟩] ∧
    formatsTo "fn f(){while(x){}}" "fn f() {\n    while x {}\n}\n" ∧
    (parseSource "fn f(){while(x){}}".toList).isSome = true ∧
    parseSource "fn f() {\n    while x {}\n}\n".toList = none := by
  refine ⟨by decide +kernel, parse_eq ?_ ?_, parse_eq ?_ ?_, ?_⟩ <;> decide +kernel

/-- A condition in front of a parenthesised expression becomes a call. -/
theorem C75_violated_call :
    formatsTo "fn f(){if(x)(y);}" "fn f() {\n    if x (y);\n}\n" ∧
    (parseSource "fn f(){if(x)(y);}".toList).isSome = true ∧
    parseSource "fn f() {\n    if x (y);\n}\n".toList = none := by
  decide +kernel

/-- The import of a whole module gets a stray `::`. -/
theorem C75_violated_use :
    formatsTo "use foo;" "use ::foo;\n" ∧ parseSource "use foo;".toList = some [.use [] (.single "foo")] ∧
    parseSource "use ::foo;\n".toList = none := by
  refine ⟨by decide +kernel, parse_eq ?_ ?_, ?_⟩ <;> decide +kernel

end CairoM.Syntax
