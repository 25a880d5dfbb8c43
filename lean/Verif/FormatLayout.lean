import Verif.Formatter
import Verif.LexLemmas

/-!
# Renderings of a document

Whatever the widths, a rendering of a document is the sequence of its words with white space between them. `pieces`
is this sequence, `Layout` says that a text is a rendering of it.
-/

namespace CairoM.Syntax

/-- A word, or a place with white space. -/
inductive Piece where
  | word (w : List Char)
  | gap

/-- The words of a text. -/
def splitWords : List Char → List Piece
  | [] => []
  | c :: cs =>
    if isBlank c then .gap :: splitWords cs
    else match splitWords cs with
      | .word w :: ps => .word (c :: w) :: ps
      | ps => .word [c] :: ps

mutual
def Doc.pieces : Doc → List Piece
  | .nil => []
  | .text s => splitWords s
  | .line | .softline => [.gap]
  | .group d => d.pieces
  | .indent _ d => d.pieces
  | .concat ds => piecesAll ds
def piecesAll : List Doc → List Piece
  | [] => []
  | d :: ds => d.pieces ++ piecesAll ds
end

/-- The text is the words in their order, with white space at the gaps and possibly elsewhere between words. -/
inductive Layout : List Piece → List Char → Prop
  | nil : Layout [] []
  | word {w : List Char} {ps : List Piece} {s : List Char} : (∀ c ∈ w, isBlank c = false) → w ≠ [] → Layout ps s →
      Layout (.word w :: ps) (w ++ s)
  | gap {c : Char} {ps : List Piece} {s : List Char} : isBlank c = true → Layout ps s → Layout (.gap :: ps) (c :: s)
  | space {c : Char} {ps : List Piece} {s : List Char} : isBlank c = true → Layout ps s → Layout ps (c :: s)

theorem Layout.append {ps qs : List Piece} {s t : List Char} (h : Layout ps s) (h' : Layout qs t) :
    Layout (ps ++ qs) (s ++ t) := by
  induction h with
  | nil => exact h'
  | word h1 h2 _ ih => rw [List.append_assoc]; exact .word h1 h2 ih
  | gap h1 _ ih => exact .gap h1 ih
  | space h1 _ ih => exact .space h1 ih

theorem Layout.spaces {ps : List Piece} {s : List Char} (n : Nat) (h : Layout ps s) :
    Layout ps (List.replicate n ' ' ++ s) := by
  induction n with
  | zero => exact h
  | succ n ih => rw [List.replicate_succ, List.cons_append]; exact .space (by decide) ih

theorem layout_split (s : List Char) : Layout (splitWords s) s := by
  induction s with
  | nil => exact .nil
  | cons c cs ih =>
    rw [splitWords]
    split
    · exact .gap (by assumption) ih
    · rename_i hc
      have hc : isBlank c = false := by simpa using hc
      split
      · rename_i w ps heq
        rw [heq] at ih
        have aux : ∀ ps' s', Layout ps' s' → ps' = .word w :: ps → (∀ d, s'.head? = some d → isBlank d = false) →
            Layout (.word (c :: w) :: ps) (c :: s') := by
          intro ps' s' h he hd
          cases h with
          | nil => simp at he
          | word h1 h2 h3 =>
            simp only [List.cons.injEq, Piece.word.injEq] at he
            obtain ⟨rfl, rfl⟩ := he
            refine Layout.word (w := c :: _) ?_ (by simp) h3
            intro x hx
            rcases List.mem_cons.1 hx with rfl | hx
            · exact hc
            · exact h1 x hx
          | gap => simp at he
          | space h1 _ => rw [hd _ rfl] at h1; simp at h1
        refine aux _ _ ih rfl ?_
        intro d hd
        cases cs with
        | nil => simp at hd
        | cons d' ds =>
          simp at hd
          subst hd
          cases hb : isBlank d' with
          | false => rfl
          | true => rw [splitWords, if_pos hb] at heq; simp at heq
      · refine Layout.word (w := [c]) (by simpa using hc) (by simp) ih

/-- The state of the indentation loop after some text. -/
theorem indent_word {width : Nat} {w s : List Char} (hw : ∀ c ∈ w, isBlank c = false) (pos : Nat) :
    ∃ pos', (indentText width false pos (w ++ s)).1 = w ++ (indentText width false pos' s).1 := by
  induction w generalizing pos with
  | nil => exact ⟨pos, rfl⟩
  | cons c cs ih =>
    have hc := hw c (by simp)
    have hn : (c == '\n') = false := by
      cases h : c == '\n' with
      | false => rfl
      | true => simp at h; subst h; simp [isBlank] at hc
    obtain ⟨p, hp⟩ := ih (fun c hc => hw c (by simp [hc])) (pos + 1)
    refine ⟨p, ?_⟩
    rw [List.cons_append, indentText]
    simp only [hn, Bool.false_and, Bool.false_or, Bool.false_eq_true, if_false, List.nil_append]
    rw [hp]
    rfl

/-- Indentation of a rendering is a rendering. -/
theorem layout_indent {ps : List Piece} {s : List Char} (h : Layout ps s) (width : Nat) :
    ∀ (b : Bool) (pos : Nat), Layout ps (indentText width b pos s).1 := by
  induction h with
  | nil => exact fun _ _ => .nil
  | @word w ps s h1 h2 _ ih =>
    intro b pos
    cases w with
    | nil => exact absurd rfl h2
    | cons c cs =>
      have hc := h1 c (by simp)
      have hn : (c == '\n') = false := by
        cases h : c == '\n' with
        | false => rfl
        | true => simp at h; subst h; simp [isBlank] at hc
      have hsp : isSpace c = false := hc
      rw [List.cons_append, indentText]
      simp only [hn, hsp, Bool.not_false, Bool.and_true, Bool.and_not_self, Bool.or_self, Bool.false_eq_true, if_false]
      obtain ⟨p, hp⟩ := indent_word (width := width) (s := s) (w := cs) (fun c hc => h1 c (by simp [hc]))
        ((if b = true then pos + width else pos) + 1)
      rw [hp]
      have key := Layout.word h1 h2 (ih false p)
      cases b with
      | false => simpa using key
      | true => simpa using Layout.spaces width key
  | @gap c ps s h1 _ ih =>
    intro b pos
    have hsp : isSpace c = true := h1
    rw [indentText]
    simp only [hsp, Bool.not_true, Bool.and_false, Bool.false_eq_true, if_false, List.nil_append]
    exact .gap h1 (ih _ _)
  | @space c ps s h1 _ ih =>
    intro b pos
    have hsp : isSpace c = true := h1
    rw [indentText]
    simp only [hsp, Bool.not_true, Bool.and_false, Bool.false_eq_true, if_false, List.nil_append]
    exact .space h1 (ih _ _)

mutual
/-- Every rendering of a document is a layout of its pieces. -/
theorem layout_render (maxWidth : Nat) : ∀ (d : Doc) (m : Mode) (pos : Nat), Layout d.pieces (d.render maxWidth m pos).1
  | .nil, _, _ => .nil
  | .text s, _, _ => layout_split s
  | .line, _, _ => .gap (by decide) .nil
  | .softline, m, _ => by
    cases m
    · exact .gap (by decide) .nil
    · exact .gap (by decide) .nil
  | .group d, _, pos => layout_render maxWidth d _ pos
  | .indent _ d, m, _ => layout_indent (layout_render maxWidth d m 0) _ _ _
  | .concat ds, m, pos => layout_all maxWidth ds m pos
theorem layout_all (maxWidth : Nat) : ∀ (ds : List Doc) (m : Mode) (pos : Nat),
    Layout (piecesAll ds) (renderAll maxWidth ds m pos).1
  | [], _, _ => .nil
  | d :: ds, m, pos => (layout_render maxWidth d m pos).append (layout_all maxWidth ds m _)
end

end CairoM.Syntax
