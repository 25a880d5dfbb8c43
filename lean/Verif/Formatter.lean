import Verif.Lexer

/-!
# The formatter

Model of `crates/compiler/formatter/src`: documents and their rendering (`doc.rs`), the rules that turn syntax trees into
documents (`rules/*.rs`, `utils.rs`) and `format_source_file` (`api.rs:11-44`). Comments are not modelled: on texts
that contain a comment the model is undefined (`formatSource` gives `none`); without comments the functions of
`comment_attachment.rs` and `simple_comment_preserver.rs` do nothing. Texts of documents are lists of characters; they
come from tokens and from constants of the rules, so they are ASCII and their length in bytes is the number of
characters.
-/

namespace CairoM.Syntax

/-- `Doc` (`doc.rs:3-18`). -/
inductive Doc where
  | nil
  | text (s : List Char)
  | line
  | softline
  | group (d : Doc)
  | indent (width : Nat) (d : Doc)
  | concat (ds : List Doc)
  deriving Inhabited

/-- `Doc::text` on a constant. -/
def Doc.str (s : String) : Doc := .text s.toList

/-- `Doc::join` (`doc.rs:50-63`). -/
def Doc.join (sep : Doc) : List Doc → Doc
  | [] => .nil
  | d :: ds => .concat (d :: ds.flatMap (fun x => [sep, x]))

/-- `Doc::strip_trailing_semicolon` (`doc.rs:106-125`). -/
def Doc.stripSemicolon : Doc → Doc
  | .concat ds =>
    match ds.getLast? with
    | some (.text [';']) => .concat ds.dropLast
    | _ => .concat ds
  | .text s => if s.getLast? = some ';' then .text s.dropLast else .text s
  | d => d

/-- `Mode` (`doc.rs:136-139`). -/
inductive Mode where
  | flat | break_
  deriving DecidableEq

mutual
/-- `Renderer::measure` (`doc.rs:219-243`): the width that is left after the document on one line. -/
def Doc.measure : Doc → Nat → Mode → Option Nat
  | .nil, w, _ => some w
  | .text s, w, _ => if w < s.length then none else some (w - s.length)
  | .line, _, _ => none
  | .softline, w, m =>
    match m with
    | .flat => if w = 0 then none else some (w - 1)
    | .break_ => none
  | .group d, w, _ => d.measure w .flat
  | .indent _ d, w, m => d.measure w m
  | .concat ds, w, m => measureAll ds w m
def measureAll : List Doc → Nat → Mode → Option Nat
  | [], w, _ => some w
  | d :: ds, w, m =>
    match d.measure w m with
    | none => none
    | some w' => measureAll ds w' m
end

/-- The loop over the characters of an indented document (`doc.rs:195-207`): the text that is output and the column
after it. `is_whitespace` is the Unicode test in the code; the texts of documents are ASCII, where it agrees with
`isSpace` on the characters that occur. -/
def indentText (width : Nat) : Bool → Nat → List Char → List Char × Nat
  | _, pos, [] => ([], pos)
  | atStart, pos, c :: cs =>
    let pad : Bool := atStart && !isSpace c
    let pos' := if c == '\n' then 0 else (if pad then pos + width else pos) + 1
    let r := indentText width (c == '\n' || (atStart && !pad)) pos' cs
    ((if pad then List.replicate width ' ' else []) ++ c :: r.1, r.2)

mutual
/-- `Renderer::render_doc` (`doc.rs:156-213`): the text that is output and the column after it. -/
def Doc.render (maxWidth : Nat) : Doc → Mode → Nat → List Char × Nat
  | .nil, _, pos => ([], pos)
  | .text s, _, pos => (s, pos + s.length)
  | .line, _, _ => (['\n'], 0)
  | .softline, m, pos =>
    match m with
    | .flat => ([' '], pos + 1)
    | .break_ => (['\n'], 0)
  | .group d, _, pos =>
    d.render maxWidth (if (d.measure (maxWidth - pos) .flat).isSome then .flat else .break_) pos
  | .indent width d, m, pos => indentText width (pos == 0) pos (d.render maxWidth m 0).1
  | .concat ds, m, pos => renderAll maxWidth ds m pos
def renderAll (maxWidth : Nat) : List Doc → Mode → Nat → List Char × Nat
  | [], _, pos => ([], pos)
  | d :: ds, m, pos =>
    let r := d.render maxWidth m pos
    let r' := renderAll maxWidth ds m r.2
    (r.1 ++ r'.1, r'.2)
end

/-- `comma_separated` (`utils.rs:9-11`). -/
def commaSeparated (ds : List Doc) : Doc := Doc.join (.str ", ") ds

/-- `parens` (`utils.rs:14-16`). -/
def parens (d : Doc) : Doc := .concat [.str "(", d, .str ")"]

/-- `braces` (`utils.rs:19-21`). -/
def braces (d : Doc) : Doc := .concat [.str "{", d, .str "}"]

/-- `NamedType::format` (`rules/types.rs:31-40`). -/
def fmtNamed : NamedType → Doc
  | .felt => .str "felt"
  | .bool => .str "bool"
  | .u32 => .str "u32"
  | .custom s => .str s

/-- `to_string` of a number. -/
def decimal (n : Nat) : List Char := Nat.toDigits 10 n

mutual
/-- `TypeExpr::format` (`rules/types.rs:8-29`). -/
def fmtType : TypeExpr → Doc
  | .named n => fmtNamed n
  | .pointer t => .concat [fmtType t, .str "*"]
  | .tuple ts => parens (commaSeparated (fmtTypes ts))
  | .fixedArray t n => .concat [.str "[", fmtType t, .str "; ", .text (decimal n), .str "]"]
def fmtTypes : List TypeExpr → List Doc
  | [] => []
  | t :: ts => fmtType t :: fmtTypes ts
end

/-- `BinaryOp::format` (`rules/expressions.rs:117-139`). -/
def fmtBinaryOp : BinaryOp → Doc
  | .add => .str "+" | .sub => .str "-" | .mul => .str "*" | .div => .str "/" | .mod => .str "%"
  | .eq => .str "==" | .neq => .str "!=" | .less => .str "<" | .greater => .str ">"
  | .lessEqual => .str "<=" | .greaterEqual => .str ">=" | .and => .str "&&" | .or => .str "||"
  | .bitAnd => .str "&" | .bitOr => .str "|" | .bitXor => .str "^"

/-- `UnaryOp::format` (`rules/expressions.rs:141-149`). -/
def fmtUnaryOp : UnaryOp → Doc
  | .not => .str "!"
  | .neg => .str "-"

mutual
/-- `Expression::format` (`rules/expressions.rs:8-115`). -/
def fmtExpr : Expr → Doc
  | .literal n s => .text (decimal n ++ (match s with
      | some s => s.toList
      | none => []))
  | .boolean b => .str (if b then "true" else "false")
  | .ident s => .str s
  | .unary op e => .concat [fmtUnaryOp op, fmtExpr e]
  | .binary op l r => .group (.concat [fmtExpr l, .softline, fmtBinaryOp op, .softline, fmtExpr r])
  | .call f es => .concat [fmtExpr f, parens (commaSeparated (fmtExprs es))]
  | .index e i => .concat [fmtExpr e, .str "[", fmtExpr i, .str "]"]
  | .member e f => .concat [fmtExpr e, .str ".", .str f]
  | .tuple es => parens (commaSeparated (fmtExprs es))
  | .structLit n fs => .concat [.str n, .str " ", braces (commaSeparated (fmtFields fs))]
  | .tupleIndex e i => .concat [fmtExpr e, .str ".", .text (decimal i)]
  | .array es => .concat [.str "[", commaSeparated (fmtExprs es), .str "]"]
  | .arrayRepeat e n => .concat [.str "[", fmtExpr e, .str "; ", .text (decimal n), .str "]"]
  | .cast e t => .concat [fmtExpr e, .str " as ", fmtType t]
  | .new t n => .concat [.str "new ", fmtType t, .str "[", fmtExpr n, .str "]"]
  | .paren e => parens (fmtExpr e)
def fmtExprs : List Expr → List Doc
  | [] => []
  | e :: es => fmtExpr e :: fmtExprs es
def fmtFields : List (String × Expr) → List Doc
  | [] => []
  | (f, e) :: fs => .concat [.str f, .str ": ", fmtExpr e] :: fmtFields fs
end

mutual
/-- `Pattern::format` (`rules/statements.rs:159-173`). -/
def fmtPattern : Pattern → Doc
  | .ident s => .str s
  | .tuple ps => .concat [.str "(", Doc.join (.str ", ") (fmtPatterns ps), .str ")"]
def fmtPatterns : List Pattern → List Doc
  | [] => []
  | p :: ps => fmtPattern p :: fmtPatterns ps
end

/-- `ConstDef::format` (`rules/items.rs:146-157`): the type is not written. -/
def fmtConst (c : ConstDef) : Doc :=
  .concat [.str "const", .str " ", .str c.name, .str " = ", fmtExpr c.value, .str ";"]

/-- A block with its statements, each on its own line (`rules/statements.rs:91-106`, `rules/items.rs:83-96`). -/
def fmtBlock (indentWidth : Nat) (opening : String) (stmts : List Doc) : List Doc :=
  .str opening :: (match stmts with
    | [] => []
    | _ => [.indent indentWidth (.concat (stmts.map (fun d => .concat [.line, d]))), .line]) ++ [.str "}"]

mutual
/-- `Statement::format` (`rules/statements.rs:30-157`). -/
def fmtStmt (indentWidth : Nat) : Stmt → Doc
  | .let_ p t e =>
    .concat ([.str "let", .str " ", fmtPattern p] ++ (match t with
      | some t => [.str ": ", fmtType t]
      | none => []) ++ [.str " = ", fmtExpr e, .str ";"])
  | .const c => fmtConst c
  | .assign l r => .concat [fmtExpr l, .str " = ", fmtExpr r, .str ";"]
  | .return_ none => .concat [.str "return", .str ";"]
  | .return_ (some e) => .concat [.str "return", .str " ", fmtExpr e, .str ";"]
  | .expr e => .concat [fmtExpr e, .str ";"]
  | .if_ c t none => .concat [.str "if", .str " ", fmtExpr c, .str " ", fmtStmt indentWidth t]
  | .if_ c t (some e) =>
    .concat [.str "if", .str " ", fmtExpr c, .str " ", fmtStmt indentWidth t, .str " ", .str "else", .str " ",
      fmtStmt indentWidth e]
  | .block ss => .concat (fmtBlock indentWidth "{" (fmtStmts indentWidth ss))
  | .loop_ b => .concat [.str "loop", .str " ", fmtStmt indentWidth b]
  | .while_ c b => .concat [.str "while", .str " ", fmtExpr c, .str " ", fmtStmt indentWidth b]
  | .for_ i c s b =>
    .concat [.str "for", .str " ", .str "(", fmtStmt indentWidth i, .str " ", fmtExpr c, .str ";", .str " ",
      (match s with
        | .expr e => fmtExpr e
        | s => (fmtStmt indentWidth s).stripSemicolon),
      .str ")", .str " ", fmtStmt indentWidth b]
  | .break_ => .str "break;"
  | .continue_ => .str "continue;"
def fmtStmts (indentWidth : Nat) : List Stmt → List Doc
  | [] => []
  | s :: ss => fmtStmt indentWidth s :: fmtStmts indentWidth ss
end

/-- `Parameter::format` (`rules/items.rs:102-109`). -/
def fmtParam (p : String × TypeExpr) : Doc := .concat [.str p.1, .str ": ", fmtType p.2]

/-- `FunctionDef::format` (`rules/items.rs:58-100`). -/
def fmtFunction (indentWidth : Nat) (f : FunctionDef) : Doc :=
  .concat ([.str "fn", .str " ", .str f.name, parens (commaSeparated (f.params.map fmtParam))]
    ++ (match f.returnType with
      | .tuple [] => []
      | t => [.str " -> ", fmtType t])
    ++ fmtBlock indentWidth " {" (fmtStmts indentWidth f.body))

/-- `StructDef::format` (`rules/items.rs:111-144`). -/
def fmtStruct (indentWidth : Nat) (name : String) (fields : List (String × TypeExpr)) : Doc :=
  .concat ([.str "struct", .str " ", .str name, .str " {"]
    ++ (match fields with
      | [] => []
      | _ => [.indent indentWidth (.concat (fields.map (fun p =>
          .concat [.line, .str p.1, .str ": ", fmtType p.2, .str ","]))), .line])
    ++ [.str "}"])

/-- `path.join("::")`. -/
def joinPath : List String → List Char
  | [] => []
  | [s] => s.toList
  | s :: r => s.toList ++ [':', ':'] ++ joinPath r

/-- `UseStmt::format` (`rules/items.rs:159-190`). -/
def fmtUse (path : List String) (items : UseItems) : Doc :=
  .concat [.str "use", .str " ", .text (joinPath path), .str "::",
    (match items with
      | .single s => .str s
      | .list names => braces (commaSeparated (names.map Doc.str))),
    .str ";"]

/-- `TopLevelItem::format` (`rules/items.rs:32-56`), without comments. -/
def fmtItem (indentWidth : Nat) : Item → Doc
  | .function f => fmtFunction indentWidth f
  | .struct n fs => fmtStruct indentWidth n fs
  | .const c => fmtConst c
  | .use p items => fmtUse p items

/-- `ParsedModule::format` (`rules/items.rs:10-30`): items separated by blank lines, and a final line break. -/
def fmtModule (indentWidth : Nat) : List Item → Doc
  | [] => .concat []
  | i :: is => .concat (fmtItem indentWidth i :: is.flatMap (fun i => [.line, .line, fmtItem indentWidth i]) ++ [.line])

/-- `FormatterConfig` (`config.rs:2-11`), the fields that are read. -/
structure FmtConfig where
  maxWidth : Nat
  indentWidth : Nat

/-- `FormatterConfig::default` (`config.rs:14-21`). -/
def FmtConfig.default : FmtConfig := ⟨100, 4⟩

/-- The text of a program, `doc.render(cfg.max_width)` (`api.rs:39-40`, `doc.rs:128-132`). -/
def formatModule (cfg : FmtConfig) (items : List Item) : List Char :=
  ((fmtModule cfg.indentWidth items).render cfg.maxWidth .flat 0).1

/-- `scan_comments` finds something (`trivia.rs:41-70`). -/
def hasComment : List Char → Bool
  | [] => false
  | c :: cs => (c == '/' && cs.head? == some '/') || hasComment cs

/-- `format_source_file` (`api.rs:11-44`): a text with diagnostics is returned as it is. `none` for texts with
comments, which are outside the model. -/
def formatSource (cfg : FmtConfig) (s : List Char) : Option (List Char) :=
  if hasComment s then none
  else
    match parseSource s with
    | none => some s
    | some items => some (formatModule cfg items)

end CairoM.Syntax
