import Mathlib.Data.List.Perm.Basic

/-!
# Source files of the language server across database swaps

Model of how the language server keeps the texts of the files: opening and editing (`crates/cairo-m-ls/src/backend.rs`), loading of
projects (`backend.rs`, `project/model.rs`) and the periodic exchange of the database (`db/swapper.rs`).

A `SourceFile` is a number: Salsa numbers the inputs of a type in the order of their creation in a database. There is one
project, a table from addresses to source files. A step that holds the lock of the database is one event; steps of the swap
between which the lock is released are separate events.
-/

namespace CairoM
namespace LsSwap

variable {U T : Type*}

/-- A swap in progress: nothing, the texts of the snapshot, or the new database waiting for the exchange. -/
inductive Pending (U T : Type*) where
  | idle
  | snapped (texts : List (U × T))
  | built (texts : List T)

/-- The state of the server: the texts of the source files of the database in use, the table of the open files
(`Backend::source_files`, `backend.rs:38`) and the table of the loaded projects (`ProjectModel::crates`, `project_crate_ids`). -/
structure State (U T : Type*) where
  texts : List T
  files : U → Option ℕ
  project : List (U × ℕ)
  pending : Pending U T

/-- The server when it starts. -/
def State.start : State U T := ⟨[], fun _ => none, [], .idle⟩

/-- What happens to the server. -/
inductive Event (U T : Type*) where
  /-- `did_open`: a text for a file. -/
  | opened (u : U) (text : T)
  /-- `did_change`: a new text for a file. -/
  | change (u : U) (text : T)
  /-- A project with these files is loaded, each with the text on disk if it can be read. -/
  | load (files : List (U × Option T))
  /-- Steps 1 and 2 of a swap. -/
  | snapshot
  /-- Steps 3 and 4 of a swap; the list is the order in which the hash maps are iterated. -/
  | tables (order : List U)
  /-- Step 5 of a swap. -/
  | exchange

variable [DecidableEq U]

/-- `did_open` (`backend.rs:651-698`): a new source file. -/
def State.opened (s : State U T) (u : U) (text : T) : State U T :=
  { s with texts := s.texts ++ [text], files := fun v => if v = u then some s.texts.length else s.files v }

/-- `did_change` (`backend.rs:700-730`): nothing happens for unknown files; a number that the database does not have makes
`set_text` panic, which is reported without changing anything. -/
def State.change (s : State U T) (u : U) (text : T) : State U T :=
  match s.files u with
  | some i => if i < s.texts.length then { s with texts := s.texts.set i text } else s
  | none => s

/-- One file of a project that is loaded (`backend.rs:174-211`): the known source file, or a new one with the text on disk; files
that cannot be read are skipped. -/
def State.loadFile (s : State U T) (f : U × Option T) : State U T :=
  match s.files f.1 with
  | some i => { s with project := s.project ++ [(f.1, i)] }
  | none =>
    match f.2 with
    | some text =>
      { s with
        texts := s.texts ++ [text]
        files := fun v => if v = f.1 then some s.texts.length else s.files v
        project := s.project ++ [(f.1, s.texts.length)] }
    | none => s

/-- Loading of a project (`backend.rs:146-234`, `project/model.rs:99-204`). -/
def State.load (s : State U T) (files : List (U × Option T)) : State U T := files.foldl State.loadFile { s with project := [] }

/-- The snapshot of a swap (`db/swapper.rs:62-88`). -/
def State.snapshot (s : State U T) : State U T :=
  { s with pending := .snapped (s.project.filterMap fun e => s.texts[e.2]?.map fun t => (e.1, t)) }

/-- The new database and the new tables (`db/swapper.rs:90-141`): `Backend::source_files` is not among them. -/
def State.tables (s : State U T) (order : List U) : State U T :=
  match s.pending with
  | .snapped texts =>
    let found := order.filterMap fun u => (texts.lookup u).map fun t => (u, t)
    { s with project := (found.map Prod.fst).zipIdx, pending := .built (found.map Prod.snd) }
  | _ => s

/-- The exchange (`db/swapper.rs:143-154`). -/
def State.exchange (s : State U T) : State U T :=
  match s.pending with
  | .built texts => { s with texts := texts, pending := .idle }
  | _ => s

/-- The state after an event. -/
def State.step (s : State U T) : Event U T → State U T
  | .opened u text => s.opened u text
  | .change u text => s.change u text
  | .load files => s.load files
  | .snapshot => s.snapshot
  | .tables order => s.tables order
  | .exchange => s.exchange

/-- The state after a history. -/
def State.run (s : State U T) (history : List (Event U T)) : State U T := history.foldl State.step s

/-- The text that is analysed for a file of a project. -/
def State.analysed (s : State U T) (u : U) : Option T := (s.project.lookup u).bind fun i => s.texts[i]?

end LsSwap
end CairoM
