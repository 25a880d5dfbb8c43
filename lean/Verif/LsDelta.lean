import Mathlib.Data.List.Perm.Basic

/-!
# Cached diagnostics of the language server

Model of `crates/compiler/semantic/src/delta_diagnostics.rs` and of the histories in which the language server uses it.

The database is abstract: its revision and, for each project, its modules with the diagnostics that `module_all_diagnostics`
computes for them from the current texts. A `HashMap` is an association list with distinct keys, in iteration order; a
`DiagnosticCollection` is the list of its diagnostics.
-/

namespace CairoM
namespace LsDelta

variable {C N D : Type*} [DecidableEq N]

/-- What a request sees of the database: the current revision, and for each project its modules with their diagnostics. -/
structure Db (C N D : Type*) where
  revision : ℕ
  modules : C → List (N × List D)

/-- `DeltaDiagnosticsTracker` (`delta_diagnostics.rs:35-42`). -/
structure Tracker (N D : Type*) where
  revisions : N → Option ℕ
  cached : List (N × List D)
  last : Option ℕ

/-- `DeltaDiagnosticsTracker::new` (`delta_diagnostics.rs:46-52`). -/
def Tracker.new : Tracker N D := ⟨fun _ => none, [], none⟩

/-- `HashMap::insert`. -/
def put (n : N) (d : List D) (l : List (N × List D)) : List (N × List D) := (n, d) :: l.filter fun e => decide (e.1 ≠ n)

/-- `has_module_changed` (`delta_diagnostics.rs:118-145`). -/
def hasModuleChanged (db : Db C N D) (c : C) (t : Tracker N D) (n : N) : Bool :=
  match t.revisions n with
  | some last => if db.revision > last then ((db.modules c).lookup n).isSome else false
  | none => true

/-- Computing the diagnostics of a module and remembering them (`delta_diagnostics.rs:82-88` and `101-106`). -/
def Tracker.record (t : Tracker N D) (revision : ℕ) (n : N) (d : List D) : Tracker N D :=
  { t with cached := put n d t.cached, revisions := fun m => if m = n then some revision else t.revisions m }

/-- The loop over the modules (`delta_diagnostics.rs:74-110`); `total` is `total_diagnostics`. -/
def loop (db : Db C N D) (c : C) : List (N × List D) → Tracker N D → List D → Tracker N D × List D
  | [], t, total => (t, total)
  | (n, d) :: ms, t, total =>
    if hasModuleChanged db c t n then loop db c ms (t.record db.revision n d) (total ++ d)
    else match t.cached.lookup n with
      | some cached => loop db c ms t (total ++ cached)
      | none => loop db c ms (t.record db.revision n d) (total ++ d)

/-- `get_cached_project_diagnostics` (`delta_diagnostics.rs:148-156`). -/
def Tracker.cachedDiagnostics (t : Tracker N D) : List D := t.cached.flatMap Prod.snd

/-- `last_project_revision.is_none() || last_project_revision.unwrap() < current_revision`
(`delta_diagnostics.rs:63-64`). -/
def Tracker.needsRecompute (t : Tracker N D) (revision : ℕ) : Bool :=
  match t.last with
  | none => true
  | some last => decide (last < revision)

/-- `get_project_diagnostics` (`delta_diagnostics.rs:55-115`). -/
def getProjectDiagnostics (db : Db C N D) (t : Tracker N D) (c : C) : Tracker N D × List D :=
  if t.needsRecompute db.revision then
    let r := loop db c (db.modules c) t []
    ({ r.1 with last := some db.revision }, r.2)
  else (t, t.cachedDiagnostics)

/-- What happens to the language server. -/
inductive Event (C N D : Type*) where
  /-- `did_change` sets the text of a source file (`backend.rs:700-730`): a new revision; any diagnostics may change. -/
  | edit (modules : C → List (N × List D))
  /-- A project is loaded or loaded again, or a file is opened (`backend.rs:651-698`, `project/model.rs:99-204`): new inputs are
  created, which starts no new revision. -/
  | load (modules : C → List (N × List D))
  /-- The database is exchanged for a new one (`db/swapper.rs:58-155`), whose revisions start again; the tracker stays. -/
  | swap (modules : C → List (N × List D))
  /-- A request for the diagnostics of a project (`diagnostics/controller.rs:175-242`); there is one tracker for all projects
  (`diagnostics/controller.rs:61`). -/
  | request (c : C)

/-- The state of the server. -/
structure World (C N D : Type*) where
  db : Db C N D
  tracker : Tracker N D

/-- The state after an event, and the answer with the project and the database of the request. -/
def step (w : World C N D) : Event C N D → World C N D × Option (Db C N D × C × List D)
  | .edit m => (⟨⟨w.db.revision + 1, m⟩, w.tracker⟩, none)
  | .load m => (⟨⟨w.db.revision, m⟩, w.tracker⟩, none)
  | .swap m => (⟨⟨1, m⟩, w.tracker⟩, none)
  | .request c =>
    let r := getProjectDiagnostics w.db w.tracker c
    (⟨w.db, r.1⟩, some (w.db, c, r.2))

/-- The server when it starts, with the given modules. -/
def World.start (modules : C → List (N × List D)) : World C N D := ⟨⟨1, modules⟩, .new⟩

/-- The answers given in a history. -/
def answers (w : World C N D) : List (Event C N D) → List (Db C N D × C × List D)
  | [] => []
  | e :: es =>
    match (step w e).2 with
    | some a => a :: answers (step w e).1 es
    | none => answers (step w e).1 es

end LsDelta
end CairoM
