import Mathlib.Data.List.Basic

/-!
# Modules of a project

Model of `Project::source_files` and `Project::module_name_from_path` (`crates/compiler/cairo-m-project/src/model.rs`) and of
`crate_from_project` (`crates/compiler/semantic/src/db.rs`). A path is the list of its components, a component a list of
characters. The directory walk is a list of paths in some order; what it leaves out (ignored files) is not modelled.
-/

namespace CairoM
namespace Modules

abbrev Component := List Char
abbrev Path := List Component

/-- `Path::file_stem` and `Path::extension` of the standard library, for a file name: split at the last dot, unless the dot is
the first character. -/
def splitName (name : Component) : Component × Option Component :=
  let r := name.reverse
  match r.dropWhile (· ≠ '.') with
  | [] => (name, none)
  | _ :: before => if before = [] then (name, none) else (before.reverse, some (r.takeWhile (· ≠ '.')).reverse)

/-- `path.extension() == Some("cm")` (`model.rs:62`). -/
def isSource (p : Path) : Bool :=
  match p.getLast? with
  | some name => (splitName name).2 = some ['c', 'm']
  | none => false

/-- `Path::strip_prefix` of the standard library. -/
def stripPrefix : Path → Path → Option Path
  | [], p => some p
  | c :: cs, d :: ds => if c = d then stripPrefix cs ds else none
  | _ :: _, [] => none

/-- `join("::")`. -/
def join : List Component → Component
  | [] => []
  | [c] => c
  | c :: cs => c ++ [':', ':'] ++ join cs

/-- `Project::module_name_from_path` (`model.rs:93-129`); `src` is the source directory. -/
def moduleName (src path : Path) : Option Component :=
  match stripPrefix src path with
  | none => none
  | some relative =>
    match relative.getLast? with
    | none => none
    | some name =>
      let stem := (splitName name).1
      if relative.dropLast = [] then some stem else some (join relative.dropLast ++ [':', ':'] ++ stem)

/-- `Project::source_files` (`model.rs:34-72`): `root` is the path of the entry point, `walk` the paths below its directory. `none`
is a panic of one of the `unwrap`s. -/
def sourceFiles (root : Path) (walk : List Path) : Option (List Path) :=
  if root = [] then none
  else
    match root.dropLast.getLast? with
    | none => none
    | some dir =>
      if dir ≠ ['s', 'r', 'c'] then some [root]
      else
        let files := walk.filter isSource
        if files = [] then some [root] else some files

/-- The entry point's path in `load_project_from_manifest` (`discovery.rs:153-173`): `folder` is the directory of the manifest,
`entry` the entry point it names. Simplification: the entry point is a relative path. -/
def rootFile (folder entry : Path) : Path :=
  if entry.head? = some ['s', 'r', 'c'] then folder ++ entry else folder ++ [['s', 'r', 'c']] ++ entry

/-- `HashMap::insert`. -/
def put {V : Type} (n : Component) (v : V) (l : List (Component × V)) : List (Component × V) :=
  (n, v) :: l.filter fun e => decide (e.1 ≠ n)

/-- The loop of `crate_from_project` (`db.rs:153-186`): the modules, and whether there was a diagnostic. -/
def collect {T : Type} (src : Path) (read : Path → Option T) :
    List Path → List (Component × Path × T) → Bool → List (Component × Path × T) × Bool
  | [], modules, failed => (modules, failed)
  | p :: ps, modules, failed =>
    match moduleName src p with
    | none => collect src read ps modules true
    | some name =>
      match read p with
      | none => collect src read ps modules true
      | some text => collect src read ps (put name (p, text) modules) failed

/-- `crate_from_project` (`db.rs:134-206`): the modules with their paths and texts and the name of the entry point. The outer
`none` is a panic, the inner one the answer with diagnostics. -/
def crateFromProject {T : Type} (root : Path) (walk : List Path) (read : Path → Option T) :
    Option (Option (List (Component × Path × T) × Component)) :=
  match sourceFiles root walk with
  | none => none
  | some files =>
    let r := collect root.dropLast read files [] false
    if r.2 then some none
    else some (some (r.1, ((root.getLast?.map fun n => (splitName n).1).getD ['m', 'a', 'i', 'n'])))

end Modules
end CairoM
