import Verif.Modules

/-!
# Model: which file the editor's navigation looks into

`to_semantic_crate` (`crates/cairo-m-ls/src/db/mod.rs`) and the first steps of `goto_definition` and `hover`
(`crates/cairo-m-ls/src/backend.rs`).
-/

namespace CairoM
namespace Modules

/-- The name of a module in `to_semantic_crate` (`db/mod.rs:102-115`): the canonical name, or the stem of a file outside the
source directory. -/
def crateName (src path : Path) : Option Component :=
  match moduleName src path with
  | some n => some n
  | none => path.getLast?.map fun n => (splitName n).1

/-- `to_semantic_crate` (`db/mod.rs:90-128`): the modules with their files. -/
def semanticCrate {T : Type} (src : Path) : List (Path × T) → List (Component × Path × T) → List (Component × Path × T)
  | [], modules => modules
  | f :: fs, modules =>
    match crateName src f.1 with
    | some n => semanticCrate src fs (put n f modules)
    | none => semanticCrate src fs modules

/-- The file whose index `goto_definition` and `hover` ask for (`backend.rs:757-766`, `897-906`): the module named by the stem
of the file name. -/
def navigationFile {T : Type} (modules : List (Component × Path × T)) (path : Path) : Option (Path × T) :=
  match path.getLast? with
  | some name => modules.lookup (splitName name).1
  | none => none

end Modules
end CairoM
