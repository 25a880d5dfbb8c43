import Verif.Modules

/-!
# Specification of the modules of a project (C93)

The file `d₁/…/dₙ/s.cm` below the source directory is the module `d₁::…::dₙ::s`.
-/

namespace CairoM
namespace Modules

/-- `d₁::…::dₙ::s`. -/
def qualified (dirs : List Component) (stem : Component) : Component := dirs.flatMap (· ++ [':', ':']) ++ stem

/-- The path of a source file. -/
def sourcePath (src : Path) (dirs : List Component) (stem : Component) : Path := src ++ dirs ++ [stem ++ ['.', 'c', 'm']]

/-- The paths below the source directory: what the walk returns, in any order. `read` fails on what is not a readable text. The
answer is right if the modules are the source files, each once and with its text, under the names of their paths. -/
def Faithful {T : Type} (src : Path) (walk : List Path) (read : Path → Option T) (modules : List (Component × Path × T)) : Prop :=
  (modules.map Prod.fst).Nodup ∧ (modules.map fun e => e.2.1).Nodup ∧
  (∀ dirs stem, stem ≠ [] → sourcePath src dirs stem ∈ walk →
    ∃ text, read (sourcePath src dirs stem) = some text ∧ (qualified dirs stem, sourcePath src dirs stem, text) ∈ modules) ∧
  ∀ e ∈ modules, e.2.1 ∈ walk ∧ ∃ dirs stem, e.1 = qualified dirs stem ∧ e.2.1 = sourcePath src dirs stem

end Modules
end CairoM
