import Mathlib.Order.Defs.LinearOrder
import Mathlib.Data.List.Sort

/-!
# Imports between modules

Model of `detect_import_cycle`, `topological_sort` and the order in which `project_semantic_index` treats the modules of a
crate (`crates/compiler/semantic/src/db.rs`).

A `HashMap` from names to lists of names is an association list with distinct keys; where the Rust code iterates the map
in hash order, the order of the list is that order. The recursive functions take a bound on the depth of the recursion;
`Err.depth` says that it was reached (the theorems show that it never is). `Err.panic` is the `unwrap` at `db.rs:283`.
-/

namespace CairoM
namespace Imports

variable {α : Type} [DecidableEq α]

/-- The import graph: each module with the modules it imports (`project_import_graph`, `db.rs:234-258`). -/
abbrev Graph (α : Type) := List (α × List α)

inductive Err where
  | depth
  | panic
deriving DecidableEq, Repr

/-- The state of the search: the marks (0: about to be visited, 1: on the path, 2: finished), the path and the cycle
(`db.rs:261-263`). -/
structure Search (α : Type) where
  visited : α → Option ℕ
  path : List α
  cycle : Option (List α)

def Search.mark (s : Search α) (v : α) (k : ℕ) : Search α := { s with visited := Function.update s.visited v (some k) }

/-- The loop over the neighbours (`db.rs:276-294`): the state, and whether the function has returned. `visit` is the
recursive call. -/
def neighbours (visit : Search α → α → Except Err (Search α)) : List α → Search α → Except Err (Search α × Bool)
  | [], s => .ok (s, false)
  | w :: ws, s =>
    match s.visited w with
    | none =>
      match visit (s.mark w 0) w with
      | .error e => .error e
      | .ok s => if s.cycle.isSome then .ok (s, true) else neighbours visit ws s
    | some 1 =>
      match s.path.findIdx? (· = w) with
      | none => .error .panic
      | some i => .ok ({ s with cycle := some (s.path.drop i ++ [w]) }, true)
    | some _ => if s.cycle.isSome then .ok (s, true) else neighbours visit ws s

/-- `dfs` (`db.rs:265-299`). -/
def dfs (g : Graph α) : ℕ → Search α → α → Except Err (Search α)
  | 0, _, _ => .error .depth
  | n + 1, s, v =>
    let s := s.mark v 1
    let s := { s with path := s.path ++ [v] }
    match neighbours (dfs g n) ((g.lookup v).getD []) s with
    | .error e => .error e
    | .ok (s, true) => .ok s
    | .ok (s, false) => .ok ({ s with path := s.path.dropLast }.mark v 2)

/-- The loop over the modules (`db.rs:301-311`). -/
def search (g : Graph α) (depth : ℕ) : List α → Search α → Except Err (Option (List α))
  | [], s => .ok s.cycle
  | v :: vs, s =>
    if (s.visited v).isSome then search g depth vs s
    else
      match dfs g depth s v with
      | .error e => .error e
      | .ok s => if s.cycle.isSome then .ok s.cycle else search g depth vs s

/-- The names in a graph. -/
def names (g : Graph α) : List α := g.flatMap fun e => e.1 :: e.2

/-- `detect_import_cycle` (`db.rs:260-312`); the modules are tried in the order of their names. -/
def detectImportCycle [LinearOrder α] (g : Graph α) : Except Err (Option (List α)) :=
  search g (names g).length ((g.map Prod.fst).insertionSort (· ≤ ·)) ⟨fun _ => none, [], none⟩

/-! ### Topological order -/

/-- The state of the sort: the visited names and the sorted ones (`db.rs:315-316`). -/
structure Order (α : Type) where
  visited : List α
  topo : List α

/-- The loop over the neighbours (`db.rs:326-332`). -/
def sortNeighbours (visit : Order α → α → Except Err (Order α)) : List α → Order α → Except Err (Order α)
  | [], s => .ok s
  | w :: ws, s =>
    if w ∈ s.visited then sortNeighbours visit ws s
    else
      match visit s w with
      | .error e => .error e
      | .ok s => sortNeighbours visit ws s

/-- `dfs_topo` (`db.rs:318-335`). -/
def dfsTopo (g : Graph α) : ℕ → Order α → α → Except Err (Order α)
  | 0, _, _ => .error .depth
  | n + 1, s, v =>
    match sortNeighbours (dfsTopo g n) ((g.lookup v).getD []) { s with visited := v :: s.visited } with
    | .error e => .error e
    | .ok s => .ok { s with topo := s.topo ++ [v] }

/-- The loop over the modules (`db.rs:337-341`). -/
def sortAll (g : Graph α) (depth : ℕ) : List α → Order α → Except Err (List α)
  | [], s => .ok s.topo
  | v :: vs, s =>
    if v ∈ s.visited then sortAll g depth vs s
    else
      match dfsTopo g depth s v with
      | .error e => .error e
      | .ok s => sortAll g depth vs s

/-- `topological_sort` (`db.rs:314-345`); the modules are tried in the order of the hash map. -/
def topologicalSort (g : Graph α) : Except Err (List α) := sortAll g (names g).length (g.map Prod.fst) ⟨[], []⟩

/-- The order in which the modules of a crate are analysed, or the cycle that is reported (`project_semantic_index`,
`db.rs:347-410`): the modules among the sorted names, then the remaining modules in the order of their names. The graph has
an entry for every module. -/
def analysisOrder [LinearOrder α] (g : Graph α) : Except Err (List α ⊕ List α) :=
  match detectImportCycle g with
  | .error e => .error e
  | .ok (some c) => .ok (.inl c)
  | .ok none =>
    match topologicalSort g with
    | .error e => .error e
    | .ok topo =>
      let modules := g.map Prod.fst
      let first := topo.filter fun v => decide (v ∈ modules)
      .ok (.inr (first ++ (modules.insertionSort (· ≤ ·)).filter fun v => decide (v ∉ first)))

end Imports
end CairoM
