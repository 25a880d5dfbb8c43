import Verif.AirRun
import Verif.Merkle

/-!
# Openings of a Merkle commitment (specification)

What it means that a value is at a position of the tree with a given root, and the conditions on the Merkle rows under
which an accepted trace only claims such values.
-/

namespace CairoM
namespace Air

/-- `Opens H N k i v root`: hashing `v` with siblings, from position `i` of the level at depth `k` upwards, ends in `root`
at position 0 of level 0. `N` holds of every pair of children that is hashed. -/
inductive Opens (H : M31 → M31 → M31) (N : M31 → M31 → Prop) : ℕ → ℕ → M31 → M31 → Prop
  | root (v : M31) : Opens H N 0 0 v v
  | left {k i : ℕ} {v s root : M31} (hn : N v s) (h : Opens H N k i (H v s) root) : Opens H N (k + 1) (2 * i) v root
  | right {k i : ℕ} {v s root : M31} (hn : N s v) (h : Opens H N k i (H s v) root) : Opens H N (k + 1) (2 * i + 1) v root

/-- A Merkle row provides the value of one of its children. -/
def MerkleNode.Used (r : MerkleNode.Row) : Prop := r.left_multiplicity ≠ 0 ∨ r.right_multiplicity ≠ 0

/-- The Merkle rows are those of a hash tree: a row that provides a child looks up its parent, the parent is the hash of
the children, and there are no rows above the root. None of the three is forced by the constraints. -/
structure HonestTree (H : M31 → M31 → M31) (t : Trace) : Prop where
  linked : ∀ r ∈ t.merkle, MerkleNode.Used r → r.parent_multiplicity ≠ 0
  hash : ∀ r ∈ t.merkle, MerkleNode.Used r → r.parent_value = H r.left_value r.right_value
  depth : ∀ r ∈ t.merkle, MerkleNode.Used r → r.depth ≠ 0

/-- Some Merkle row of the trace hashes a pair other than the pair of children at some place of the tree over `f` to the
same value. -/
def TraceCollision (H : M31 → M31 → M31) (t : Trace) (f : ℕ → QM31) : Prop :=
  ∃ r ∈ t.merkle, ∃ h j, (r.left_value, r.right_value) ≠ (Adapter.subtree H f h (2 * j), Adapter.subtree H f h (2 * j + 1)) ∧
    H r.left_value r.right_value = H (Adapter.subtree H f h (2 * j)) (Adapter.subtree H f h (2 * j + 1))

end Air
end CairoM
