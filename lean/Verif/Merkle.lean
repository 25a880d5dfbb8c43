import Mathlib.Data.List.Sort
import Verif.Adapter

/-!
# The memory commitment: a sparse Merkle tree

Model of `crates/prover/src/adapter/merkle.rs` over an arbitrary compression function `H` (the code's `MerkleHasher`).
-/

namespace CairoM

open Abi

namespace Adapter

/-- `MerkleValue` (`crates/prover/src/adapter/merkle.rs:28-32`). -/
structure MerkleValue where
  value : M31
  mult : M31
deriving DecidableEq, Repr

/-- `NodeData` (`crates/prover/src/adapter/merkle.rs:90-102`). -/
structure NodeData where
  index : M31
  depth : ℕ
  left : MerkleValue
  right : MerkleValue
  parent : MerkleValue
deriving DecidableEq, Repr

/-- `HashMap<u32, MerkleValue>`: the nodes of one depth. -/
abbrev Level := List (ℕ × MerkleValue)

/-- `HashMap::get`. -/
def Level.get (l : Level) (i : ℕ) : Option MerkleValue := (l.find? fun p => p.1 = i).map Prod.snd

/-- `HashMap::insert`. -/
def Level.insert (l : Level) (i : ℕ) (v : MerkleValue) : Level := (i, v) :: l.filter fun p => p.1 ≠ i

/-- `TREE_HEIGHT` (`crates/prover/src/adapter/merkle.rs:57-62`). -/
def TREE_HEIGHT : ℕ := 30

/-- `default_hashes()[TREE_HEIGHT - h]` (`crates/prover/src/poseidon2.rs:35-57`): zero for the leaves, then the hash of two
defaults. -/
def defaultHash (H : M31 → M31 → M31) : ℕ → M31
  | 0 => 0
  | h + 1 => H (defaultHash H h) (defaultHash H h)

/-- The four leaves of a cell (`crates/prover/src/adapter/merkle.rs:202-226`): shifting a `u32` drops the high bits; a public
cell has multiplicity 2, others 1. -/
def cellLeaves (isPublic : M31 → Bool) (l : Level) (p : M31 × Cell) : Level :=
  let base := (p.1.val <<< 2) % 2 ^ 32
  p.2.value.limbs.zipIdx.foldl (fun l q => l.insert (base + q.2) ⟨q.1, if isPublic p.1 then 2 else 1⟩) l

/-- The leaves of a memory (`crates/prover/src/adapter/merkle.rs:199-228`). -/
def leaves (isPublic : M31 → Bool) (m : CellMap) : Level := m.foldl (cellLeaves isPublic) []

/-- The public addresses of the initial tree (`crates/prover/src/adapter/merkle.rs:208-212`). -/
def publicInitial (r : PublicAddressRanges) (a : M31) : Bool :=
  (r.program.1 ≤ a.val && a.val < r.program.2) || (r.input.1 ≤ a.val && a.val < r.input.2)

/-- The public addresses of the final tree (`crates/prover/src/adapter/merkle.rs:213`). -/
def publicFinal (r : PublicAddressRanges) (a : M31) : Bool := r.output.1 ≤ a.val && a.val < r.output.2

/-- The loop over the indices of a depth (`crates/prover/src/adapter/merkle.rs:240-285`): the nodes pushed and the parents. -/
def pairUp (H : M31 → M31 → M31) (depth : ℕ) (l : Level) : List ℕ → List ℕ → Level → List NodeData × Level
  | [], _, parents => ([], parents)
  | i :: is, processed, parents =>
    if processed.contains i then pairUp H depth l is processed parents
    else
      let sibling := i ^^^ 1
      let left := if i % 2 = 0 then i else sibling
      let right := if i % 2 = 0 then sibling else i
      let lv := (l.get left).getD ⟨defaultHash H (TREE_HEIGHT - depth), 0⟩
      let rv := (l.get right).getD ⟨defaultHash H (TREE_HEIGHT - depth), 0⟩
      let pv : MerkleValue := ⟨H lv.value rv.value, 1⟩
      let (ns, parents) := pairUp H depth l is (right :: left :: processed) (parents.insert (i >>> 1) pv)
      (⟨M31.ofU32 left, depth, lv, rv, pv⟩ :: ns, parents)

/-- One depth of the tree (`crates/prover/src/adapter/merkle.rs:231-286`). -/
def buildLevel (H : M31 → M31 → M31) (depth : ℕ) (l : Level) : List NodeData × Level :=
  pairUp H depth l ((l.map Prod.fst).insertionSort (· ≤ ·)) [] []

/-- The depths `d, …, 1` (`crates/prover/src/adapter/merkle.rs:230-287`). -/
def buildLevels (H : M31 → M31 → M31) : ℕ → Level → List NodeData × Level
  | 0, l => ([], l)
  | d + 1, l =>
    let (ns, l) := buildLevel H (d + 1) l
    let (ms, l) := buildLevels H d l
    (ns ++ ms, l)

/-- `build_partial_merkle_tree` (`crates/prover/src/adapter/merkle.rs:183-293`); `none` for a failed assertion or a missing
key. -/
def buildTree (H : M31 → M31 → M31) (isPublic : M31 → Bool) (m : CellMap) : Option (List NodeData × Option M31) :=
  if m.isEmpty then some ([], none)
  else if m.length ≥ 2 ^ 28 then none
  else
    let (ns, top) := buildLevels H TREE_HEIGHT (leaves isPublic m)
    if top.length ≠ 1 then none else (top.get 0).map fun v => (ns, some v.value)

/-! ### Specification: the full tree -/

/-- The zero-defaulted contents of a map. -/
def contents (m : CellMap) (a : ℕ) : QM31 := ((m.get (M31.ofU32 a)).map Cell.value).getD QM31.zero

/-- Leaf `j` of a memory: limb `j % 4` of cell `j / 4`. -/
def leaf (f : ℕ → QM31) (j : ℕ) : M31 := (f (j / 4)).limbs.getD (j % 4) 0

/-- The hash of the complete subtree of height `h` over the leaves `j·2^h, …, (j+1)·2^h − 1`. -/
def subtree (H : M31 → M31 → M31) (f : ℕ → QM31) : ℕ → ℕ → M31
  | 0, j => leaf f j
  | h + 1, j => H (subtree H f h (2 * j)) (subtree H f h (2 * j + 1))

/-- The root of the complete tree over 2^30 leaves. -/
def fullRoot (H : M31 → M31 → M31) (f : ℕ → QM31) : M31 := subtree H f 30 0

/-- A place where two trees hash different pairs of children to the same value. -/
def Collision (H : M31 → M31 → M31) (f g : ℕ → QM31) (h j : ℕ) : Prop :=
  (subtree H f h (2 * j), subtree H f h (2 * j + 1)) ≠ (subtree H g h (2 * j), subtree H g h (2 * j + 1)) ∧
    H (subtree H f h (2 * j)) (subtree H f h (2 * j + 1)) = H (subtree H g h (2 * j)) (subtree H g h (2 * j + 1))

end Adapter
end CairoM
