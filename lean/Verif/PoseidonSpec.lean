import Verif.AirTrace
import Mathlib.Algebra.BigOperators.Fin

/-!
# The Poseidon2 permutation (specification)

The permutation of the Poseidon2 paper for a state of sixteen elements of M31, with exponent five, eight full and
fourteen partial rounds; the round constants and the diagonal of the internal matrix are parameters. It does not refer
to the circuit.
-/

namespace CairoM
namespace Poseidon

open Air.Poseidon2 (Consts)

/-- The circulant-like 4×4 matrix of the paper. -/
def m4 : Fin 4 → Fin 4 → M31 := ![![5, 7, 1, 3], ![4, 6, 1, 1], ![1, 3, 5, 7], ![1, 1, 4, 6]]

/-- The external matrix `circ(2·M4, M4, M4, M4)`: entry `(i, j)`. -/
def external (i j : Fin 16) : M31 :=
  (if i.val / 4 = j.val / 4 then 2 else 1) * m4 ⟨i.val % 4, Nat.mod_lt _ (by norm_num)⟩ ⟨j.val % 4, Nat.mod_lt _ (by norm_num)⟩

/-- The external linear layer. -/
def externalLayer (s : Fin 16 → M31) : Fin 16 → M31 := fun i => ∑ j, external i j * s j

/-- The internal linear layer: all ones, plus a diagonal. -/
def internalLayer (c : Consts) (s : Fin 16 → M31) : Fin 16 → M31 := fun i => ∑ j, (if i = j then c.matrix i + 1 else 1) * s j

/-- A full round. -/
def fullRound (c : Consts) (k : ℕ) (s : Fin 16 → M31) : Fin 16 → M31 := externalLayer fun i => (s i + c.external k i) ^ 5

/-- A partial round. -/
def partialRound (c : Consts) (k : ℕ) (s : Fin 16 → M31) : Fin 16 → M31 :=
  internalLayer c fun i => if i = 0 then (s 0 + c.internal k) ^ 5 else s i

/-- The permutation. -/
def permute (c : Consts) (s : Fin 16 → M31) : Fin 16 → M31 :=
  (List.range' 4 4).foldl (fun s k => fullRound c k s)
    ((List.range 14).foldl (fun s k => partialRound c k s)
      ((List.range 4).foldl (fun s k => fullRound c k s) (externalLayer s)))

/-- The hash of two children: the first element of the permutation of `[left, right, 0, …, 0]`
(`crates/prover/src/poseidon2.rs:22-31`; the permutation there is that of an external crate). -/
def hash (c : Consts) (left right : M31) : M31 := permute c (fun i => if i = 0 then left else if i = 1 then right else 0) 0

end Poseidon
end CairoM
