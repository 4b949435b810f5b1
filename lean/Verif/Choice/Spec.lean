import Verif.Choice.Basic
import Verif.Topo.Proof
import Verif.Aig.Spec

set_option autoImplicit false

/-!
# Networks with choices (specification side)
-/

namespace Verif.Choice
open RefDeref (aigKids)

/-- the nodes that cuts of `n` are made from: its fanins, if it is a gate, and the next node of its class -/
def deps (C : Choice) (n : Nat) : List Nat :=
  aigKids C.net n ++ match C.equivs[n]? with
    | some (some m) => [m]
    | _ => []

/-- There is an entry for every node, and the classes are linked downwards: the next node of a class has a smaller index
and is not the constant. -/
structure Ordered (C : Choice) : Prop where
  len : C.net.nodes.length ≤ C.equivs.length
  lt : ∀ (n m : Nat), C.equivs[n]? = some (some m) → 0 < m ∧ m < n

/-- The nodes of a class compute the same function, up to the phases of the nodes. -/
def Sound (C : Choice) : Prop :=
  ∀ (n m : Nat), C.equivs[n]? = some (some m) → ∀ v, C.net.Models v →
    Bool.xor (v n) (C.net.phaseOf n) = Bool.xor (v m) (C.net.phaseOf m)

end Verif.Choice
