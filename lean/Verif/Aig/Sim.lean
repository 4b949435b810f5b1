import Verif.Aig.Basic
import Verif.TT

set_option autoImplicit false

/-!
# Simulation

Model of `include/operations/algorithms/simulation.hpp` 477-509 (`simulate_nodes`), 760-782
(`simulate`), of the simulators in lines 49-139 and of `aig_network::compute`
(aig_network.hpp 1153-1185).
-/

namespace Verif.Aig

/-- A simulator together with the value operations used by `compute`. -/
structure SimOps (α : Type) where
  /-- value of default-constructed entries of the node map -/
  dflt : α
  constant : Bool → α
  pi : Nat → α
  neg : α → α
  conj : α → α → α

/-- `default_simulator<bool>`, simulation.hpp 49-63; `assignments[i]` outside the vector is undefined
behaviour, the theorems give every input a value. -/
def boolSim (x : Nat → Bool) : SimOps Bool := ⟨false, id, x, (!·), (· && ·)⟩

/-- `default_simulator<dynamic_truth_table>`, simulation.hpp 93-119.  The default-constructed table has
no bits (dynamic_truth_table.hpp 66-73). -/
def ttSim (n : Nat) : SimOps TT := ⟨⟨0, []⟩, TT.const n, TT.nthVar n, TT.not, TT.and⟩

variable {α : Type}

/-- `aig_network::compute` for Boolean values (1153-1168) and for truth tables (1170-1185): complement
the fanin values according to the edges, then conjunction. -/
def computeGate (S : SimOps α) (c0 c1 : Sig) (v1 v2 : α) : α :=
  S.conj (if c0.compl then S.neg v1 else v1) (if c1.compl then S.neg v2 else v2)

/-- body of the `foreach_gate` loop, simulation.hpp 499-505; `none` for accesses outside the map. -/
def simGate (S : SimOps α) (N : Aig) (vals : List α) (n : Nat) : Option (List α) :=
  match N.nodes[n]? with
  | none => none
  | some nd =>
    match vals[nd.c0.index]?, vals[nd.c1.index]? with
    | some v1, some v2 => some (vals.set n (computeGate S nd.c0 nd.c1 v1 v2))
    | _, _ => none

/-- the `foreach_gate` loop -/
def simGates (S : SimOps α) (N : Aig) : List Nat → List α → Option (List α)
  | [], vals => some vals
  | n :: l, vals => match simGate S N vals n with
    | none => none
    | some vals => simGates S N l vals

/-- the `foreach_pi` loop, simulation.hpp 495-497, over the first `num_pis` inputs
(aig_network.hpp 1015-1018). -/
def simPis (S : SimOps α) : List Nat → Nat → List α → List α
  | [], _, vals => vals
  | n :: l, i, vals => simPis S l (i + 1) (vals.set n (S.pi i))

/-- `simulate_nodes`, simulation.hpp 475-509 (an AIG has one constant node). -/
def simulateNodes (S : SimOps α) (N : Aig) : Option (List α) :=
  let vals := (List.replicate N.size S.dflt).set 0 (S.constant false)
  let vals := simPis S (N.inputs.take N.numPis) 0 vals
  simGates S N N.gates vals

/-- output loop of `simulate`, simulation.hpp 771-780. -/
def simOuts (S : SimOps α) (vals : List α) : List Sig → Option (List α)
  | [] => some []
  | f :: l =>
    match vals[f.index]?, simOuts S vals l with
    | some v, some r => some ((if f.compl then S.neg v else v) :: r)
    | _, _ => none

/-- `simulate`, simulation.hpp 760-782, over the first `num_pos` outputs. -/
def simulate (S : SimOps α) (N : Aig) : Option (List α) :=
  match simulateNodes S N with
  | none => none
  | some vals => simOuts S vals (N.outputs.take N.numPos)

end Verif.Aig
