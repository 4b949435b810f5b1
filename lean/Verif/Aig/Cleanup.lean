import Verif.Topo.Basic

set_option autoImplicit false

/-!
# cleanup_dangling

Model of `include/operations/algorithms/cleanup.hpp` 36-205 (`cleanup_dangling_impl`), 295-325
(`clone_inputs`), 327-352 (`clone_outputs`), 355-387 (`cleanup_dangling` into an existing network) and
418-448 (`cleanup_dangling`), for AIGs as source and destination and the default flags
(`remove_dangling_PIs = remove_redundant_POs = false`).
-/

namespace Verif.Aig

/-- `node_map<signal, Ntk> old_to_new`; entries that were never assigned are value-initialised, i.e. the
signal with all bits 0 (node_map.hpp 84-92). -/
abbrev SigMap := Nat → Sig

/-- `old_to_new[n] = s`. -/
def SigMap.set (m : SigMap) (n : Nat) (s : Sig) : SigMap := fun k => if k = n then s else m k

/-- image of a signal: `create_not( old_to_new[child] )` if complemented, cleanup.hpp 61-71;
`create_not` is `operator!` (aig_network.hpp 283-286). -/
def SigMap.img (m : SigMap) (s : Sig) : Sig := if s.compl then (m s.index).not else m s.index

/-- mapping of the primary inputs to the leaves, cleanup.hpp 46-51; `none` when the iterator runs past
the end. -/
def mapLeaves : List Nat → List Sig → SigMap → Option SigMap
  | [], _, m => some m
  | _ :: _, [], _ => none
  | n :: ns, s :: ss, m => mapLeaves ns ss (m.set n s)

/-- body of the loop over the topological order, cleanup.hpp 55-77; `clone_node` is `create_and`
(aig_network.hpp 456-462). -/
def cloneNode (N : Aig) (D : Aig) (m : SigMap) (n : Nat) : Option (Aig × SigMap) :=
  if n = 0 ∨ N.isCi n then some (D, m)
  else match N.nodes[n]? with
    | none => none
    | some nd =>
      let r := D.createAnd (m.img nd.c0) (m.img nd.c1)
      some (r.1, m.set n r.2)

/-- the loop -/
def cloneNodes (N : Aig) : List Nat → Aig → SigMap → Option (Aig × SigMap)
  | [], D, m => some (D, m)
  | n :: l, D, m => match cloneNode N D m n with
    | none => none
    | some (D, m) => cloneNodes N l D m

/-- `cleanup_dangling_impl`, cleanup.hpp 36-205. The constant is mapped to the constant (39-43), which is
also the default entry. -/
def cleanupImpl (N D : Aig) (leaves : List Sig) (fuel : Nat) : Option (Aig × SigMap) :=
  match mapLeaves (N.inputs.take N.numPis) leaves (fun _ => ⟨0, false⟩), Topo.topoView N fuel with
  | some m, some order => cloneNodes N order D m
  | _, _ => none

/-- `cleanup_dangling( ntk, dest, begin, end )`, cleanup.hpp 358-387: new network and the signals of the
outputs. -/
def cleanupInto (N D : Aig) (leaves : List Sig) (fuel : Nat) : Option (Aig × List Sig) :=
  match cleanupImpl N D leaves fuel with
  | none => none
  | some (D, m) => some (D, (N.outputs.take N.numPos).map m.img)

/-- `clone_inputs`, cleanup.hpp 295-325: as many new primary inputs as the source has. -/
def cloneInputs : Nat → Aig → Aig × List Sig
  | 0, D => (D, [])
  | k + 1, D =>
    let r := D.createPi
    let q := cloneInputs k r.1
    (q.1, r.2 :: q.2)

/-- `clone_outputs`, cleanup.hpp 331-355. -/
def cloneOutputs (D : Aig) : List Sig → Aig
  | [] => D
  | f :: l => cloneOutputs (D.createPo f) l

/-- `cleanup_dangling( ntk )`, cleanup.hpp 418-448. -/
def cleanupDangling (N : Aig) (fuel : Nat) : Option Aig :=
  let q := cloneInputs N.numPis Aig.empty
  match cleanupImpl N q.1 q.2 fuel with
  | none => none
  | some (D, m) => some (cloneOutputs D ((N.outputs.take N.numPos).map m.img))

end Verif.Aig
