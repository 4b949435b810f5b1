import Verif.Klut.Basic

set_option autoImplicit false

/-!
# substitute_node of LUT networks

Model of `substitute_node`, klut_network.hpp 378-417.  Events are not modelled.
-/

namespace Verif.Klut

/-- `child = new_signal` for every child that is `old_node`, klut_network.hpp 384-390. -/
def replaceIn (old new : Nat) (l : List Nat) : List Nat := l.map fun c => if c = old then new else c

/-- the body of the loop over the nodes, klut_network.hpp 383-400; the fan-out of the new node grows with every replaced
child. -/
def substAt (old new : Nat) (nodes : List KNode) (i : Nat) : List KNode :=
  match nodes[i]? with
  | none => nodes
  | some nd => (nd.children.filter fun c => decide (c = old)).foldl (fun l _ => incFo l new)
      (nodes.modify i fun nd => { nd with children := replaceIn old new nd.children })

/-- `substitute_node`, klut_network.hpp 378-417: all nodes (381-401), the outputs (404-413), the fan-out of the old node
(416). -/
def substituteNode (N : Klut) (old new : Nat) : Klut :=
  let nodes := (List.range N.nodes.length).foldl (substAt old new) N.nodes
  let nodes := (N.outputs.filter fun c => decide (c = old)).foldl (fun l _ => incFo l new) nodes
  { N with
    nodes := nodes.modify old fun nd => { nd with fo := 0 }
    outputs := replaceIn old new N.outputs }

end Verif.Klut
