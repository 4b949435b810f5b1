import Verif.RefDeref.Basic

set_option autoImplicit false

/-!
# Topological view

Model of `include/database/views/topo_view.hpp` 90-263.
-/

namespace Verif.Topo

/-- The traversal state: visited marks (`data[1].h1` of the nodes) and `topo_order`.
Simplification: marks and traversal ids are natural numbers instead of 32-bit words. -/
structure St where
  vis : Nat → Nat
  order : List Nat

/-- `set_visited`, aig_network.hpp 1251-1254. -/
def St.mark (s : St) (n t : Nat) : St := { s with vis := fun k => if k = n then t else s.vis k }

/-- `topo_order.push_back`. -/
def St.push (s : St) (n : Nat) : St := { s with order := s.order ++ [n] }

/-- the `foreach_fanin` loop of `create_topo_rec`, topo_view.hpp 254-256. -/
def topoKids (rec : Nat → St → Option St) : List Nat → St → Option St
  | [], s => some s
  | m :: l, s => match rec m s with
    | none => none
    | some s => topoKids rec l s

/-- `create_topo_rec`, topo_view.hpp 241-263; the first argument bounds the recursion depth (`none` = a
recursion that does not end). -/
def topoRec (kids : Nat → List Nat) (trav : Nat) : Nat → Nat → St → Option St
  | 0, _, _ => none
  | f + 1, n, s =>
    if s.vis n = trav then some s
    else
      match topoKids (topoRec kids trav f) (kids n) (s.mark n (trav - 1)) with
      | none => none
      | some s => some ((s.mark n trav).push n)

/-- the `foreach_ci` loop, topo_view.hpp 214-220. -/
def topoCis (trav : Nat) : List Nat → St → St
  | [], s => s
  | n :: l, s => topoCis trav l (if s.vis n = trav then s else (s.push n).mark n trav)

/-- the `foreach_co` loop, topo_view.hpp 230-236 (also lines 218-223 for a single start signal). -/
def topoCos (kids : Nat → List Nat) (trav fuel : Nat) : List Nat → St → Option St
  | [], s => some s
  | n :: l, s =>
    if s.vis n = trav then topoCos kids trav fuel l s
    else match topoRec kids trav fuel n s with
      | none => none
      | some s => topoCos kids trav fuel l s

/-- `update_topo`, topo_view.hpp 197-238, for one constant node 0, inputs `cis` and root nodes `roots`
(the nodes of all outputs, or of the start signal). `vis`/`travId` are the marks and the traversal id
before the call; the id is incremented twice. -/
def updateTopo (kids : Nat → List Nat) (cis roots : List Nat) (vis : Nat → Nat) (travId fuel : Nat) :
    Option St :=
  let trav := travId + 2
  let s : St := ⟨vis, []⟩
  let s := (s.push 0).mark 0 trav
  topoCos kids trav fuel roots (topoCis trav cis s)

/-- visited marks of an AIG, `visited`, aig_network.hpp 1246-1249. -/
def visOf (N : Aig) : Nat → Nat := fun n =>
  match N.nodes[n]? with
  | some nd => nd.visited
  | none => 0

/-- `topo_view{ ntk }`, topo_view.hpp 90-104, on an AIG: the order of `foreach_node`. -/
def topoView (N : Aig) (fuel : Nat) : Option (List Nat) :=
  (updateTopo (RefDeref.aigKids N) N.inputs (N.outputs.map (·.index)) (visOf N) N.travId fuel).map (·.order)

/-- `topo_view{ ntk, start }`, topo_view.hpp 111-127. -/
def topoViewFrom (N : Aig) (start : Sig) (fuel : Nat) : Option (List Nat) :=
  (updateTopo (RefDeref.aigKids N) N.inputs [start.index] (visOf N) N.travId fuel).map (·.order)

/-- `topo_view::foreach_gate`, topo_view.hpp 164-171: everything after the first `1 + num_pis` nodes. -/
def topoGates (N : Aig) (order : List Nat) : List Nat := order.drop (1 + N.numPis)

end Verif.Topo
