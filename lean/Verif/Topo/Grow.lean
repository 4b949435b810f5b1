import Verif.Topo.Depth
import Verif.Cli.Stats

set_option autoImplicit false

/-!
# A depth view through which the network grows

Model of `include/database/views/depth_view.hpp` 88-282 on an AIG, with the parts of the node map (`include/utils/node_map.hpp` 74-179) that it uses. The
traversal of `update_levels` itself is in `Topo/Depth.lean`.
-/

namespace Verif.Topo.Grow

open Cli.Stats (withMarks)

/-- The members of `depth_view`, depth_view.hpp 277-281, with unit costs. The maps are vectors that have the size the network had when they were last resized.
Simplified: levels are natural numbers, the entries of the second map are truth values. -/
structure View where
  /-- the network itself, a base class -/
  net : Aig
  /-- `_ps.count_complements` -/
  cc : Bool
  /-- `_levels` -/
  lev : List Nat
  /-- `_crit_path` -/
  crit : List Bool
  /-- `_depth` -/
  depth : Nat

/-- The default constructor, depth_view.hpp 96-113: an empty network has one node, the constant (node_map.hpp 85-93). -/
def fresh (cc : Bool) : View := ⟨Aig.empty, cc, [0], [false], 0⟩

/-- `update_levels`, depth_view.hpp 170-177, with `reset` of the node map, node_map.hpp 155-159. -/
def View.update (V : View) (fuel : Nat) : Option View :=
  match depthView V.net V.cc fuel with
  | none => none
  | some (s, d) => some
    { V with
      net := withMarks V.net s.vis (V.net.travId + 1)
      lev := (List.range V.net.nodes.length).map s.lev
      crit := List.replicate V.net.nodes.length false
      depth := d }

/-- The constructor from a network, depth_view.hpp 120-139. -/
def ofNet (N : Aig) (cc : Bool) (fuel : Nat) : Option View :=
  View.update ⟨N, cc, List.replicate N.nodes.length 0, List.replicate N.nodes.length false, 0⟩ fuel

/-- `level`, depth_view.hpp 150-153: `none` is a read outside the vector (node_map.hpp 117-121, the assertion is off). -/
def View.level (V : View) (n : Nat) : Option Nat := V.lev[n]?

/-- `is_on_critical_path`, depth_view.hpp 155-158 -/
def View.critical (V : View) (n : Nat) : Option Bool := V.crit[n]?

/-- `resize` of the node map, node_map.hpp 168-174 -/
def grown (lev : List Nat) (size : Nat) : List Nat := lev ++ List.replicate (size - lev.length) 0

/-- `resize_levels`, depth_view.hpp 179-182 -/
def View.resize (V : View) : View := { V with lev := grown V.lev V.net.nodes.length }

/-- `create_pi` of the base class, aig_network.hpp 189-201: no event is sent. -/
def View.createPi (V : View) : View × Sig := ({ V with net := V.net.createPi.1 }, V.net.createPi.2)

/-- `create_ro` of the base class, aig_network.hpp 215-224: no event is sent. -/
def View.createRo (V : View) : View × Sig := ({ V with net := V.net.createRo.1 }, V.net.createRo.2)

/-- `create_po`, depth_view.hpp 184-189 -/
def View.createPo (V : View) (f : Sig) : Option View :=
  match V.lev[f.index]? with
  | none => none
  | some l => some { V with net := V.net.createPo f, depth := max V.depth l }

/-- the loop of `on_add`, depth_view.hpp 264-272 -/
def addKids (cc : Bool) (lev : List Nat) : List Sig → Nat → Option Nat
  | [], level => some level
  | f :: l, level => match lev[f.index]? with
    | none => none
    | some c => addKids cc lev l (max level (if cc && f.compl then c + 1 else c))

/-- `on_add`, depth_view.hpp 260-275 -/
def View.onAdd (V : View) (n : Nat) : Option View :=
  let lev := grown V.lev V.net.nodes.length
  match addKids V.cc lev (aigFanins V.net n) 0 with
  | none => none
  | some level => if n < lev.length then some { V with lev := lev.set n (level + 1) } else none

/-- `create_and` of the base class, aig_network.hpp 313-367: the event is sent for new nodes only (361-364). -/
def View.createAnd (V : View) (a b : Sig) : Option (View × Sig) :=
  let r := V.net.createAnd a b
  if r.1.nodes.length = V.net.nodes.length then some ({ V with net := r.1 }, r.2)
  else (View.onAdd { V with net := r.1 } r.2.index).map fun V => (V, r.2)

end Verif.Topo.Grow
