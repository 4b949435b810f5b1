import Verif.Aig.Basic

set_option autoImplicit false

/-!
# Recursive dereferencing and referencing

Model of `include/operations/algorithms/ref_deref.hpp` 28-57 and, through the parameters, of
`deref_node_recursive` / `ref_node_recursive` (59-71) and `derefed_size` / `refed_size` (96-112).
-/

namespace Verif.RefDeref

/-- Parameters of the templates: the fanin nodes visited by `foreach_fanin`, the terminal condition
`term_fn` and the node cost `NodeCostFn`. -/
structure Param where
  kids : Nat → List Nat
  term : Nat → Bool
  cost : Nat → Nat

/-- The 32-bit user values of the nodes (`data[0].h2`, node.hpp 78-85); they wrap around. -/
abbrev Vals := Nat → BitVec 32

/-- `incr_value` / `decr_value`, aig_network.hpp 1229-1237: add `d` to the value of node `n`. -/
def Vals.add (v : Vals) (n : Nat) (d : BitVec 32) : Vals := fun k => if k = n then v k + d else v k

/-- the `foreach_fanin` loop of `deref_node_recursive_cond`, ref_deref.hpp 35-40; `decr_value` returns the
new value. `rec` is the recursive call, `none` stands for non-termination.
Simplification: the accumulated cost is a natural number, not `uint32_t`. -/
def derefKids (rec : Nat → Vals → Option (Vals × Nat)) : List Nat → Vals → Nat → Option (Vals × Nat)
  | [], v, value => some (v, value)
  | m :: l, v, value =>
    let v := v.add m (-1)
    if v m = 0 then
      match rec m v with
      | none => none
      | some (v, c) => derefKids rec l v (value + c)
    else derefKids rec l v value

/-- `deref_node_recursive_cond`, ref_deref.hpp 28-42. The first argument bounds the recursion depth. -/
def deref (p : Param) : Nat → Nat → Vals → Option (Vals × Nat)
  | 0, _, _ => none
  | f + 1, n, v => if p.term n then some (v, 0) else derefKids (deref p f) (p.kids n) v (p.cost n)

/-- the loop of `ref_node_recursive_cond`, ref_deref.hpp 51-56; `incr_value` returns the old value. -/
def refKids (rec : Nat → Vals → Option (Vals × Nat)) : List Nat → Vals → Nat → Option (Vals × Nat)
  | [], v, value => some (v, value)
  | m :: l, v, value =>
    let old := v m
    let v := v.add m 1
    if old = 0 then
      match rec m v with
      | none => none
      | some (v, c) => refKids rec l v (value + c)
    else refKids rec l v value

/-- `ref_node_recursive_cond`, ref_deref.hpp 44-57. -/
def ref (p : Param) : Nat → Nat → Vals → Option (Vals × Nat)
  | 0, _, _ => none
  | f + 1, n, v => if p.term n then some (v, 0) else refKids (ref p f) (p.kids n) v (p.cost n)

/-- fanin nodes visited by `aig_network::foreach_fanin`, aig_network.hpp 1091-1125. -/
def aigKids (N : Aig) (n : Nat) : List Nat :=
  if n = 0 ∨ N.isCi n then [] else
    match N.nodes[n]? with
    | some nd => [nd.c0.index, nd.c1.index]
    | none => []

/-- the instance used by `deref_node_recursive` / `ref_node_recursive`, ref_deref.hpp 59-71, with
`unit_cost` (cost_functions.hpp 30-37) on an AIG. -/
def aigParam (N : Aig) : Param := ⟨aigKids N, fun n => n == 0 || N.isPi n, fun _ => 1⟩

/-- `derefed_size`, ref_deref.hpp 96-103: final values and result. -/
def derefedSize (p : Param) (fuel n : Nat) (v : Vals) : Option (Vals × Nat) :=
  match deref p fuel n v with
  | none => none
  | some (v, s1) =>
    match ref p fuel n v with
    | none => none
    | some (v, _) => some (v, s1)

/-- `refed_size`, ref_deref.hpp 105-112. -/
def refedSize (p : Param) (fuel n : Nat) (v : Vals) : Option (Vals × Nat) :=
  match ref p fuel n v with
  | none => none
  | some (v, s1) =>
    match deref p fuel n v with
    | none => none
    | some (v, _) => some (v, s1)

end Verif.RefDeref
