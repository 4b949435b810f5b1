import Verif.Cnf.Basic
import Verif.Klut.Basic

set_option autoImplicit false

/-!
# CNF of LUT networks

Model of `kitty::cnf_characteristic` (libs/kitty/include/kitty/cnf.hpp 53-77), of the general case `on_function` of
`include/operations/algorithms/cnf.hpp` 192-212 and of `node_literals` and `generate_cnf_impl::run` for `klut_network`
with `uint32_t` literals.  `klut_network` has none of the members `is_and` … `is_nary_xor`, so lines 335-413 of cnf.hpp
are not compiled and every node takes the general case.
-/

namespace Verif.Cnf

/-- the two assignments of the loops 59-63 and 69-74 of kitty/cnf.hpp: the cube is negated literal by literal and gets
the literal of the output, at position `n`. -/
def charCube (n : Nat) (pol : Bool) (c : Cube) : Cube := Cube.addLiteral ⟨~~~c.bits &&& c.mask, c.mask⟩ n pol

/-- `cnf_characteristic`, kitty/cnf.hpp 53-77; `none` if `isop_rec` reaches its undefined case.  The second call of
`isop_rec` appends to the same vector; it only changes cubes it has added itself (isop.hpp 95-102). -/
def cnfCharacteristic (t : TT) : Option (List Cube) :=
  match t.isop, t.not.isop with
  | some a, some b => some (a.map (charCube t.n true) ++ b.map (charCube t.n false))
  | _, _ => none

/-- the literals of a clause, cnf.hpp 203-209, for the literals from position `i` on. -/
def cubeClause (c : Cube) : Nat → List Nat → List Nat
  | _, [] => []
  | i, l :: ls =>
    if c.getMask i then litNotCond l (!c.getBit i) :: cubeClause c (i + 1) ls else cubeClause c (i + 1) ls

/-- `on_function`, cnf.hpp 193-212. -/
def onFunction (f : Nat) (childLits : List Nat) (t : TT) : Option (List (List Nat)) :=
  (cnfCharacteristic t).map fun cs => cs.map fun c => cubeClause c 0 (childLits ++ [f])

/-- `node_literals` for LUT networks, cnf.hpp 253-283: the second constant node gets the literal 1, nodes that are never
assigned keep the default literal 0 (node_map.hpp 84-92). -/
def nodeLiteralsK (N : Klut) : Nat → Nat :=
  numberNodes N.gates (N.numPis + 1)
    (numberNodes (N.inputs.take N.numPis) 1 fun n => if n = Klut.getConstant true then makeLit 0 true else 0)

/-- clauses of a LUT, cnf.hpp 328-333 and 416. -/
def lutClauses (N : Klut) (m : Nat → Nat) (n : Nat) : Option (List (List Nat)) :=
  match N.fanins n, N.nodeFunction n with
  | some cs, some t => onFunction (m n) (cs.map m) t
  | _, _ => none

/-- the `foreach_gate` loop, cnf.hpp 328-418 -/
def lutsClauses (N : Klut) (m : Nat → Nat) : List Nat → Option (List (List Nat))
  | [] => some []
  | n :: l => match lutClauses N m n, lutsClauses N m l with
    | some c, some cs => some (c ++ cs)
    | _, _ => none

/-- `generate_cnf_impl::run`, cnf.hpp 322-426: clauses in the order of the callback, and output literals
(`is_complemented` of a LUT network is always false, klut_network.hpp 496-500). -/
def generateCnfK (N : Klut) (m : Nat → Nat) : Option (List (List Nat) × List Nat) :=
  match lutsClauses N m N.gates with
  | none => none
  | some cs => some ([litNot (m (Klut.getConstant false))] :: cs, (N.outputs.take N.numPos).map m)

end Verif.Cnf
