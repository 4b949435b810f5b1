import Verif.Klut.Basic
import Verif.Klut.Mapping
import Verif.Aig.Cleanup

set_option autoImplicit false

/-!
# LUT networks and mapped AIGs to AIGs

Model of `include/operations/algorithms/detail/convert_to_aig.hpp`. Both functions there have the same body for a
cell (root, leaves, function); `none` stands for undefined behaviour.
-/

namespace Verif

/-- a LUT: root, leaves and function as collected in convert_to_aig.hpp 54-62 and 126-131 -/
structure Cell where
  root : Nat
  leaves : List Nat
  fn : TT
deriving DecidableEq, Repr

namespace ToAig
open Aig (SigMap)

/-- literals of a cube, convert_to_aig.hpp 71-86, 138-153: variables `i`, `i+1`, … (`k` of them). -/
def literals (m : SigMap) (leaves : List Nat) (c : Cube) : Nat → Nat → Option (List Sig)
  | _, 0 => some []
  | i, k + 1 =>
    if c.getMask i then
      match leaves[i]?, literals m leaves c (i + 1) k with
      | some l, some r => some ((if c.getBit i then m l else (m l).not) :: r)
      | _, _ => none
    else literals m leaves c (i + 1) k

/-- the conjunctions of all cubes, convert_to_aig.hpp 67-90, 134-157 -/
def products (m : SigMap) (leaves : List Nat) (nvar : Nat) : List Cube → Aig → Option (Aig × List Sig)
  | [], D => some (D, [])
  | c :: cs, D => match literals m leaves c 0 nvar with
    | none => none
    | some ls =>
      let r := D.createNaryAnd ls
      match products m leaves nvar cs r.1 with
      | none => none
      | some q => some (q.1, r.2 :: q.2)

/-- one cell, convert_to_aig.hpp 51-93, 122-160 -/
def buildCell (m : SigMap) (c : Cell) (D : Aig) : Option (Aig × Sig) :=
  match c.fn.isop with
  | none => none
  | some cubes => match products m c.leaves c.fn.n cubes D with
    | none => none
    | some q => some (q.1.createNaryOr q.2)

/-- the loop over the gates, convert_to_aig.hpp 51-93, 122-160 -/
def buildCells : List Cell → Aig → SigMap → Option (Aig × SigMap)
  | [], D, m => some (D, m)
  | c :: cs, D, m => match buildCell m c D with
    | none => none
    | some r => buildCells cs r.1 (m.set c.root r.2)

/-- the cells of a LUT network in index order, convert_to_aig.hpp 51-62 -/
def klutCells (K : Klut) : List Nat → Option (List Cell)
  | [] => some []
  | n :: ns => match K.fanins n, K.nodeFunction n, klutCells K ns with
    | some cs, some f, some r => some (⟨n, cs, f⟩ :: r)
    | _, _, _ => none

/-- `convert_klut_to_aig`, convert_to_aig.hpp 31-102. Nodes that are not in `klut_aig_map` read as the
default signal (constant 0), as `operator[]` of `std::unordered_map` does. -/
def convertKlut (K : Klut) : Option Aig :=
  let q := Aig.cloneInputs K.numPis Aig.empty
  let m0 : SigMap := (SigMap.set (fun _ => ⟨0, false⟩) 1 ⟨0, true⟩)
  match Aig.mapLeaves (K.inputs.take K.numPis) q.2 m0, klutCells K K.gates with
  | some m, some cells => match buildCells cells q.1 m with
    | none => none
    | some (D, m) => some (Aig.cloneOutputs D ((K.outputs.take K.numPos).map m))
  | _, _ => none

/-- the cells of a mapped network, convert_to_aig.hpp 122-131 -/
def mappedCells (M : Mapping) : List Nat → Option (List Cell)
  | [] => some []
  | n :: ns => match M.isCellRoot n with
    | none => none
    | some false => mappedCells M ns
    | some true => match M.cellFanins n, M.cellFunction n, mappedCells M ns with
      | some cs, some f, some r => some (⟨n, cs, f⟩ :: r)
      | _, _, _ => none

/-- `convert_mapped_graph_to_aig`, convert_to_aig.hpp 103-179, for a mapped AIG. -/
def convertMapped (N : Aig) (M : Mapping) : Option Aig :=
  let q := Aig.cloneInputs N.numPis Aig.empty
  match Aig.mapLeaves (N.inputs.take N.numPis) q.2 (fun _ => ⟨0, false⟩), mappedCells M N.gates with
  | some m, some cells => match buildCells cells q.1 m with
    | none => none
    | some (D, m) => some (Aig.cloneOutputs D ((N.outputs.take N.numPos).map m.img))
  | _, _ => none

end ToAig
end Verif
