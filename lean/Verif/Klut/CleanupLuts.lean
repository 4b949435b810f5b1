import Verif.Klut.Basic
import Verif.Topo.Basic

set_option autoImplicit false

/-!
# cleanup_luts

Model of `include/operations/algorithms/cleanup.hpp` 207-294 (`cleanup_luts_impl`), 296-329 (`clone_inputs`), 331-356
(`clone_outputs`) and 481-512 (`cleanup_luts`) for `klut_network` and the default flags.  Signals of a LUT network are
node indices and `is_complemented` is always false (klut_network.hpp 496-500); a LUT network has no names.
-/

namespace Verif.Klut

/-- `node_map<signal, Ntk> old_to_new`; entries that were never assigned are 0 (node_map.hpp 84-93). -/
abbrev NodeMap := Nat → Nat

/-- `old_to_new[n] = s`, node_map.hpp 109-114. -/
def NodeMap.set (m : NodeMap) (n s : Nat) : NodeMap := fun k => if k = n then s else m k

/-- the fanins that `topo_view` follows, topo_view.hpp 254-256 with `foreach_fanin`, klut_network.hpp 720-728; an index
outside the vector has none here (undefined in the code, not reached from the outputs of a constructed network). -/
def topoFanins (N : Klut) (n : Nat) : List Nat := match N.fanins n with
  | some l => l
  | none => []

/-- `topo_view topo{ ntk }`, cleanup.hpp 226 and topo_view.hpp 90-100, 197-238; the nodes of both constants come first.
`vis` and `travId` are the marks and the traversal id that the network holds before the call. -/
def topoOrder (N : Klut) (vis : Nat → Nat) (travId fuel : Nat) : Option (List Nat) :=
  (Topo.updateTopo N.topoFanins (getConstant true :: N.inputs) N.outputs vis travId fuel).map (·.order)

/-- mapping of the primary inputs to the leaves, cleanup.hpp 218-223; `none` when the iterator runs past the end. -/
def mapLeaves : List Nat → List Nat → NodeMap → Option NodeMap
  | [], _, m => some m
  | _ :: _, [], _ => none
  | n :: ns, s :: ss, m => mapLeaves ns ss (m.set n s)

/-- `constant_value`, klut_network.hpp 246-249. -/
def constantValue (n : Nat) : Bool := n == 1

/-- constant propagation: the loop over the fanins (the first argument counts them), cleanup.hpp 234-247. -/
def propagate (m : NodeMap) : Nat → List Nat → TT → TT
  | _, [], t => t
  | i, f :: fs, t => propagate m (i + 1) fs
    (if isConstant (m f) then (if constantValue (m f) != false then t.cofactor i true else t.cofactor i false) else t)

/-- the children of the new LUT: the loop over the fanins with the iterator `var` into the support, cleanup.hpp
251-266. -/
def pickChildren (m : NodeMap) : List Nat → Nat → List Nat → List Nat
  | [], _, _ => []
  | _ :: _, _, [] => []
  | s :: ss, i, f :: fs => if s = i then m f :: pickChildren m ss (i + 1) fs else pickChildren m (s :: ss) (i + 1) fs

/-- body of the loop over the nodes, cleanup.hpp 228-279; `none`: a node or function that does not exist, or
`children.front()` of an empty vector. The block of a table of one variable has two bits, so the comparison with `0b10`
is one of tables. -/
def cleanLut (N D : Klut) (m : NodeMap) (n : Nat) : Option (Klut × NodeMap) :=
  if isConstant n = true ∨ N.isCi n = true then some (D, m)
  else match N.nodeFunction n, N.fanins n with
    | some func, some fs =>
      let r := (propagate m 0 fs func).minBase
      let newFunc := r.1.shrinkTo r.2.length
      let children := pickChildren m r.2 0 fs
      if newFunc.n = 0 then some (D, m.set n (getConstant (!newFunc.isConst0)))
      else if newFunc.n = 1 then
        match children with
        | [] => none
        | c :: _ =>
          if newFunc = ofWord 1 0b10 then some (D, m.set n c)
          else
            let q := D.createNot c
            some (q.1, m.set n q.2)
      else
        let q := D.createNode children newFunc
        some (q.1, m.set n q.2)
    | _, _ => none

/-- the loop over the nodes, cleanup.hpp 227-293. -/
def cleanLoop (N : Klut) : List Nat → Klut → NodeMap → Option (Klut × NodeMap)
  | [], D, m => some (D, m)
  | n :: l, D, m => match cleanLut N D m n with
    | none => none
    | some (D, m) => cleanLoop N l D m

/-- `cleanup_luts_impl`, cleanup.hpp 207-294; the constants are mapped at 211-215. -/
def cleanupLutsImpl (N D : Klut) (leaves : List Nat) (vis : Nat → Nat) (travId fuel : Nat) : Option (Klut × NodeMap) :=
  let m0 : NodeMap := NodeMap.set (NodeMap.set (fun _ => 0) (getConstant false) (getConstant false))
    (getConstant true) (getConstant true)
  match mapLeaves (N.inputs.take N.numPis) leaves m0, N.topoOrder vis travId fuel with
  | some m, some order => cleanLoop N order D m
  | _, _ => none

/-- `clone_inputs`, cleanup.hpp 296-329: as many new primary inputs as the source has. -/
def cloneInputs : Nat → Klut → Klut × List Nat
  | 0, D => (D, [])
  | k + 1, D =>
    let r := D.createPi
    let q := cloneInputs k r.1
    (q.1, r.2 :: q.2)

/-- `clone_outputs`, cleanup.hpp 331-356. -/
def cloneOutputs (D : Klut) : List Nat → Klut
  | [] => D
  | f :: l => cloneOutputs (D.createPo f) l

/-- `cleanup_luts( ntk )`, cleanup.hpp 481-512. -/
def cleanupLuts (N : Klut) (vis : Nat → Nat) (travId fuel : Nat) : Option Klut :=
  let q := cloneInputs N.numPis Klut.empty
  match cleanupLutsImpl N q.1 q.2 vis travId fuel with
  | none => none
  | some (D, m) => some (cloneOutputs D ((N.outputs.take N.numPos).map m))

end Verif.Klut
