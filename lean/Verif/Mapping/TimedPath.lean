import Verif.Mapping.Timed
import Verif.Klut.Cover

set_option autoImplicit false

/-!
# Paths through the cells of a mapping (specification side of C70)
-/

namespace Verif.Mapper.Timed
open Cuts
open Topo (Tfi FaninsFirst)
open RefDeref (Vals)

/-- a path of `k` cells leads from node `x` to an output -/
inductive Down (N : Aig) (M : Mapping) : Nat → Nat → Prop
  | out {o : Sig} : o ∈ N.outputs → Down N M o.index 0
  | step {n x k : Nat} {cs : List Nat} : Down N M n k → Cover.Root N M n → M.cellFanins n = some cs → x ∈ cs → Down N M x (k + 1)

/-- a path of `j` cells leads from the constant or an input to node `x` -/
inductive Up (N : Aig) (M : Mapping) : Nat → Nat → Prop
  | input {x : Nat} : x = 0 ∨ x ∈ N.inputs → Up N M x 0
  | step {n x j : Nat} {cs : List Nat} : Up N M x j → Cover.Root N M n → M.cellFanins n = some cs → x ∈ cs → Up N M n (j + 1)

/-- `n` is a cell with leaf `x` -/
def usedBy (M : Mapping) (x n : Nat) : Bool :=
  M.isCellRoot n == some true && match M.cellFanins n with
    | some cs => cs.contains x
    | none => false

/-- how often `x` is used: by the outputs and by the cells -/
def fanout (N : Aig) (M : Mapping) (x : Nat) : Nat :=
  (N.outputs.map (·.index)).count x + (List.range N.nodes.length).countP (usedBy M x)

/-- `S` is the state of the mapper after the given rounds and `M`, `q` the mapping and the values that would be reported -/
structure After (p : CutPs) (N : Aig) (rs : List Round) (S : St) (M : Mapping) (q : Qor) : Prop where
  state : ∃ st order, initCuts (0 :: N.inputs) (MapSt.init ⟨0, 0, 0⟩ N.nodes.length) = some st ∧
    topologize (Choice.init N N.nodes.length) = some order ∧
    rounds p (Choice.init N N.nodes.length) order rs (start (Choice.init N N.nodes.length) st) = some S ∧
    report N order S.map = some (M, q)

end Verif.Mapper.Timed
