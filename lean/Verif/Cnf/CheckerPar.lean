import Verif.Cnf.CheckerSpec

set_option autoImplicit false

/-!
# The parallel checker of mapped networks

Model of `include/operations/algorithms/detail/checker_4_mapped_graph_parallel.hpp`, called by
`debug_mapped_aig_by_origin_parallel` (debugger.hpp).  The class `my_sat_solver` (41-174) builds clauses in the same way as the
checker of `Cnf/Checker.lean`, whose definitions are used: the constructor (44-49) is `recycle`, `prepare_node_for_sat` (90-97)
`prepare`, `add_and2_to_solver` (104-134) `addAnd`, `add_compl_equal_to_solver` (136-151) `addDiffer`, `add_equal_to_solver`
(153-168) `addEqual`, `collect_choices` (697-708) `reprMap`.  The branch that is compiled (207-509, without what is commented out) is
modelled; messages and times are left out.  The iterations of the parallel loop share the map of fan-outs and the flag for the
result; the order in which they end is a parameter, and what they do to the shared map is recorded.
-/

namespace Verif.Checker.Par
open Cnf

/-- the nodes in `_fanouts[k]` after `collect_fanouts`, checker_4_mapped_graph_parallel.hpp 686-691; `k` is a key of the map exactly if there
are any. -/
def fanouts (N : Aig) (k : Nat) : List Nat := N.gates.filter fun n => decide (k ∈ RefDeref.aigKids N n)

/-- the loop of `collect_fanin_cone_nodes_leaf_to_root`, checker_4_mapped_graph_parallel.hpp 773-797: queue, visited nodes, and the keys for which
`_fanouts[·]` has been called (793). The first argument bounds the number of rounds. -/
def upLoop (N : Aig) (R : Nat → Option Nat) (root : Nat) : Nat → List Nat → List Nat → List Nat → Option (List Nat × List Nat)
  | _, [], V, A => some (V, A)
  | 0, _ :: _, _, _ => none
  | fuel + 1, n :: q, V, A =>
    if n ∈ V then upLoop N R root fuel q V A
    else if n = root then some (n :: V, A)
    else
      match R n with
      | some r => upLoop N R root fuel (q ++ r :: fanouts N r) (n :: V) (r :: A)
      | none => upLoop N R root fuel (q ++ fanouts N n) (n :: V) (n :: A)

/-- `collect_fanin_cone_nodes_leaf_to_root`, checker_4_mapped_graph_parallel.hpp 763-800: the `std::set` in ascending order, and the keys
used. A visited node that does not exist is undefined at 642. -/
def upCone (N : Aig) (R : Nat → Option Nat) (fuel root : Nat) (leaves : List Nat) : Option (List Nat × List Nat) :=
  match upLoop N R root fuel leaves [] [] with
  | none => none
  | some (V, A) =>
    if V.all (decide <| · < N.nodes.length) then some ((List.range N.nodes.length).filter (decide <| · ∈ V), A) else none

/-- `is_equal_cell`, checker_4_mapped_graph_parallel.hpp 584-670: the clauses, and the keys used. The part 603-635 is that of
`add_cell_func_to_solver`; that the leaves are prepared once more there changes nothing. -/
def cellClauses (C : Choice) (M : Mapping) (R : Nat → Option Nat) (fuel root : Nat) : Option (List (List Nat) × List Nat) :=
  match M.cellFunction root, M.cellFanins root with
  | some f, some leaves =>
    match addFunc (prepares (prepare recycle root) leaves) f leaves with
    | none => none
    | some (S1, gold) =>
      match upCone C.net R fuel root leaves with
      | none => none
      | some (ns, A) =>
        (addNodes C R ns S1).map fun S2 =>
          let S3 := prepare S2 root
          ((addDiffer S3 gold (S3.var root)).clauses, A)
  | _, _ => none

/-- the comparison at checker_4_mapped_graph_parallel.hpp 671-679: only `percy::failure`, no solution, is success -/
def verdict : Answer → Bool
  | .unsat => true
  | _ => false

/-- `is_equal_cell`, checker_4_mapped_graph_parallel.hpp 584-680. -/
def isEqualCell (C : Choice) (M : Mapping) (R : Nat → Option Nat) (solve : List (List Nat) → Answer) (fuel root : Nat) : Option Bool :=
  (cellClauses C M R fuel root).map fun x => verdict (solve x.1)

/-- `CNS`, checker_4_mapped_graph_parallel.hpp 195-201, for the listed gates -/
def roots (M : Mapping) : List Nat → Option (List Nat)
  | [] => some []
  | n :: l =>
    match M.isCellRoot n, roots M l with
    | some b, some rs => some (if b then n :: rs else rs)
    | _, _ => none

/-- the loop at checker_4_mapped_graph_parallel.hpp 212-224, for the iterations in the order in which they end: `error` -/
def loop (C : Choice) (M : Mapping) (R : Nat → Option Nat) (solve : List (List Nat) → Answer) (fuel : Nat) :
    List Nat → Bool → Option Bool
  | [], error => some error
  | n :: l, error =>
    match isEqualCell C M R solve fuel n with
    | none => none
    | some b => loop C M R solve fuel l (if b then error else true)

/-- `run`, checker_4_mapped_graph_parallel.hpp 190-226 and 509; `order` rearranges the list of cells into the order in which the iterations
end, `none`: undefined, or not finished within the bound. -/
def run (C : Choice) (M : Mapping) (solve : List (List Nat) → Answer) (fuel : Nat) (order : List Nat → List Nat) : Option Bool :=
  match roots M C.net.gates, reprMap C with
  | some rs, some R => (loop C M R solve fuel (order rs) false).map (!·)
  | _, _ => none

/-- two iterations on different threads conflict: one inserts a key into `_fanouts` (`operator[]` at
checker_4_mapped_graph_parallel.hpp 793 does so if there is none) while the other looks up a key, or both write `error` (221). That
calls of `operator[]` which find the key count as changes of the map for the C++ standard is not used. -/
def Race (C : Choice) (M : Mapping) (R : Nat → Option Nat) (solve : List (List Nat) → Answer) (fuel : Nat) (thread : Nat → Nat) (rs : List Nat) : Prop :=
  ∃ m ∈ rs, ∃ n ∈ rs, thread m ≠ thread n ∧ ∃ x y, cellClauses C M R fuel m = some x ∧ cellClauses C M R fuel n = some y ∧
    ((∃ k ∈ x.2, fanouts C.net k = []) ∧ y.2 ≠ [] ∨ verdict (solve x.1) = false ∧ verdict (solve y.1) = false)

end Verif.Checker.Par
