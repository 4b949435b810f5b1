import Verif.Cnf.Klut
import Verif.Klut.Mapping
import Verif.Choice.Basic
import Verif.RefDeref.Basic

set_option autoImplicit false

/-!
# The checker of mapped networks

Model of `include/operations/algorithms/detail/checker_4_mapped_graph.hpp`, called by `debug_mapped_aig_by_origin`
(debugger.hpp 38-43), for a network with choices and a mapping view on it.  Simplifications: messages, dot files and
`check_signal_incrementally` (640-670), which only looks for the node to be printed, are left out; variables are natural
numbers; the solver is a parameter that answers for the list of all clauses, so the case of a clause that `add_clause`
refuses because it contradicts a unit clause (the return value is only asserted, 490-517) is not distinguished.
-/

namespace Verif.Checker
open Cnf

/-- `_current_sat_var`, `_sat_vars_map` and the clauses of `_solver`, checker_4_mapped_graph.hpp 793-798. -/
structure State where
  next : Nat
  var : Nat → Nat
  clauses : List (List Nat)

/-- `recycle_sat`, checker_4_mapped_graph.hpp 184-191. -/
def recycle : State := { next := 2, var := fun n => if n = 0 then 1 else 0, clauses := [] }

/-- `prepare_node_for_sat`, checker_4_mapped_graph.hpp 319-326, with `set_sat_vars_of_node`, 306-311;
`_constant_max_sat_var` is 1 (53). -/
def prepare (S : State) (n : Nat) : State :=
  if S.var n ≤ 1 then { S with var := fun k => if k = n then S.next else S.var k, next := S.next + 1 } else S

/-- the loops over leaves or inputs, e.g. checker_4_mapped_graph.hpp 342-345, 582-585 -/
def prepares (S : State) (l : List Nat) : State := l.foldl prepare S

/-- `add_cell_func_to_solver`, checker_4_mapped_graph.hpp 336-382; returns the new variable. A table with more variables
than there are leaves reads outside the vector: `none` (also if the table does not depend on these variables). -/
def addFunc (S : State) (f : TT) (leaves : List Nat) : Option (State × Nat) :=
  if leaves.length < f.n then none
  else
    match cnfCharacteristic f with
    | none => none
    | some cs =>
      let S1 := prepares { S with next := S.next + 1 } leaves
      let lits := (leaves.take f.n).map (fun l => makeLit (S1.var l)) ++ [makeLit S.next]
      some ({ S1 with clauses := S1.clauses ++ cs.map fun c => cubeClause c 0 lits }, S.next)

/-- `add_and2_to_solver`, checker_4_mapped_graph.hpp 445-475. -/
def addAnd (S : State) (n : Nat) (a b : Sig) : State :=
  let S1 := prepare (prepare (prepare S n) a.index) b.index
  { S1 with clauses := S1.clauses ++
      [[makeLit (S1.var a.index) a.compl, makeLit (S1.var n) true],
       [makeLit (S1.var b.index) b.compl, makeLit (S1.var n) true],
       [makeLit (S1.var a.index) (!a.compl), makeLit (S1.var b.index) (!b.compl), makeLit (S1.var n)]] }

/-- `add_compl_equal_to_solver`, checker_4_mapped_graph.hpp 483-498. -/
def addDiffer (S : State) (x y : Nat) : State :=
  { S with next := S.next + 1, clauses := S.clauses ++ [[makeLit x, makeLit y], [makeLit x true, makeLit y true]] }

/-- `add_equal_to_solver`, checker_4_mapped_graph.hpp 506-520. -/
def addEqual (S : State) (x y : Nat) : State :=
  { S with next := S.next + 1, clauses := S.clauses ++ [[makeLit x true, makeLit y], [makeLit x, makeLit y true]] }

/-- the other nodes of the class list if the node `is_repr` (aig_with_choice.hpp 67-70), otherwise none: the loops of
checker_4_mapped_graph.hpp 213-219 and 249-257. `none`: out of range, or the list does not end. -/
def members (C : Choice) (n : Nat) : Option (List Nat) :=
  match C.equivs[n]? with
  | none => none
  | some e => if C.net.fanoutSize n = 0 then some [] else C.chain (C.equivs.length + 1) e

/-- `collect_choices`, checker_4_mapped_graph.hpp 210-221: `_choice_repr_map`, later entries replace earlier ones. -/
def collectChoices (C : Choice) : List Nat → (Nat → Option Nat) → Option (Nat → Option Nat)
  | [], m => some m
  | n :: l, m =>
    match members C n with
    | none => none
    | some ms => collectChoices C l fun k => if k ∈ ms then some n else m k

/-- `_choice_repr_map` after `init`, checker_4_mapped_graph.hpp 166-169. -/
def reprMap (C : Choice) : Option (Nat → Option Nat) := collectChoices C C.net.gates fun _ => none

/-- the loop of `collect_limited_fanin_cone_nodes`, checker_4_mapped_graph.hpp 236-272: queue and visited nodes. The first
argument bounds the number of rounds. -/
def coneLoop (C : Choice) (lim : Nat) : Nat → List Nat → List Nat → Option (List Nat)
  | _, [], V => some V
  | 0, _ :: _, _ => none
  | fuel + 1, n :: q, V =>
    if n ∈ V then coneLoop C lim fuel q V
    else if n < C.net.nodes.length then
      match members C n with
      | none => none
      | some ms =>
        let kids := RefDeref.aigKids C.net n
        coneLoop C lim fuel (q ++ ms ++ if kids.any (decide <| · < lim) then [] else kids) (n :: V)
    else none

/-- `collect_limited_fanin_cone_nodes`, checker_4_mapped_graph.hpp 230-275: the `std::set` in ascending order. -/
def cone (C : Choice) (fuel root lim : Nat) : Option (List Nat) :=
  (coneLoop C lim fuel [root] []).map fun V => (List.range C.net.nodes.length).filter (decide <| · ∈ V)

/-- the children collected at checker_4_mapped_graph.hpp 408-410; `foreach_fanin` does nothing for a combinational input
(aig_network.hpp 1092-1096), so the children of a register output stay default signals (node 0, not complemented). -/
def children (N : Aig) (n : Nat) : Option (Sig × Sig) :=
  match N.nodes[n]? with
  | none => none
  | some nd => if N.isCi n then some (⟨0, false⟩, ⟨0, false⟩) else some (nd.c0, nd.c1)

/-- the loop of `add_cell_cone_to_solver`, checker_4_mapped_graph.hpp 401-430. The assignment to the loop variable at 428 has
no effect. -/
def addNodes (C : Choice) (R : Nat → Option Nat) : List Nat → State → Option State
  | [], S => some S
  | n :: l, S =>
    if C.net.isPi n || n == 0 then addNodes C R l S
    else
      match children C.net n with
      | none => none
      | some (a, b) =>
        let S1 := addAnd S n a b
        match R n with
        | none => addNodes C R l S1
        | some r =>
          let S2 := prepare (prepare S1 n) r
          addNodes C R l
            (if Bool.xor (C.net.phaseOf n) (C.net.phaseOf r) then addDiffer S2 (S2.var n) (S2.var r)
             else addEqual S2 (S2.var n) (S2.var r))

/-- `add_cell_cone_to_solver`, checker_4_mapped_graph.hpp 391-435. Without leaves `*min_element` is undefined: `none`. -/
def addCone (C : Choice) (R : Nat → Option Nat) (fuel : Nat) (S : State) (root : Nat) (leaves : List Nat) :
    Option (State × Nat) :=
  match leaves.min? with
  | none => none
  | some lim =>
    match cone C fuel root lim with
    | none => none
    | some ns => (addNodes C R ns (prepares (prepare S root) leaves)).map fun S1 => (S1, S1.var root)

/-- results 1, -1 and 0 of `is_equal_cell` and `is_equal_root` -/
inductive Verdict
  | equal
  | different
  | timeout
deriving DecidableEq, Repr

/-- the case distinction at checker_4_mapped_graph.hpp 552-569 and 621-632 -/
def verdict : Answer → Verdict
  | .unsat => .equal
  | .sat _ => .different
  | .timeout => .timeout

/-- `is_equal_cell`, checker_4_mapped_graph.hpp 530-570, up to the call of the solver. -/
def cellClauses (C : Choice) (M : Mapping) (R : Nat → Option Nat) (fuel root : Nat) : Option (List (List Nat)) :=
  match M.cellFunction root, M.cellFanins root with
  | some f, some leaves =>
    match addFunc (prepares recycle leaves) f leaves with
    | none => none
    | some (S1, gold) => (addCone C R fuel S1 root leaves).map fun (S2, gate) => (addDiffer S2 gold gate).clauses
  | _, _ => none

/-- `is_equal_cell`, checker_4_mapped_graph.hpp 530-570. -/
def isEqualCell (C : Choice) (M : Mapping) (R : Nat → Option Nat) (solve : List (List Nat) → Answer) (fuel root : Nat) :
    Option Verdict :=
  (cellClauses C M R fuel root).map fun cs => verdict (solve cs)

/-- `check_each_luts`, checker_4_mapped_graph.hpp 93-126, for the listed gates: stops at the first difference; a timeout
is only reported. -/
def checkLuts (C : Choice) (M : Mapping) (R : Nat → Option Nat) (solve : List (List Nat) → Answer) (fuel : Nat) :
    List Nat → Option Bool
  | [] => some true
  | n :: l =>
    match M.isCellRoot n with
    | none => none
    | some false => checkLuts C M R solve fuel l
    | some true =>
      match isEqualCell C M R solve fuel n with
      | none => none
      | some .different => some false
      | some _ => checkLuts C M R solve fuel l

/-- the loop of `is_equal_root`, checker_4_mapped_graph.hpp 589-618. The first argument bounds the number of rounds. -/
def rootLoop (C : Choice) (M : Mapping) (R : Nat → Option Nat) (coneFuel : Nat) : Nat → List Nat → State → Option State
  | _, [], S => some S
  | 0, _ :: _, _ => none
  | fuel + 1, n :: q, S =>
    if C.net.isPi n || n == 0 then rootLoop C M R coneFuel fuel q S
    else
      match M.cellFunction n, M.cellFanins n with
      | some f, some leaves =>
        match addCone C R coneFuel (prepares S leaves) n leaves with
        | none => none
        | some (S1, gate) =>
          match addFunc S1 f leaves with
          | none => none
          | some (S2, gold) => rootLoop C M R coneFuel fuel (q ++ leaves) (addDiffer S2 gate gold)
      | _, _ => none

/-- `is_equal_root`, checker_4_mapped_graph.hpp 578-633. -/
def isEqualRoot (C : Choice) (M : Mapping) (R : Nat → Option Nat) (solve : List (List Nat) → Answer) (fuel root : Nat) :
    Option Verdict :=
  (rootLoop C M R fuel fuel [root] (prepares recycle (C.net.inputs.take C.net.numPis))).map
    fun S => verdict (solve S.clauses)

/-- `check_each_po`, checker_4_mapped_graph.hpp 134-163, for the listed outputs. -/
def checkPos (C : Choice) (M : Mapping) (R : Nat → Option Nat) (solve : List (List Nat) → Answer) (fuel : Nat) :
    List Sig → Option Bool
  | [] => some true
  | o :: l =>
    if C.net.isPi o.index || o.index == 0 then checkPos C M R solve fuel l
    else
      match isEqualRoot C M R solve fuel o.index with
      | none => none
      | some .different => some false
      | some _ => checkPos C M R solve fuel l

/-- `run`, checker_4_mapped_graph.hpp 64-85; `none`: undefined, or not finished within the bound. -/
def run (C : Choice) (M : Mapping) (solve : List (List Nat) → Answer) (fuel : Nat) : Option Bool :=
  match reprMap C with
  | none => none
  | some R =>
    match checkLuts C M R solve fuel C.net.gates, checkPos C M R solve fuel (C.net.outputs.take C.net.numPos) with
    | some a, some b => some (a && b)
    | _, _ => none

end Verif.Checker
