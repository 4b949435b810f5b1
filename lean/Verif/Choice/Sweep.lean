import Verif.Choice.Derive
import Verif.Choice.Classes
import Verif.Choice.Prover
import Mathlib.Data.List.Sort

set_option autoImplicit false

/-!
# SAT sweeping and `compute_choice`

Model of `choice_computation`, `include/operations/algorithms/choice_computation.hpp` 797-1065.
-/

namespace Verif.Choice
open Cnf (Answer)

/-- What the run depends on besides the network: parameters (choice_computation.hpp 36-40), random numbers, answers of the SAT solver. -/
structure Env where
  nwords : Nat
  sat : SatParams
  /-- the `i`-th value of the random number generator -/
  rand : Nat → Nat
  /-- the solver: number of the call, clauses, assumptions -/
  solve : Nat → List (List Nat) → List Nat → Answer

/-- The state of `choice_computation` during `man_sweep`, choice_computation.hpp 1222-1234: `_fraig`, `_old2new`, `_repr_proved`, `_simulator`,
`_prover`, the `mark_b` bits of the nodes of `_aig`; the numbers of random values and of solver calls used so far. -/
structure Sweep where
  net : Aig
  map : SMap
  repr : List Nat
  cls : Classes
  prover : Prover
  marks : List Bool
  rnd : Nat
  asks : Nat

/-- `_fanouts`, choice_computation.hpp 820-830. -/
def fanouts (N : Aig) : List (List Nat) :=
  N.gates.foldl (fun f n =>
    match N.kids n with
    | none => f
    | some (a, b) =>
      let f := f.modify a.index fun l => if n ∈ l then l else l ++ [n]
      f.modify b.index fun l => if n ∈ l then l else l ++ [n]) (List.replicate N.nodes.length [])

/-- State of `collect_tfo_cands_rec`: the visited nodes, the nodes with `mark_a`, `_sim_classes`. Simplified: `mark_a` is taken to be unset outside
`collect_tfo_cands` (lines 982-985 unset it again), and a new traversal id means that no node is visited. -/
structure Collect where
  visited : List Nat
  markA : List Nat
  roots : List Nat

/-- `collect_tfo_cands_rec`, choice_computation.hpp 992-1012, for the nodes of a list one after the other (lines 999-1002). The first
argument bounds the recursion depth. -/
def collectRec (fan : List (List Nat)) (K : Classes) : Nat → Nat → Collect → Option Collect
  | 0, _, _ => none
  | fuel + 1, n, st =>
    if n ∈ st.visited then some st
    else
      match fan[n]?, K.reprs[n]? with
      | some fo, some r =>
        (fo.foldl (fun o f => o.bind (collectRec fan K fuel f)) (some { st with visited := n :: st.visited })).map fun st =>
          if r = n then st
          else if r ∈ st.markA then st
          else { st with markA := r :: st.markA, roots := st.roots ++ [r] }
      | _, _ => none

/-- `collect_tfo_cands`, choice_computation.hpp 973-986: the sorted list `_sim_classes`. -/
def collectCands (N : Aig) (K : Classes) (r n : Nat) : Option (List Nat) :=
  ((collectRec (fanouts N) K (N.nodes.length + 1) n { visited := [0], markA := [], roots := [] }).bind
    (collectRec (fanouts N) K (N.nodes.length + 1) r)).map fun st => st.roots.insertionSort (· ≤ ·)

/-- The visited nodes and the `mark_b` bits. -/
abbrev Marks := List Nat × List Bool

/-- `(mark_b(child0) ^ complement) & (mark_b(child1) ^ complement)` stored at `n`, choice_computation.hpp 1035-1036 and 1063-1064. -/
def markGate (n : Nat) (a b : Sig) (st : Marks) : Option Marks :=
  match st.2[a.index]?, st.2[b.index]? with
  | some x, some y => some (st.1, st.2.set n ((Bool.xor x a.compl) && (Bool.xor y b.compl)))
  | _, _ => none

/-- `resimulate_solved_rec`, choice_computation.hpp 1018-1042; `val` is `_prover.get_var_value`. -/
def solvedRec (N : Aig) (map : SMap) (val : Nat → Option Bool) : Nat → Nat → Marks → Option Marks
  | 0, _, _ => none
  | fuel + 1, n, st =>
    if n ∈ st.1 then some st
    else if n ≥ N.nodes.length then none
    else if N.isCi n then
      match map[n]? with
      | some (some s) => (val s.index).map fun x => (n :: st.1, st.2.set n x)
      | _ => none
    else
      match N.kids n with
      | none => none
      | some (a, b) =>
        ((solvedRec N map val fuel a.index (n :: st.1, st.2)).bind (solvedRec N map val fuel b.index)).bind (markGate n a b)

/-- `resimulate_other_rec`, choice_computation.hpp 1048-1065: the first child is visited twice (lines 1061-1062), the second one
not at all. The counter is that of the random numbers. -/
def otherRec (N : Aig) (rand : Nat → Nat) : Nat → Nat → Marks × Nat → Option (Marks × Nat)
  | 0, _, _ => none
  | fuel + 1, n, st =>
    if n ∈ st.1.1 then some st
    else if n ≥ N.nodes.length then none
    else if N.isCi n then some ((n :: st.1.1, st.1.2.set n (rand st.2 % 2 == 1)), st.2 + 1)
    else
      match N.kids n with
      | none => none
      | some (a, b) =>
        ((otherRec N rand fuel a.index ((n :: st.1.1, st.1.2), st.2)).bind (otherRec N rand fuel a.index)).bind fun q =>
          (markGate n a b q.1).map fun m => (m, q.2)

/-- The loop over the members of a class, choice_computation.hpp 959-962. -/
def otherLoop (N : Aig) (rand : Nat → Nat) : List Nat → Marks × Nat → Option (Marks × Nat)
  | [], st => some st
  | c :: l, st =>
    match otherRec N rand (N.nodes.length + 1) c st with
    | none => none
    | some st => otherLoop N rand l st

/-- `equal_cex`, choice_computation.hpp 324-328. Both nodes have marks, the last case does not occur. -/
def equalCex (N : Aig) (marks : List Bool) (n1 n2 : Nat) : Bool :=
  match marks[n1]?, marks[n2]? with
  | some x, some y => (N.phaseOf n1 == N.phaseOf n2) == (x == y)
  | _, _ => false

/-- The loop over the classes of `resimulate`, choice_computation.hpp 955-964. -/
def resimLoop (N : Aig) (rand : Nat → Nat) : List Nat → (Marks × Nat) × Classes → Option ((Marks × Nat) × Classes)
  | [], st => some st
  | root :: l, st =>
    match st.2.id2class[root]? with
    | none => none
    | some cs =>
      match otherLoop N rand cs st.1 with
      | none => none
      | some q =>
        match refineOne (equalCex N q.1.2) false (N.nodes.length + 1) root st.2 with
        | none => none
        | some K => resimLoop N rand l (q, K.2)

/-- `resimulate`, choice_computation.hpp 942-966. -/
def resimulate (N : Aig) (E : Env) (model : Nat → Bool) (r n : Nat) (S : Sweep) : Option Sweep :=
  match collectCands N S.cls r n with
  | none => none
  | some roots =>
    match (solvedRec N S.map (S.prover.varValue model) (N.nodes.length + 1) n ([0], S.marks)).bind
        (solvedRec N S.map (S.prover.varValue model) (N.nodes.length + 1) r) with
    | none => none
    | some m =>
      (resimLoop N E.rand roots ((m, S.rnd), S.cls)).map fun q => { S with marks := q.1.1.2, rnd := q.1.2, cls := q.2 }

/-- `sweep_node`, choice_computation.hpp 905-935. -/
def sweepNode (N : Aig) (E : Env) (n t : Nat) (S : Sweep) : Option Sweep :=
  match S.cls.reprs[n]? with
  | none => none
  | some r =>
    if r = n then some S
    else
      match S.map[r]? with
      | none => none
      | some none => some S
      | some (some u) =>
        if u.index = t then some { S with repr := S.repr.set n r }
        else
          match S.prover.satProve E.sat S.net E.solve S.asks u.index t with
          | none => none
          | some (P, k, .timeout) => some { S with prover := P, asks := k, map := S.map.set n none }
          | some (P, k, .unsat) =>
            some { S with prover := P, asks := k, map := S.map.set n (some (u.xorb (Bool.xor (N.phaseOf n) (N.phaseOf r)))),
                          repr := S.repr.set n r }
          | some (P, k, .sat model) => resimulate N E model r n { S with prover := P, asks := k }

/-- The body of the loop over the gates of `man_sweep`, choice_computation.hpp 881-891. -/
def sweepGate (N : Aig) (E : Env) (S : Sweep) (n : Nat) : Option Sweep :=
  match N.kids n with
  | none => none
  | some (a, b) =>
    match S.map[a.index]?, S.map[b.index]? with
    | some (some x), some (some y) =>
      let q := S.net.createAnd (x.xorb a.compl) (y.xorb b.compl)
      sweepNode N E n q.2.index { S with net := q.1, map := S.map.set n (some q.2) }
    | some _, some _ => some S
    | _, _ => none

/-- The loop over the gates of `man_sweep`, choice_computation.hpp 881-891. -/
def sweepGates (N : Aig) (E : Env) : List Nat → Sweep → Option Sweep
  | [], S => some S
  | n :: l, S =>
    match sweepGate N E S n with
    | none => none
    | some S => sweepGates N E l S

/-- The inputs of `_fraig`, choice_computation.hpp 877-879: the input `i` is mapped to the node `create_pi` returns. -/
def sweepInputs : List Nat → Aig × SMap → Aig × SMap
  | [], st => st
  | i :: l, st => sweepInputs l (st.1.createPi.1, st.2.set i (some st.1.createPi.2))

/-- The constructor of `choice_computation`, `compute_equiv_classes` and the start of `man_sweep`, choice_computation.hpp 811-831, 840 and
874-879. -/
def sweepStart (N : Aig) (E : Env) : Option Sweep :=
  match computeClasses N E.nwords E.rand, Prover.init N.nodes.length with
  | some (K, c), some P =>
    let q := sweepInputs N.inputs (Aig.empty, (List.replicate N.nodes.length none).set 0 (some ⟨0, false⟩))
    some { net := q.1, map := q.2, repr := List.range N.nodes.length, cls := K, prover := P, marks := List.replicate N.nodes.length false,
           rnd := c, asks := 0 }
  | _, _ => none

/-- `man_sweep`, choice_computation.hpp 872-898. The marks, unset at the end, are not used any more. -/
def manSweep (N : Aig) (E : Env) : Option Sweep := (sweepStart N E).bind (sweepGates N E N.gates)

/-- `compute_choice`, choice_computation.hpp 837-865. -/
def computeChoice (N : Aig) (E : Env) : Option Choice := (manSweep N E).bind fun S => deriveChoice N S.repr

/-- The random number generator, choice_computation.hpp 74 and 368: `std::minstd_rand0`, the linear congruential generator with multiplier
16807 and modulus 2147483647, started at 1. -/
def minstd : Nat → Nat
  | 0 => 16807
  | i + 1 => 16807 * minstd i % 2147483647

end Verif.Choice
