import Verif.Choice.Basic
import Verif.Cnf.Basic

set_option autoImplicit false

/-!
# The SAT prover of choice computation

Model of `sat_prover`, `include/operations/algorithms/choice_computation.hpp` 376-791.
-/

namespace Verif.Choice
open Cnf (makeLit litNot Answer nvars)

/-- The parameters the prover uses, choice_computation.hpp 38-40. -/
structure SatParams where
  maxSatVar : Nat
  callsRecycle : Nat
  polarFlip : Bool
deriving DecidableEq, Repr

/-- The state of `sat_prover`, choice_computation.hpp 781-787: the clauses given to the solver, `_sat_vars_map`, `_sat_vars`, `_used_nodes`,
`_calls_since`. The counter of recycled solvers has no effect. -/
structure Prover where
  clauses : List (List Nat)
  vars : List Nat
  satVars : Nat
  used : List Nat
  calls : Nat
deriving DecidableEq, Repr

namespace Prover

/-- Constructor, choice_computation.hpp 384-399. -/
def init (size : Nat) : Option Prover :=
  if size = 0 then none
  else some { clauses := [[makeLit 1 true]], vars := (List.replicate size 0).set 0 1, satVars := 2, used := [], calls := 0 }

/-- `recycle_sat_solver`, choice_computation.hpp 497-531. The nodes in `_used_nodes` have been accessed before. -/
def recycle (P : Prover) : Prover :=
  { clauses := [[makeLit 1 true]], vars := (P.used.foldl (fun m n => m.set n 0) P.vars).set 0 1, satVars := 2, used := [], calls := 0 }

/-- `make_lit(_sat_vars_map[n], c)`, complemented once more if `polar_flip` is set and the node has phase 1, choice_computation.hpp
441-447, 619-627, 747-753 and 762-772. `none` for an access out of range. -/
def lit (flip : Bool) (F : Aig) (m : List Nat) (n : Nat) (c : Bool) : Option Nat :=
  match m[n]?, F.nodes[n]? with
  | some v, some nd => some (if flip && nd.phase then litNot (makeLit v c) else makeLit v c)
  | _, _ => none

/-- One clause (or the assumptions), given by nodes and complementations. -/
def lits (flip : Bool) (F : Aig) (m : List Nat) : List (Nat × Bool) → Option (List Nat)
  | [] => some []
  | p :: l =>
    match lit flip F m p.1 p.2, lits flip F m l with
    | some a, some b => some (a :: b)
    | _, _ => none

/-- Several clauses in a row, `add_clause` calls of choice_computation.hpp 598-775. -/
def addClauses (flip : Bool) (F : Aig) : List (List (Nat × Bool)) → Prover → Option Prover
  | [], P => some P
  | c :: l, P =>
    match lits flip F P.vars c with
    | none => none
    | some c => addClauses flip F l { P with clauses := P.clauses ++ [c] }

/-- The clauses of `add_clauses_mux`, choice_computation.hpp 617-696; the last two are left out if `t` and `e` have the same variable
(line 672). -/
def muxClauses (n : Nat) (i t e : Sig) (same : Bool) : List (List (Nat × Bool)) :=
  [[(i.index, true), (t.index, Bool.xor true t.compl), (n, false)],
   [(i.index, true), (t.index, Bool.xor false t.compl), (n, true)],
   [(i.index, false), (e.index, Bool.xor true e.compl), (n, false)],
   [(i.index, false), (e.index, Bool.xor false e.compl), (n, true)]] ++
  if same then []
  else [[(t.index, Bool.xor false t.compl), (e.index, Bool.xor false e.compl), (n, true)],
        [(t.index, Bool.xor true t.compl), (e.index, Bool.xor true e.compl), (n, false)]]

/-- `add_clauses_mux`, choice_computation.hpp 598-697. -/
def addMux (flip : Bool) (F : Aig) (n : Nat) (P : Prover) : Option Prover :=
  match F.recognizeMux n with
  | none => none
  | some (i, t, e) =>
    match P.vars[t.index]?, P.vars[e.index]? with
    | some vt, some ve => addClauses flip F (muxClauses n i t e (vt == ve)) P
    | _, _ => none

/-- The clauses of `add_clauses_super`, choice_computation.hpp 744-774. -/
def superClauses (n : Nat) (fanins : List Sig) : List (List (Nat × Bool)) :=
  fanins.map (fun s => [(s.index, s.compl), (n, true)]) ++ [fanins.map (fun s => (s.index, !s.compl)) ++ [(n, false)]]

/-- `vector_push_unique`, choice_computation.hpp 725-732. -/
def pushUnique (l : List Sig) (s : Sig) : List Sig := if s ∈ l then l else l ++ [s]

/-- The part of the condition of choice_computation.hpp 707-709 before `is_mux`. -/
def superStop (F : Aig) (s : Sig) (first : Bool) : Bool := s.compl || F.isCi s.index || (!first && decide (F.fanoutSize s.index > 1))

/-- `collect_super`, choice_computation.hpp 705-718. `none` for an access out of range. The first argument bounds the recursion depth. -/
def collectSuper (F : Aig) : Nat → Sig → Bool → List Sig → Option (List Sig)
  | 0, _, _, _ => none
  | fuel + 1, s, first, fanins =>
    if s.index ≥ F.nodes.length then none
    else if superStop F s first then some (pushUnique fanins s)
    else
      match F.isMux s.index with
      | none => none
      | some true => some (pushUnique fanins s)
      | some false =>
        match F.kids s.index with
        | none => none
        | some (a, b) => (collectSuper F fuel a false fanins).bind fun l => collectSuper F fuel b false l

/-- `add_to_frontier`, choice_computation.hpp 582-592. The list is the part of the frontier that is still to be processed. -/
def addFrontier (F : Aig) (n : Nat) (st : Prover × List Nat) : Option (Prover × List Nat) :=
  match st.1.vars[n]? with
  | none => none
  | some v =>
    if v ≠ 0 then some st
    else if n = 0 then some st
    else if n ≥ F.nodes.length then none
    else
      some ({ st.1 with used := st.1.used ++ [n], vars := st.1.vars.set n st.1.satVars, satVars := st.1.satVars + 1 },
        if F.isAnd n then st.2 ++ [n] else st.2)

/-- The loops over the fanins, choice_computation.hpp 561-564 and 572-575. -/
def addFanins (F : Aig) : List Sig → Prover × List Nat → Option (Prover × List Nat)
  | [], st => some st
  | s :: l, st =>
    match addFrontier F s.index st with
    | none => none
    | some st => addFanins F l st

/-- The grandchildren without complements, choice_computation.hpp 553-559. -/
def muxFanins (F : Aig) (n : Nat) : Option (List Sig) :=
  match F.kids n with
  | none => none
  | some (a, b) =>
    match F.kids a.index, F.kids b.index with
    | some (a0, a1), some (b0, b1) =>
      some (pushUnique (pushUnique (pushUnique (pushUnique [] ⟨a0.index, false⟩) ⟨b0.index, false⟩) ⟨a1.index, false⟩) ⟨b1.index, false⟩)
    | _, _ => none

/-- The body of the loop of `cnf_node_add_to_solver`, choice_computation.hpp 548-577. -/
def encode (flip : Bool) (F : Aig) (n : Nat) (st : Prover × List Nat) : Option (Prover × List Nat) :=
  match F.isMux n with
  | none => none
  | some true =>
    match muxFanins F n with
    | none => none
    | some fanins =>
      match addFanins F fanins st with
      | none => none
      | some st => (addMux flip F n st.1).map fun P => (P, st.2)
  | some false =>
    match collectSuper F (n + 1) ⟨n, false⟩ true [] with
    | none => none
    | some fanins =>
      match addFanins F fanins st with
      | none => none
      | some st => (addClauses flip F (superClauses n fanins) st.1).map fun P => (P, st.2)

/-- The loop of `cnf_node_add_to_solver`, choice_computation.hpp 546-578. The first argument bounds the number of rounds. -/
def cnfLoop (flip : Bool) (F : Aig) : Nat → Prover × List Nat → Option Prover
  | _, (P, []) => some P
  | 0, (_, _ :: _) => none
  | fuel + 1, (P, n :: todo) =>
    match encode flip F n (P, todo) with
    | none => none
    | some st => cnfLoop flip F fuel st

/-- `cnf_node_add_to_solver`, choice_computation.hpp 537-579. Every round takes a node that has just got its variable, so the number of nodes
bounds the number of rounds (`cnfAdd_spec`). -/
def cnfAdd (flip : Bool) (F : Aig) (n : Nat) (P : Prover) : Option Prover :=
  match P.vars[n]? with
  | none => none
  | some v =>
    if v ≠ 0 then some P
    else
      match addFrontier F n (P, []) with
      | none => none
      | some st => cnfLoop flip F P.vars.length st

/-- The number of variables the solver knows: `set_nr_vars(1000)` (choice_computation.hpp 389 and 518) or those that occur in clauses
(`sat_solver_addclause`, libs/abcsat/satSolver.cpp 1818-1827). -/
def known (P : Prover) : Nat := max 1000 (nvars P.clauses)

/-- `_solver.solve`, bsat2.hpp 96-100. The solver is a parameter: it gets the number of the call, the clauses and the assumptions. An assumption
about a variable the solver does not know reads uninitialised memory: `none`. -/
def ask (solve : Nat → List (List Nat) → List Nat → Answer) (k : Nat) (P : Prover) (as : List Nat) : Option Answer :=
  if as.all fun l => decide (l / 2 < P.known) then some (solve k P.clauses as) else none

/-- Recycling at the start of `sat_prove`, choice_computation.hpp 423-429. -/
def begin (pp : SatParams) (P : Prover) : Prover :=
  let P := { P with calls := P.calls + 1 }
  if pp.maxSatVar ≠ 0 ∧ P.satVars > pp.maxSatVar ∧ P.calls > pp.callsRecycle then P.recycle else P

/-- One of the two calls of the solver: assumptions `r = cr` and `n = cn` up to complementation, and the clause added after an answer
`unsat`, choice_computation.hpp 438-456 and 473-489. -/
def attempt (flip : Bool) (F : Aig) (solve : Nat → List (List Nat) → List Nat → Answer) (k : Nat) (P : Prover) (r : Nat) (cr : Bool) (n : Nat)
    (cn : Bool) : Option (Prover × Answer) :=
  match lits flip F P.vars [(r, cr), (n, cn)] with
  | none => none
  | some as =>
    match P.ask solve k as with
    | none => none
    | some .unsat => some ({ P with clauses := P.clauses ++ [as.map litNot] }, .unsat)
    | some a => some (P, a)

/-- `sat_prove`, choice_computation.hpp 419-492: the new state, the number of the next solver call, the answer. The answer `unsat` is
`failure` in the code, `sat` is `success`. -/
def satProve (pp : SatParams) (F : Aig) (solve : Nat → List (List Nat) → List Nat → Answer) (k : Nat) (P : Prover) (r n : Nat) :
    Option (Prover × Nat × Answer) :=
  match cnfAdd pp.polarFlip F r (P.begin pp) with
  | none => none
  | some P =>
    match cnfAdd pp.polarFlip F n P with
    | none => none
    | some P =>
      match attempt pp.polarFlip F solve k P r true n (Bool.xor (F.phaseOf r) (F.phaseOf n)) with
      | none => none
      | some (P, .unsat) =>
        if r = 0 then some (P, k + 1, .unsat)
        else (attempt pp.polarFlip F solve (k + 1) P r false n (F.phaseOf r == F.phaseOf n)).map fun q => (q.1, k + 2, q.2)
      | some (P, a) => some (P, k + 1, a)

/-- `get_var_value`, choice_computation.hpp 402-409, with the solver's last model. `none` for an access out of range or a variable the
solver does not know. -/
def varValue (P : Prover) (model : Nat → Bool) (n : Nat) : Option Bool :=
  match P.vars[n]? with
  | none => none
  | some v => if v = 0 then some false else if v < P.known then some (model v) else none

end Prover
end Verif.Choice
