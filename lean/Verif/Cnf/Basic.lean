import Verif.Aig.Basic

set_option autoImplicit false

/-!
# CNF generation and equivalence checking

Model of `include/operations/algorithms/cnf.hpp` 36-426 for AIGs with `uint32_t` literals, and of
`include/operations/algorithms/equivalence_checking.hpp` 76-111.  Literals are natural numbers; the
wrap-around of `var << 1` at 2^31 variables is not modelled.
-/

namespace Verif.Cnf

/-- `make_lit`, cnf.hpp 36-39. -/
def makeLit (var : Nat) (compl : Bool := false) : Nat := 2 * var + (if compl then 1 else 0)

/-- `lit_not`, cnf.hpp 41-44: `lit ^ 1`. -/
def litNot (l : Nat) : Nat := if l % 2 = 0 then l + 1 else l - 1

/-- `lit_not_cond`, cnf.hpp 51-54. -/
def litNotCond (l : Nat) (c : Bool) : Nat := if c then litNot l else l

/-- `on_and`, cnf.hpp 65-71. -/
def onAnd (c a b : Nat) : List (List Nat) := [[a, litNot c], [b, litNot c], [litNot a, litNot b, c]]

/-- `on_or`, cnf.hpp 83-89. -/
def onOr (c a b : Nat) : List (List Nat) := [[litNot a, c], [litNot b, c], [a, b, litNot c]]

/-- `on_xor`, cnf.hpp 101-108. -/
def onXor (c a b : Nat) : List (List Nat) :=
  [[litNot a, litNot b, litNot c], [litNot a, b, c], [a, litNot b, c], [a, b, litNot c]]

/-- `on_maj`, cnf.hpp 121-130. -/
def onMaj (d a b c : Nat) : List (List Nat) :=
  [[litNot a, litNot b, d], [litNot a, litNot c, d], [litNot b, litNot c, d],
   [a, b, litNot d], [a, c, litNot d], [b, c, litNot d]]

/-- `on_xor3`, cnf.hpp 145-156. -/
def onXor3 (d a b c : Nat) : List (List Nat) :=
  [[litNot a, b, c, d], [a, litNot b, c, d], [a, b, litNot c, d], [a, b, c, litNot d],
   [a, litNot b, litNot c, litNot d], [litNot a, b, litNot c, litNot d],
   [litNot a, litNot b, c, litNot d], [litNot a, litNot b, litNot c, d]]

/-- `on_ite`, cnf.hpp 173-180. -/
def onIte (d a b c : Nat) : List (List Nat) :=
  [[litNot a, litNot b, d], [litNot a, b, litNot d], [a, litNot c, d], [a, c, litNot d]]

/-- consecutive variables from `var` on for the listed nodes -/
def numberNodes : List Nat → Nat → (Nat → Nat) → Nat → Nat
  | [], _, m => m
  | n :: l, var, m => numberNodes l (var + 1) (fun k => if k = n then makeLit var else m k)

/-- `node_literals` with a given `gate_offset`, cnf.hpp 253-306.  Nodes that are never assigned keep the
default literal 0 (node_map.hpp 84-92). -/
def nodeLiteralsFrom (N : Aig) (offset : Nat) : Nat → Nat :=
  numberNodes N.gates offset (numberNodes (N.inputs.take N.numPis) 1 fun _ => 0)

/-- `node_literals` without `gate_offset`, cnf.hpp 279. -/
def nodeLiterals (N : Aig) : Nat → Nat := nodeLiteralsFrom N (N.numPis + 1)

/-- literal of a signal, `lit_not_cond( node_lits_[f], is_complemented( f ) )`, cnf.hpp 328-330. -/
def sigLit (m : Nat → Nat) (s : Sig) : Nat := litNotCond (m s.index) s.compl

/-- clauses of a gate, cnf.hpp 326-340; `none` if the node does not exist. -/
def gateClauses (N : Aig) (m : Nat → Nat) (n : Nat) : Option (List (List Nat)) :=
  match N.nodes[n]? with
  | none => none
  | some nd => some (onAnd (m n) (sigLit m nd.c0) (sigLit m nd.c1))

/-- the `foreach_gate` loop -/
def gatesClauses (N : Aig) (m : Nat → Nat) : List Nat → Option (List (List Nat))
  | [] => some []
  | n :: l => match gateClauses N m n, gatesClauses N m l with
    | some c, some cs => some (c ++ cs)
    | _, _ => none

/-- `generate_cnf_impl::run`, cnf.hpp 322-425: clauses in the order of the callback, and output
literals. -/
def generateCnf (N : Aig) (m : Nat → Nat) : Option (List (List Nat) × List Nat) :=
  match gatesClauses N m N.gates with
  | none => none
  | some cs => some ([litNot (m 0)] :: cs, (N.outputs.take N.numPos).map (sigLit m))

/-- answer of the SAT solver -/
inductive Answer
  | sat (model : Nat → Bool)
  | unsat
  | timeout

/-- number of variables the solver knows after `add_clause`: `sat_solver_addclause` calls
`sat_solver_setnvars( maxvar + 1 )` (libs/abcsat/satSolver.cpp 1818-1827), nothing else does. -/
def nvars (cs : List (List Nat)) : Nat := (cs.map fun c => (c.map fun l => l / 2 + 1).foldr max 0).foldr max 0

/-- result of equivalence checking; `ub` when the solver is asked about a variable it has never been told
about (uninitialised reads in `sat_solver_solve` and `sat_solver_var_value`, satSolver.h 218). -/
inductive Verdict
  | ub
  | undecided
  | equivalent
  | different (cex : List Bool)
deriving DecidableEq, Repr

/-- `equivalence_checking_impl::run`, equivalence_checking.hpp 84-111, with the SAT solver as a
parameter: clauses, assumption literal. -/
def equivalenceChecking (M : Aig) (solve : List (List Nat) → Nat → Answer) : Verdict :=
  match generateCnf M (nodeLiterals M) with
  | none => .ub
  | some (cs, outs) =>
    match outs with
    | [] => .ub
    | output :: _ =>
      if nvars cs ≤ output / 2 then .ub
      else match solve cs output with
        | .timeout => .undecided
        | .unsat => .equivalent
        | .sat a => if 0 < M.numPis ∧ nvars cs ≤ M.numPis then .ub
          else .different ((List.range M.numPis).map fun i => a (i + 1))

end Verif.Cnf
