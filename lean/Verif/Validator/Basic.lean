import Verif.Cnf.Basic

set_option autoImplicit false

/-!
# The circuit validator

Model of `circuit_validator`, `include/operations/algorithms/circuit_validator.hpp` 44-697, for AIGs and `use_odc = false` (no network of the
repository has the function `foreach_fanout` that the other case needs). `use_pushpop` is a parameter. The SAT solver is a function of the number of
the call, the clauses and the assumptions; `solver.num_clauses()` is a function of the number of calls so far and the clauses, because the solvers
simplify and count in different ways. `none` stands for an access out of range or an exception.
-/

namespace Verif.Validator
open Cnf (litNot litNotCond onAnd onXor onMaj onXor3 Answer)

/-- The template parameter `use_pushpop`, `max_clauses` (circuit_validator.hpp 32) and the solver. -/
structure Env where
  pushpop : Bool
  maxClauses : Nat
  solve : Nat → List (List Nat) → List Nat → Answer
  count : Nat → List (List Nat) → Nat

/-- The members of `circuit_validator`, circuit_validator.hpp 681-696: `literals`, the keys of `constructed`, the number of variables and the clauses of
`solver`, `num_invoke`, `cex`. `asks` counts all calls of the solver; it is only used to let the answers depend on it. -/
structure State where
  lits : List Nat
  built : List Nat
  nvars : Nat
  clauses : List (List Nat)
  invokes : Nat
  asks : Nat
  cex : List Bool
deriving DecidableEq, Repr

/-- `restart`, circuit_validator.hpp 367-380; also `update`, 361-364. -/
def restart (N : Aig) (S : State) : Option State :=
  match S.lits[0]? with
  | none => none
  | some l => some { S with invokes := 0, built := [], nvars := N.numPis + 1, clauses := [[litNot l]] }

/-- The literals of the primary inputs, circuit_validator.hpp 135-137: `2 * (i + 1)` for the i-th one. -/
def piLits : List Nat → Nat → List Nat → Option (List Nat)
  | [], _, m => some m
  | n :: l, i, m => if n < m.length then piLits l (i + 1) (m.set n (2 * (i + 1))) else none

/-- The constructor, circuit_validator.hpp 81-140. -/
def init (N : Aig) : Option State :=
  match piLits (N.inputs.take N.numPis) 0 (List.replicate N.size 0) with
  | none => none
  | some m => restart N ⟨m, [], 0, [], 0, 0, List.replicate N.numPis false⟩

/-- The callback for new nodes, circuit_validator.hpp 122-125 with `node_map::resize`, node_map.hpp 168-174. -/
def onAdd (N : Aig) (S : State) : State :=
  if S.lits.length < N.size then { S with lits := S.lits ++ List.replicate (N.size - S.lits.length) 0 } else S

/-- `constructed.has( n ) || is_pi( n ) || is_constant( n )`: the node needs no `construct`, circuit_validator.hpp 145, 160, 202, 210, 252, 310, 395, 532. -/
def skip (N : Aig) (S : State) (n : Nat) : Bool := S.built.contains n || N.isPi n || n == 0

/-- The new variable of a node, circuit_validator.hpp 401-402. -/
def newNode (n : Nat) (S : State) : Option State :=
  if n < S.lits.length then some { S with lits := S.lits.set n (2 * S.nvars), built := n :: S.built, nvars := S.nvars + 1 } else none

/-- `construct`, circuit_validator.hpp 382-428 (the list `tmp` is in `pop`). A node without fanins only gets a variable. The first argument bounds
the depth of the recursion. -/
def construct (N : Aig) : Nat → Nat → State → Option State
  | 0, _, _ => none
  | fuel + 1, n, S =>
    match N.nodes[n]? with
    | none => none
    | some nd =>
      if N.isCi n then newNode n S
      else
        match (if skip N S nd.c0.index then some S else construct N fuel nd.c0.index S) with
        | none => none
        | some S1 =>
          match S1.lits[nd.c0.index]? with
          | none => none
          | some l0 =>
            match (if skip N S1 nd.c1.index then some S1 else construct N fuel nd.c1.index S1) with
            | none => none
            | some S2 =>
              match S2.lits[nd.c1.index]? with
              | none => none
              | some l1 =>
                match newNode n S2 with
                | none => none
                | some S3 =>
                  some { S3 with clauses := S3.clauses ++ onAnd (2 * S2.nvars) (litNotCond l0 nd.c0.compl) (litNotCond l1 nd.c1.compl) }

/-- `construct` if needed; the recursion is not deeper than the number of nodes. -/
def need (N : Aig) (n : Nat) (S : State) : Option State :=
  if skip N S n then some S else construct N N.size n S

/-- `solve`, circuit_validator.hpp 509-528: `some true` for unsatisfiable. `cex.at( i )` and `model.at( i + 1 )` throw out of range. -/
def solveWith (E : Env) (N : Aig) (as : List Nat) (S : State) : Option (State × Option Bool) :=
  let T := { S with invokes := S.invokes + 1, asks := S.asks + 1 }
  match E.solve S.asks S.clauses as with
  | .sat a =>
    if N.numPis ≤ S.cex.length ∧ N.numPis < S.nvars then
      some ({ T with cex := (List.range N.numPis).map (fun i => a (i + 1)) ++ S.cex.drop N.numPis }, some false)
    else none
  | .unsat => some (T, some true)
  | .timeout => some (T, none)

/-- `validate( root, lit )`, circuit_validator.hpp 530-569. -/
def validateLit (E : Env) (N : Aig) (root lit : Nat) (S : State) : Option (State × Option Bool) :=
  match need N root S with
  | none => none
  | some S =>
    match S.lits[root]? with
    | none => none
    | some r =>
      let n := 2 * S.nvars
      solveWith E N [litNot n] { S with nvars := S.nvars + 1, clauses := S.clauses ++ [[r, lit, n], [litNot r, litNot lit, n]] }

/-- The end of every public function: restart after 20 calls if there are too many clauses, circuit_validator.hpp 150-153, 165-168, 235-238,
282-285, 349-352. -/
def finish {α : Type} (E : Env) (N : Aig) : Option (State × α) → Option (State × α)
  | none => none
  | some (S, r) =>
    if E.maxClauses < E.count S.asks S.clauses ∧ 20 ≤ S.invokes then
      match restart N S with
      | none => none
      | some T => some (T, r)
    else some (S, r)

/-- `validate( f, d )` for two signals, circuit_validator.hpp 143-155. -/
def validateSig (E : Env) (N : Aig) (f d : Sig) (S : State) : Option (State × Option Bool) :=
  match need N d.index S with
  | none => none
  | some S =>
    match S.lits[d.index]? with
    | none => none
    | some l => finish E N (validateLit E N f.index (litNotCond l (Bool.xor f.compl d.compl)) S)

/-- `validate( root, d )` for a node and a signal, circuit_validator.hpp 158-170. -/
def validateNode (E : Env) (N : Aig) (root : Nat) (d : Sig) (S : State) : Option (State × Option Bool) :=
  match need N d.index S with
  | none => none
  | some S =>
    match S.lits[d.index]? with
    | none => none
    | some l => finish E N (validateLit E N root (litNotCond l d.compl) S)

/-- `validate( root, value )`, circuit_validator.hpp 250-287. -/
def validateConst (E : Env) (N : Aig) (root : Nat) (value : Bool) (S : State) : Option (State × Option Bool) :=
  match need N root S with
  | none => none
  | some S =>
    match S.lits[root]? with
    | none => none
    | some l => finish E N (solveWith E N [litNotCond l value] S)

/-- `validate( f, value )`, circuit_validator.hpp 244-247. -/
def validateSigConst (E : Env) (N : Aig) (f : Sig) (value : Bool) (S : State) : Option (State × Option Bool) :=
  validateConst E N f.index (Bool.xor value f.compl) S

/-- `gate_type`, circuit_validator.hpp 53-58. -/
inductive GateType
  | and
  | xor
  | maj
deriving DecidableEq, Repr

/-- `gate`, circuit_validator.hpp 60-79: fanins (index in the concatenated list of divisors and gates, inversion) and type. -/
structure CGate where
  fanins : List (Nat × Bool)
  type : GateType
deriving DecidableEq, Repr

/-- The clauses of `add_clauses_for_2input_gate`, circuit_validator.hpp 447-466: none for a majority gate (the assertion is off). -/
def clauses2 (t : GateType) (n a b : Nat) : List (List Nat) :=
  match t with
  | .and => onAnd n a b
  | .xor => onXor n a b
  | .maj => []

/-- The clauses of `add_clauses_for_3input_gate`, circuit_validator.hpp 468-487: none for an AND gate. -/
def clauses3 (t : GateType) (n a b c : Nat) : List (List Nat) :=
  match t with
  | .and => []
  | .xor => onXor3 n a b c
  | .maj => onMaj n a b c

/-- `add_tmp_gate`, circuit_validator.hpp 489-507: with more than three fanins the first three count. -/
def addTmpGate (lits : List Nat) (g : CGate) (S : State) : Option (State × Nat) :=
  match g.fanins with
  | [f0, f1] =>
    match lits[f0.1]?, lits[f1.1]? with
    | some a, some b =>
      let cs := clauses2 g.type (2 * S.nvars) (litNotCond a f0.2) (litNotCond b f1.2)
      some ({ S with nvars := S.nvars + 1, clauses := S.clauses ++ cs }, 2 * S.nvars)
    | _, _ => none
  | f0 :: f1 :: f2 :: _ =>
    match lits[f0.1]?, lits[f1.1]?, lits[f2.1]? with
    | some a, some b, some c =>
      let cs := clauses3 g.type (2 * S.nvars) (litNotCond a f0.2) (litNotCond b f1.2) (litNotCond c f2.2)
      some ({ S with nvars := S.nvars + 1, clauses := S.clauses ++ cs }, 2 * S.nvars)
    | _, _, _ => none
  | _ => none

/-- The loop over the gates of the circuit, circuit_validator.hpp 223-226. -/
def addCircuit : List CGate → List Nat → State → Option (State × List Nat)
  | [], lits, S => some (S, lits)
  | g :: l, lits, S =>
    match addTmpGate lits g S with
    | none => none
    | some (S, n) => addCircuit l (lits ++ [n]) S

/-- The loop over the divisors, circuit_validator.hpp 208-216. -/
def divLits (N : Aig) : List Nat → List Nat → State → Option (State × List Nat)
  | [], lits, S => some (S, lits)
  | n :: l, lits, S =>
    match need N n S with
    | none => none
    | some S =>
      match S.lits[n]? with
      | none => none
      | some a => divLits N l (lits ++ [a]) S

/-- `pop`, circuit_validator.hpp 437-445: the solver has its variables and clauses of the time of `push` again (`S`), and the nodes constructed since then
are forgotten. -/
def pop (S T : State) : State := { T with nvars := S.nvars, clauses := S.clauses, built := S.built }

/-- `validate( root, divs, circuit, output_negation )`, circuit_validator.hpp 200-241. -/
def validateCircuit (E : Env) (N : Aig) (root : Nat) (divs : List Nat) (circuit : List CGate) (neg : Bool) (S : State) :
    Option (State × Option Bool) :=
  match need N root S with
  | none => none
  | some S =>
    match divLits N divs [] S with
    | none => none
    | some (S, lits) =>
      match addCircuit circuit lits S with
      | none => none
      | some (S1, lits) =>
        match lits.getLast? with
        | none => none
        | some l =>
          match validateLit E N root (litNotCond l neg) S1 with
          | none => none
          | some (S2, r) => finish E N (some (if E.pushpop then pop S S2 else S2, r))

/-- `validate( f, divs, circuit, output_negation )`, circuit_validator.hpp 180-183. -/
def validateSigCircuit (E : Env) (N : Aig) (f : Sig) (divs : List Nat) (circuit : List CGate) (neg : Bool) (S : State) :
    Option (State × Option Bool) :=
  validateCircuit E N f.index divs circuit (Bool.xor neg f.compl) S

/-- The clause of `block_pattern`, circuit_validator.hpp 571-579: `literals[n]`, inverted if the pattern has 1. -/
def blockClause (lits : List Nat) : List Nat → List Bool → Option (List Nat)
  | [], _ => some []
  | _ :: _, [] => none
  | n :: l, b :: bs =>
    match lits[n]?, blockClause lits l bs with
    | some a, some c => some (litNotCond a b :: c)
    | _, _ => none

/-- `block_pattern`, circuit_validator.hpp 571-579. -/
def blockPattern (N : Aig) (pattern : List Bool) (S : State) : Option State :=
  match blockClause S.lits (N.inputs.take N.numPis) pattern with
  | none => none
  | some c => some { S with clauses := S.clauses ++ [c] }

/-- The loop over the patterns to be blocked, circuit_validator.hpp 317-320. -/
def blockAll (N : Aig) : List (List Bool) → State → Option State
  | [], S => some S
  | p :: l, S =>
    match blockPattern N p S with
    | none => none
    | some S => blockAll N l S

/-- The loop of `generate_pattern`, circuit_validator.hpp 333-346; the last answer of the solver is returned as well. -/
def generateLoop (E : Env) (N : Aig) (as : List Nat) : Nat → List (List Bool) → Option Bool → State → Option (State × List (List Bool) × Option Bool)
  | 0, acc, last, S => some (S, acc, last)
  | k + 1, acc, _, S =>
    match solveWith E N as S with
    | none => none
    | some (S, some false) =>
      match blockPattern N S.cex S with
      | none => none
      | some T => generateLoop E N as k (acc ++ [S.cex]) (some false) T
    | some (S, r) => some (S, acc, r)

/-- `generate_pattern`, circuit_validator.hpp 308-354 (only with `use_pushpop`). The program returns only the patterns; the last answer of the solver
(`some false` if there was none) is there to say when the list is complete. -/
def generatePattern (E : Env) (N : Aig) (root : Nat) (value : Bool) (blocked : List (List Bool)) (num : Nat) (S : State) :
    Option (State × List (List Bool) × Option Bool) :=
  match need N root S with
  | none => none
  | some S =>
    match S.lits[root]? with
    | none => none
    | some l =>
      match blockAll N blocked S with
      | none => none
      | some S1 =>
        match generateLoop E N [litNotCond l !value] num [] (some false) S1 with
        | none => none
        | some (S2, r) => finish E N (some (pop S S2, r))

end Verif.Validator
