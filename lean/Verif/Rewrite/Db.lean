import Verif.Rewrite.Npn
import Verif.Aig.Cleanup
import Verif.Aig.Sim

set_option autoImplicit false

/-!
# The database of subgraphs and the resynthesis of 4-input functions

Model of `include/operations/optimization/detail/database_npn4_aig.hpp` 29-119 and
`include/operations/optimization/detail/node_rewriting.hpp` 42-178.
-/

namespace Verif.Rewrite

/-- `num_pis` / `num_pos`, database_npn4_aig.hpp 43-44, on the first word of the data -/
def dbPis (w : Nat) : Nat := w % 256

/-- see `dbPis` -/
def dbPos (w : Nat) : Nat := (w / 256) % 256

/-- a literal of the data, database_npn4_aig.hpp 88-89, 94-95; `vec_signal.at` throws outside the vector (`none`). -/
def litSig (sigs : List Sig) (lit : Nat) : Option Sig :=
  match sigs[lit / 2]? with
  | none => none
  | some s => some (if lit % 2 = 1 then s.not else s)

/-- the loop over the gates, database_npn4_aig.hpp 46-54 and 82-91.  Simplification: an odd number of words
(excluded by the assertion in line 49) stops here instead of reading the first output as second literal. -/
def dbGates : List Nat → Aig → List Sig → Option (Aig × List Sig)
  | [], N, sigs => some (N, sigs)
  | [_], _, _ => none
  | l0 :: l1 :: rest, N, sigs =>
    match litSig sigs l0, litSig sigs l1 with
    | some s0, some s1 =>
      let r := if l0 > l1 then N.createXor s0 s1 else N.createAnd s0 s1
      dbGates rest r.1 (sigs ++ [r.2])
    | _, _ => none

/-- the loop over the outputs, database_npn4_aig.hpp 56-63, 93-96 and 113-115 -/
def dbOuts (sigs : List Sig) : List Nat → Aig → Option Aig
  | [], N => some N
  | l :: rest, N =>
    match litSig sigs l with
    | none => none
    | some s => dbOuts sigs rest (N.createPo s)

/-- `decode_data_rewriting`, database_npn4_aig.hpp 103-119, with `insert_into_network`, 71-97. -/
def decodeDb (values : List Nat) : Option Aig :=
  match values with
  | [] => none
  | w :: rest =>
    let q := Aig.cloneInputs (dbPis w) Aig.empty
    let k := rest.length - dbPos w
    match dbGates (rest.take k) q.1 (⟨0, false⟩ :: q.2) with
    | none => none
    | some (N, sigs) => dbOuts sigs (rest.drop k) N

/-- `default_simulator<static_truth_table<4>>`, simulation.hpp 121-139; default constructed tables are constant 0 -/
def ttSim4 : Aig.SimOps TT := { Aig.ttSim 4 with dflt := TT.const 4 false }

/-- the database after construction, node_rewriting.hpp 180-189: the network and the pairs (representative,
signal) in the order in which they are inserted into `_umap_repre_to_signal`.  `_vec_canonical_repre` (filled
by `generate_classes`, 98-106, with the canonization of all 65536 tables) is replaced by calls of `canon`. -/
structure Db where
  net : Aig
  entries : List (TT × Sig)

/-- body of `foreach_node` in `generate_db`, node_rewriting.hpp 125-152 -/
def dbEntry (n : Nat) (t : TT) : Option (TT × Sig) :=
  if (Npn.canon t).1 = t then some (t, ⟨n, false⟩)
  else if (Npn.canon t.not).1 = t.not then some (t.not, ⟨n, true⟩)
  else none

/-- `generate_db`, node_rewriting.hpp 117-153 (a network without dead nodes). -/
def generateDb (values : List Nat) : Option Db :=
  match decodeDb values with
  | none => none
  | some net =>
    match Aig.simulateNodes ttSim4 net with
    | none => none
    | some sim => some ⟨net, (sim.zipIdx).filterMap fun p => dbEntry p.2 p.1⟩

/-- `db_map` -/
abbrev DbMap := Nat → Option Sig

/-- `db_map.insert( {n, s} )`: an existing entry is kept. -/
def DbMap.insert (m : DbMap) (n : Nat) (s : Sig) : DbMap := fun k => if k = n ∧ m n = none then some s else m k

/-- `padding_network_by_signal`, node_rewriting.hpp 160-178.  The first argument bounds the recursion depth. -/
def pad (db : Aig) : Nat → Nat → Aig → DbMap → Option (Aig × DbMap × Sig)
  | 0, _, _, _ => none
  | f + 1, n, N, m =>
    match m n with
    | some s => some (N, m, s)
    | none =>
      if n = 0 ∨ db.isCi n then
        let r := N.createAnd ⟨0, false⟩ ⟨0, false⟩
        some (r.1, m.insert n r.2, r.2)
      else
        match db.nodes[n]? with
        | none => none
        | some nd =>
          match pad db f nd.c0.index N m with
          | none => none
          | some (N, m, a) =>
            match pad db f nd.c1.index N m with
            | none => none
            | some (N, m, b) =>
              let r := N.createAnd (if nd.c0.compl then a.not else a) (if nd.c1.compl then b.not else b)
              some (r.1, m.insert n r.2, r.2)

/-- the loop over the candidates, node_rewriting.hpp 84-91; the callback works on the state `σ` and cannot
change the network (as in rewrite.hpp 105-122, where it always returns true). -/
def candLoop {σ : Type} (db : Aig) (phase : Nat) (fn : Aig → Sig → σ → Option σ) :
    List Sig → Aig → DbMap → σ → Option (Aig × σ)
  | [], N, _, st => some (N, st)
  | c :: cs, N, m, st =>
    match pad db db.size c.index N m with
    | none => none
    | some (N, m, s) =>
      match fn N (if Bool.xor c.compl (phase.testBit 4) then s.not else s) st with
      | none => none
      | some st => candLoop db phase fn cs N m st

/-- `db_to_aig`, node_rewriting.hpp 71-81, for exactly four leaves (the caller skips all other cuts). -/
def leafMap (leaves : List Sig) (phase : Nat) (perm : List Nat) : DbMap := fun n =>
  if n = 0 then some ⟨0, false⟩
  else if n ≤ 4 then
    match perm[n - 1]? with
    | none => none
    | some p => match leaves[p]? with
      | none => none
      | some s => some (if phase.testBit p then s.not else s)
  else none

/-- `operator()`, node_rewriting.hpp 59-92 -/
def resynth {σ : Type} (db : Db) (N : Aig) (tt : TT) (leaves : List Sig) (fn : Aig → Sig → σ → Option σ) (st : σ) :
    Option (Aig × σ) :=
  if leaves.length ≠ 4 then none
  else
    let c := Npn.canon (tt.extendTo 4)
    candLoop db.net c.2.1 fn ((db.entries.filter fun e => e.1 = c.1).map (·.2)) N (leafMap leaves c.2.1 c.2.2) st

end Verif.Rewrite
