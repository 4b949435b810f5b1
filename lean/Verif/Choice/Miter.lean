import Verif.Aig.Basic

set_option autoImplicit false

/-!
# The choice miter

Model of `include/operations/algorithms/choice_miter.hpp`. The merged networks have different storages (the visited
marks are kept per network). `none` stands for undefined behaviour or recursion without end.
-/

namespace Verif.ChoiceMiter

/-- `id_map` of one network, choice_miter.hpp 34, 41: node index to node index of the miter -/
abbrev IdMap := Nat → Option Nat

/-- `std::map::insert`: keeps an existing entry -/
def IdMap.insert (m : IdMap) (n t : Nat) : IdMap := fun k => if k = n then some ((m n).getD t) else m k

/-- miter under construction, id map and visited marks of the network that is traversed -/
structure St where
  net : Aig
  map : IdMap
  vis : Nat → Bool

/-- `create_node`, choice_miter.hpp 192-207. `find(…)->second` on a missing key is undefined. The complement of the
signal returned by `create_and` is dropped. -/
def createNode (A : Aig) (s : St) (n : Nat) : Option St :=
  match A.nodes[n]? with
  | none => none
  | some nd =>
    match s.map nd.c0.index, s.map nd.c1.index with
    | some i0, some i1 =>
      let r := s.net.createAnd ⟨i0, nd.c0.compl⟩ ⟨i1, nd.c1.compl⟩
      some { s with net := r.1, map := s.map.insert n r.2.index }
    | _, _ => none

/-- `dfs_recursion_po`, choice_miter.hpp 215-239; the first argument bounds the recursion depth. -/
def dfsPo (A : Aig) : Nat → Nat → St → Option St
  | 0, _, _ => none
  | f + 1, n, s =>
    if A.isPi n = true then some s
    else if s.vis n = true then some s
    else
      match A.nodes[n]? with
      | none => none
      | some nd =>
        match dfsPo A f nd.c0.index s with
        | none => none
        | some s1 =>
          match dfsPo A f nd.c1.index s1 with
          | none => none
          | some s2 =>
            match createNode A s2 n with
            | none => none
            | some s3 => some { s3 with vis := fun k => if k = n then true else s3.vis k }

/-- one merged network with its id map and its visited marks -/
structure Rec where
  aig : Aig
  map : IdMap
  vis : Nat → Bool

/-- body of the inner loop of `create_internal_nodes`, choice_miter.hpp 251-252, for output `i`;
`id_map[…]` inserts 0 for a missing key. -/
def poOne (fuel i : Nat) (r : Rec) (D : Aig) : Option (Rec × Aig) :=
  match r.aig.outputs[i]? with
  | none => none
  | some o =>
    match dfsPo r.aig fuel o.index ⟨D, r.map, r.vis⟩ with
    | none => none
    | some s =>
      some ({ r with map := s.map.insert o.index 0, vis := s.vis },
        s.net.createPo ⟨(s.map o.index).getD 0, o.compl⟩)

/-- inner loop of `create_internal_nodes`, choice_miter.hpp 249-253 -/
def poRow (fuel i : Nat) : List Rec → Aig → Option (List Rec × Aig)
  | [], D => some ([], D)
  | r :: l, D =>
    match poOne fuel i r D with
    | none => none
    | some (r', D') =>
      match poRow fuel i l D' with
      | none => none
      | some (l', D'') => some (r' :: l', D'')

/-- `create_internal_nodes`, choice_miter.hpp 245-255, for the output positions in the list -/
def poRows (fuel : Nat) : List Nat → List Rec → Aig → Option (List Rec × Aig)
  | [], l, D => some (l, D)
  | i :: is, l, D =>
    match poRow fuel i l D with
    | none => none
    | some (l', D') => poRows fuel is l' D'

/-- loop that deletes outputs, choice_miter.hpp 107-119: only positions divisible by the number of networks stay. The
code goes on with an iterator that `erase` has invalidated, which for vectors in practice is the position before. -/
def keep (s : Nat) : Nat → List Sig → List Sig
  | _, [] => []
  | c, o :: l => if c % s ≠ 0 then keep s (c + 1) l else o :: keep s (c + 1) l

/-- the primary inputs of the miter, choice_miter.hpp 93-101 -/
def makePis : Nat → Aig → Aig
  | 0, D => D
  | k + 1, D => makePis k D.createPi.1

/-- `merge_aigs_to_miter`, choice_miter.hpp 75-138. The asserts (equal numbers of inputs and outputs) are off. The
fan-out counters of the drivers of deleted outputs stay as they are. -/
def merge (fuel : Nat) : List Aig → Option Aig
  | [] => none
  | [A] => some A
  | A :: B :: rest =>
    let l := A :: B :: rest
    let recs := l.map fun N => (⟨N, fun n => if 1 ≤ n ∧ n ≤ A.numPis then some n else none, fun _ => false⟩ : Rec)
    match poRows fuel (List.range A.numPos) recs (makePis A.numPis Aig.empty) with
    | none => none
    | some (_, D) =>
      let outs := keep l.length 0 D.outputs
      some { D with outputs := outs, numPos := D.numPos - (D.outputs.length - outs.length) }

end Verif.ChoiceMiter
