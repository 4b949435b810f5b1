import Verif.Cut.Enum
import Verif.Choice.Basic
import Verif.Klut.Mapping
import Verif.Mapping.Params

set_option autoImplicit false

/-!
# LUT mapping

Model of `klut_mapping_impl`, `include/operations/algorithms/klut_mapping.hpp` 194-435, 564-618 and 802-969.

The costs of cuts (floating point delays, area flow, exact area, 620-797), the estimated references and the
required times only influence which cut is preferred.  They are not modelled: every comparison of costs is
answered by a `Heur` value, one for every round and node, and the theorems hold for all of them.
-/

namespace Verif.Mapper
open Cuts

variable {β : Type}

/-- All decisions that depend on costs while one node is processed in one round. `lt` is `operator<` of cuts
in the sort mode of the round (general_cut_enumeration.hpp), `cost` the cost data of a new cut
(klut_mapping.hpp 857-869), `accept` and `acceptChoice` the tests of the delay of the first cut against the
required time (353-355 and 418-419), `skip` the test of line 401 for a cut of the given choice node. -/
structure Heur (β : Type) where
  lt : Cut (FData β) → Cut (FData β) → Bool
  cost : Cut (FData β) → β
  accept : Cut (FData β) → Bool
  acceptChoice : Cut (FData β) → Bool
  skip : Nat → Cut (FData β) → Bool

/-- the members `_cuts`, `_truth_tables` and `_best_cuts` of `network_cuts`, cut_enumeration.hpp 304-316 -/
structure MapSt (β : Type) where
  sets : List (CutSet (FData β))
  cache : TTCache
  best : List (Cut (FData β))

/-- `network_cuts( size )`, cut_enumeration.hpp 162-171, as constructed in klut_mapping.hpp 140 -/
def MapSt.init (cost : β) (size : Nat) : MapSt β :=
  let c := CutNet.init cost size
  ⟨c.sets, c.cache, List.replicate size ⟨[], 0, ⟨0, cost⟩⟩⟩

/-- `cuts( n ).best()`, cut_set.hpp 107-115: the first pointer, also if the set is empty -/
def MapSt.first (st : MapSt β) (n : Nat) : Option (Cut (FData β)) :=
  match st.sets[n]? with
  | none => none
  | some s => (s.ptrs[0]?).map s.store

/-- `set_best_cut( n, cuts( n ).best() )`, cut_enumeration.hpp 181 -/
def MapSt.setBest (st : MapSt β) (n : Nat) : Option (MapSt β) :=
  match st.first n with
  | none => none
  | some c => if n < st.best.length then some { st with best := st.best.set n c } else none

/-- `add_unit_cut( n )`, cut_enumeration.hpp 244-252 -/
def MapSt.addUnit (st : MapSt β) (n : Nat) : Option (MapSt β) :=
  match st.sets[n]? with
  | none => none
  | some s =>
    match s.addFixed [n] 2 with
    | none => none
    | some s' => some { st with sets := st.sets.set n s' }

/-- unit cuts and best cuts of the constant and of the inputs, klut_mapping.hpp 199-211 -/
def initCuts : List Nat → MapSt β → Option (MapSt β)
  | [], st => some st
  | n :: l, st =>
    match st.addUnit n with
    | none => none
    | some st =>
      match st.setBest n with
      | none => none
      | some st => initCuts l st

/-- `_lcuts[i]->insert( get_best_cut( child ) )`, klut_mapping.hpp 834-835 -/
def MapSt.insertBest (lt : Cut (FData β) → Cut (FData β) → Bool) (st : MapSt β) (m : Nat) : Option (MapSt β) :=
  match st.sets[m]?, st.best[m]? with
  | some s, some b =>
    match s.insert maxCutNum lt b with
    | none => none
    | some s' => some { st with sets := st.sets.set m s' }
  | _, _ => none

/-- parameters of the cut enumeration for one node -/
def cutParams (p : CutPs) (h : Heur β) : Params β := ⟨p.cutSize, p.cutLimit, p.minimize, h.lt, fun _ c => h.cost c⟩

/-- `merge_cuts`, klut_mapping.hpp 802-884.  The loops are those of `cut_enumeration` with the same body;
`compute_truth_table`, 886-922, is the same function as in cut_enumeration.hpp 453-491. -/
def mergeCuts (p : CutPs) (N : Aig) (h : Heur β) (st : MapSt β) (n : Nat) : Option (MapSt β) :=
  match N.nodes[n]?, st.sets[n]? with
  | some nd, some s =>
    match MapSt.insertBest h.lt { st with sets := st.sets.set n (s.clear maxCutNum) } nd.c0.index with
    | none => none
    | some st =>
      match st.insertBest h.lt nd.c1.index with
      | none => none
      | some st =>
        match st.sets[nd.c0.index]?, st.sets[nd.c1.index]?, st.sets[n]? with
        | some s0, some s1, some s =>
          match mergeLoop (cutParams p h) N n (st.cache, s) (pairs s0.view s1.view) with
          | none => none
          | some (cache, r) =>
            match finish (cutParams p h) n r with
            | none => none
            | some r' => some { st with sets := st.sets.set n r', cache := cache }
        | _, _, _ => none
  | _, _ => none

/-- `perform_mapping_and`, klut_mapping.hpp 331-368, without the reference counts. In the first round the
required times still have their initial value, the largest `float` (52), so that the test of 354 succeeds. -/
def mapAnd (p : CutPs) (N : Aig) (h : Heur β) (first : Bool) (st : MapSt β) (n : Nat) : Option (MapSt β) :=
  match mergeCuts p N h st n with
  | none => none
  | some st =>
    match st.first n with
    | none => none
    | some c => if c.leaves.length < 1 ∨ (first || h.accept c) = true then st.setBest n else some st

/-- `tc->func_id ^= 1`, klut_mapping.hpp 403-407 -/
def flipFunc (phase : Bool) (c : Cut (FData β)) : Cut (FData β) :=
  if phase then { c with data := { c.data with func := c.data.func ^^^ 1 } } else c

/-- the loop over the cuts of the choice node `m`, klut_mapping.hpp 396-409 -/
def insertChoices (h : Heur β) (m : Nat) (phase : Bool) : List (Cut (FData β)) → CutSet (FData β) → Option (CutSet (FData β))
  | [], s => some s
  | c :: l, s =>
    if c.leaves.length < 2 ∨ h.skip m c = true then insertChoices h m phase l s
    else
      match s.insert maxCutNum h.lt (flipFunc phase c) with
      | none => none
      | some s => insertChoices h m phase l s

/-- the loop over the choice nodes, klut_mapping.hpp 388-414; the list holds the nodes behind `n` in its class. -/
def choiceLoop (p : CutPs) (N : Aig) (h : Heur β) (n : Nat) : List Nat → MapSt β → Option (MapSt β)
  | [], st => some st
  | m :: l, st =>
    match st.sets[m]?, st.sets[n]? with
    | some sm, some s =>
      if sm.len = 0 then choiceLoop p N h n l st
      else
        match insertChoices h m (Bool.xor (N.phaseOf n) (N.phaseOf m)) sm.view s with
        | none => none
        | some s =>
          match s.limit (limitArg p.cutLimit) with
          | none => none
          | some s => choiceLoop p N h n l { st with sets := st.sets.set n s }
    | _, _ => none

/-- `perform_mapping_and_choice`, klut_mapping.hpp 377-435, without the reference counts -/
def mapChoice (p : CutPs) (C : Choice) (h : Heur β) (first : Bool) (st : MapSt β) (n : Nat) : Option (MapSt β) :=
  match C.equivs[n]? with
  | none => none
  | some e =>
    match C.chain (C.equivs.length + 1) e with
    | none => none
    | some l =>
      match choiceLoop p C.net h n l st with
      | none => none
      | some st =>
        match st.first n with
        | none => none
        | some c =>
          match if (first || h.acceptChoice c) = true then st.setBest n else some st with
          | none => none
          | some st => st.addUnit n

/-- one pass of the loop of `perform_mapping_round`, klut_mapping.hpp 298-310, with `is_repr`,
aig_with_choice.hpp 67-70 -/
def mapNode (p : CutPs) (C : Choice) (h : Heur β) (first : Bool) (st : MapSt β) (n : Nat) : Option (MapSt β) :=
  if C.net.isCi n = true ∨ n = 0 then some st
  else
    match mapAnd p C.net h first st n with
    | none => none
    | some st =>
      match C.equivs[n]? with
      | none => none
      | some e => if e.isSome = true ∧ C.net.fanoutSize n > 0 then mapChoice p C h first st n else some st

/-- `perform_mapping_round`, klut_mapping.hpp 262-321: the nodes in the given order -/
def mapRound (p : CutPs) (C : Choice) (H : Nat → Heur β) (first : Bool) : List Nat → MapSt β → Option (MapSt β)
  | [], st => some st
  | n :: l, st =>
    match mapNode p C (H n) first st n with
    | none => none
    | some st => mapRound p C H first l st

/-- the rounds of `perform_mapping`, klut_mapping.hpp 217-249; `k` numbers the rounds. -/
def mapRounds (p : CutPs) (C : Choice) (H : Nat → Nat → Heur β) (order : List Nat) : Nat → List Bool → MapSt β → Option (MapSt β)
  | _, [], st => some st
  | k, first :: l, st =>
    match mapRound p C (H k) first order st with
    | none => none
    | some st => mapRounds p C H order (k + 1) l st

/-! ### topological order -/

/-- visited marks and the filled part of `topo_order` (the rest of the vector holds the constant, which every
loop over it skips) -/
structure TopoSt where
  vis : Nat → Bool
  order : List Nat

/-- `set_visited( n, 1u )` -/
def TopoSt.mark (s : TopoSt) (n : Nat) : TopoSt := { s with vis := fun k => if k = n then true else s.vis k }

/-- `dfs_topo_sort_rec`, klut_mapping.hpp 952-969; the children of an input are the node its position in the
list of inputs is read as.  The first argument bounds the recursion depth. -/
def dfs (C : Choice) : Nat → Nat → TopoSt → Option TopoSt
  | 0, _, _ => none
  | f + 1, n, s =>
    if s.vis n = true then some s
    else
      match C.equivs[n]?, C.net.nodes[n]? with
      | some e, some nd =>
        match (match e with
          | none => some s
          | some m => dfs C f m s) with
        | none => none
        | some s =>
          match dfs C f nd.c0.index (s.mark n) with
          | none => none
          | some s =>
            match dfs C f nd.c1.index s with
            | none => none
            | some s => some { s with order := s.order ++ [n] }
      | _, _ => none

/-- the loop over the outputs in `topologize`, klut_mapping.hpp 940-944 -/
def dfsAll (C : Choice) (fuel : Nat) : List Sig → TopoSt → Option TopoSt
  | [], s => some s
  | o :: l, s =>
    match dfs C fuel o.index s with
    | none => none
    | some s => dfsAll C fuel l s

/-- `topologize`, klut_mapping.hpp 935-947; the recursion cannot be deeper than the number of nodes unless it
does not end. -/
def topologize (C : Choice) : Option (List Nat) :=
  (dfsAll C (C.net.nodes.length + 1) C.net.outputs (TopoSt.mark ⟨fun _ => false, []⟩ 0)).map (·.order)

/-! ### the final cover -/

/-- writing one reference count -/
def setRef (r : Nat → Nat) (n v : Nat) : Nat → Nat := fun k => if k = n then v else r k

/-- a loop over leaves or outputs that calls `mark_ref_rec` -/
def markAll (rec : Nat → (Nat → Nat) → Option (Nat → Nat)) : List Nat → (Nat → Nat) → Option (Nat → Nat)
  | [], r => some r
  | n :: l, r =>
    match rec n r with
    | none => none
    | some r => markAll rec l r

/-- `mark_ref_rec`, klut_mapping.hpp 564-575; the first argument bounds the recursion depth. -/
def markRec (N : Aig) (best : List (Cut (FData β))) : Nat → Nat → (Nat → Nat) → Option (Nat → Nat)
  | 0, _, _ => none
  | f + 1, n, r =>
    if n ≥ N.nodes.length then none
    else
      let r' := setRef r n (r n + 1)
      if r n ≠ 0 ∨ N.isCi n = true ∨ n = 0 then some r'
      else
        match best[n]? with
        | none => none
        | some c => markAll (markRec N best f) c.leaves (setRef r' n (r' n + 1))

/-- the loop of `derive_final_mapping`, klut_mapping.hpp 593-614, over the reversed order -/
def addCells (N : Aig) (st : MapSt β) (r : Nat → Nat) : List Nat → Mapping → Option Mapping
  | [], M => some M
  | n :: l, M =>
    if r n = 0 ∨ N.isCi n = true ∨ n = 0 then addCells N st r l M
    else
      match st.best[n]? with
      | none => none
      | some c =>
        match st.cache.lookup c.data.func, M.add n c.leaves with
        | some t, some M =>
          match M.setFunction n t with
          | none => none
          | some M => addCells N st r l M
        | _, _ => none

/-- `derive_final_mapping`, klut_mapping.hpp 581-618, into a new mapping view. Only the primary outputs are
followed. -/
def derive (N : Aig) (order : List Nat) (st : MapSt β) : Option Mapping :=
  match markAll (markRec N st.best (N.nodes.length + 1)) ((N.outputs.take N.numPos).map (·.index)) (fun _ => 0) with
  | none => none
  | some r => addCells N st r order.reverse (Mapping.init N.nodes.length)

/-- `klut_mapping_impl::run`, klut_mapping.hpp 147-161 with `perform_mapping`, 194-253, on a fresh mapping view of
an AIG with choices. `cost` is the content of default constructed cost data. -/
def klutMap (p : Ps) (C : Choice) (H : Nat → Nat → Heur β) (cost : β) : Option Mapping :=
  match initCuts (0 :: C.net.inputs) (MapSt.init cost C.net.nodes.length) with
  | none => none
  | some st =>
    match topologize C with
    | none => none
    | some order =>
      match mapRounds p.cut C H order 0 ((run p).map (·.first)) st with
      | none => none
      | some st => derive C.net order st

end Verif.Mapper
