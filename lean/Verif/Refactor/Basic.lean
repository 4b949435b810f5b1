import Verif.Sop.Basic
import Verif.Aig.Subst
import Verif.Aig.Cleanup

set_option autoImplicit false

/-!
# Refactoring

Model of `include/operations/optimization/refactor.hpp` 38-605 for AIGs with `sop_factoring` and `unit_cost`.  The user
values of the nodes are kept apart from the network in a `Vals`, as in the model of rewriting.

Outcomes other than a network: `bound` is a run whose recursion exceeds the bound `f` (or does not terminate, or erases
a fanin pair that the hash table does not contain, see `Verif/Aig/Subst.lean`); `undefined` is an access that C++
leaves undefined, e.g. `find( n )->second` for a node without entry.
-/

namespace Verif.Refactor

open Verif.RefDeref
open Verif.Topo (St updateTopo visOf)

/-- why there is no result -/
inductive Stop
  | bound
  | undefined
deriving DecidableEq, Repr

/-- result of a computation that a too small bound cuts off -/
def orBound {α : Type} : Option α → Except Stop α
  | some a => .ok a
  | none => .error .bound

/-- result of an access to an entry that has to exist -/
def orUndefined {α : Type} : Option α → Except Stop α
  | some a => .ok a
  | none => .error .undefined

/-- sequencing -/
def andThen {α β : Type} (r : Except Stop α) (k : α → Except Stop β) : Except Stop β :=
  match r with
  | .ok a => k a
  | .error e => .error e

/-- `refactor_params`, refactor.hpp 41-52 -/
structure RfParams where
  maxLeaves : Nat
  maxCone : Nat
  allowDepthUp : Bool
  allowZeroGain : Bool

/-- `_depth_map`, `_r_depth_map`, refactor.hpp 585-586, as a list in which the first entry of a node counts.
Simplification: depths are natural numbers. -/
abbrev Depths := List (Nat × Nat)

/-- the entry of a node -/
def Depths.get? (d : Depths) (n : Nat) : Option Nat := (d.find? fun p => p.1 == n).map (·.2)

/-- assignment to an entry, or insertion of a new one -/
def Depths.put (d : Depths) (n : Nat) (x : Nat) : Depths := (n, x) :: d

/-- `insert`: an existing entry stays -/
def Depths.insert (d : Depths) (n : Nat) (x : Nat) : Depths := d ++ [(n, x)]

/-- `_fanouts_map`, refactor.hpp 588, as a list in which the first entry of a node counts.  Simplification: a
`std::unordered_set` is a list without duplicates in the order of insertion. -/
abbrev Fanouts := List (Nat × List Nat)

/-- the set of a node -/
def Fanouts.get? (fo : Fanouts) (n : Nat) : Option (List Nat) := (fo.find? fun p => p.1 == n).map (·.2)

/-- insertion of `n` into the set of `m`, refactor.hpp 190-199 and 538-547 -/
def Fanouts.add (fo : Fanouts) (n m : Nat) : Fanouts :=
  match fo.get? m with
  | some l => if n ∈ l then fo else (m, l ++ [n]) :: fo
  | none => (m, [n]) :: fo

/-- the visited marks of all nodes, `clear_visited` / `set_visited`, aig_network.hpp 1241-1254 -/
def setMarks (N : Aig) (g : Nat → Nat) : Aig :=
  { N with nodes := N.nodes.mapIdx fun i nd => { nd with visited := g i } }

/-- construction of a `topo_view`, topo_view.hpp 90-104 and 197-238, with its effect on marks and traversal id -/
def view (N : Aig) (f : Nat) : Option (Aig × List Nat) :=
  match updateTopo (aigKids N) N.inputs (N.outputs.map (·.index)) (visOf N) N.travId f with
  | none => none
  | some s => some ({ setMarks N s.vis with travId := N.travId + 2 }, s.order)

/-- the loop over the fanins in `compute_depth_info`, refactor.hpp 139-145 -/
def depthKids (d : Depths) : List Nat → Nat → Except Stop Nat
  | [], m => .ok m
  | k :: l, m => andThen (orUndefined (d.get? k)) fun x => depthKids d l (if x + 1 > m then x + 1 else m)

/-- `compute_depth_info`, refactor.hpp 130-151: the map and `_depth_max` -/
def initDepth (N : Aig) : List Nat → Depths → Nat → Except Stop (Depths × Nat)
  | [], d, top => .ok (d, top)
  | n :: l, d, top =>
    let d := if N.isPi n then d.insert n 0 else d
    andThen (depthKids d (aigKids N n) 0) fun m => initDepth N l (d.insert n m) (if m > top then m else top)

/-- the loop over the fanins in `compute_reverse_depth_info`, refactor.hpp 175-180 -/
def reverseKids (N : Aig) (cur : Nat) : List Nat → Depths → Except Stop Depths
  | [], d => .ok d
  | k :: l, d =>
    if N.isPi k then reverseKids N cur l d
    else andThen (orUndefined (d.get? k)) fun x => reverseKids N cur l (if x < cur + 1 then d.put k (cur + 1) else d)

/-- the second loop of `compute_reverse_depth_info`, refactor.hpp 168-181 -/
def reverseLoop (N : Aig) : List Nat → Depths → Except Stop Depths
  | [], d => .ok d
  | n :: l, d =>
    if N.isPi n then reverseLoop N l d
    else andThen (orUndefined (d.get? n)) fun cur => andThen (reverseKids N cur (aigKids N n) d) fun d => reverseLoop N l d

/-- `compute_reverse_depth_info`, refactor.hpp 156-182 -/
def initReverse (N : Aig) (order : List Nat) : Except Stop Depths :=
  reverseLoop N order.reverse (order.foldl (fun d n => if N.isPi n then d else d.insert n 1) [])

/-- entries of the fanins of one node -/
def addFanins (N : Aig) (fo : Fanouts) (n : Nat) : Fanouts := (aigKids N n).foldl (fun fo m => fo.add n m) fo

/-- `compute_fanouts_info`, refactor.hpp 187-200 (a network without dead nodes) -/
def initFanouts (N : Aig) : Fanouts := (List.range N.size).foldl (addFanins N) []

/-- `init_nodes_defered_size`, refactor.hpp 120-125; a new node has value 0 -/
def initVals (N : Aig) : Vals := fun n => BitVec.ofNat 32 (N.fanoutSize n)

/-! ### the cut -/

/-- `compute_leaf_cost`, refactor.hpp 289-308; `none` is `INT_MAX`, `seen` are the nodes with a visited mark -/
def leafCost (N : Aig) (seen : List Nat) (leaf : Nat) : Option Nat :=
  match N.nodes[leaf]? with
  | none => none
  | some nd =>
    if N.isCi leaf then none
    else
      let cost := (if nd.c0.index ∈ seen then 0 else 1) + (if nd.c1.index ∈ seen then 0 else 1)
      if cost < 2 then some cost
      else if N.fanoutSize leaf > 2 then none
      else some cost

/-- `<` on costs with `none` = `INT_MAX` -/
def costLt : Option Nat → Option Nat → Bool
  | some a, some b => decide (a < b)
  | some _, none => true
  | none, _ => false

/-- the loop over the leaves in `one_level_build_cut`, refactor.hpp 231-251, with `best_cost`, `best_fanin` and
`best_fanin_level` (`none` is `INT_MAX`) -/
def pickLeaf (N : Aig) (d : Depths) (seen : List Nat) :
    List Nat → Option Nat → Nat → Option Nat → Except Stop (Option Nat × Nat)
  | [], cost, best, _ => .ok (cost, best)
  | leaf :: l, cost, best, level =>
    andThen (orUndefined (d.get? leaf)) fun x =>
      let cur := leafCost N seen leaf
      let higher := match level with
        | some y => decide (x > y)
        | none => false
      if costLt cur cost || (cur == cost && higher) then
        if cur = some 0 then .ok (cur, leaf) else pickLeaf N d seen l cur leaf (some x)
      else pickLeaf N d seen l cost best level

/-- fanins of a removed leaf become leaves unless they are marked, refactor.hpp 274-280 -/
def addKids : List Nat → List Nat → List Nat → List Nat × List Nat
  | [], seen, leaves => (seen, leaves)
  | k :: l, seen, leaves => if k ∈ seen then addKids l seen leaves else addKids l (seen ++ [k]) (leaves ++ [k])

/-- `while ( one_level_build_cut() )`, refactor.hpp 221-222 and 229-284: marked nodes and leaves -/
def growCut (N : Aig) (d : Depths) (maxLeaves : Nat) :
    Nat → List Nat → List Nat → Except Stop (List Nat × List Nat)
  | 0, _, _ => .error .bound
  | f + 1, seen, leaves =>
    andThen (pickLeaf N d seen leaves none 0 none) fun r =>
      match r with
      | (none, _) => .ok (seen, leaves)
      | (some cost, best) =>
        if best = 0 then .ok (seen, leaves)
        else if leaves.length - 1 + cost > maxLeaves then .ok (seen, leaves)
        else
          let q := addKids (aigKids N best) seen (leaves.erase best)
          growCut N d maxLeaves f q.1 q.2

/-- `compute_reconvergence_driven_cut`, refactor.hpp 205-224 -/
def reconvCut (N : Aig) (d : Depths) (maxLeaves f root : Nat) : Except Stop (List Nat × List Nat) :=
  growCut N d maxLeaves f (root :: aigKids N root) (aigKids N root)

/-! ### the cone -/

/-- `cone_nodes` and `_visited_nodes` of `collect_cone_nodes` -/
structure Cone where
  nodes : List Nat
  order : List Nat

/-- the `foreach_fanin` loop of `dfs_collect_cone_nodes`, refactor.hpp 338-339 -/
def coneKids (rec : Nat → Cone → Option Cone) : List Nat → Cone → Option Cone
  | [], c => some c
  | k :: l, c => match rec k c with
    | none => none
    | some c => coneKids rec l c

/-- `dfs_collect_cone_nodes`, refactor.hpp 331-342 -/
def coneRec (N : Aig) : Nat → Nat → Cone → Option Cone
  | 0, _, _ => none
  | f + 1, n, c =>
    if n ∈ c.nodes ∨ N.isPi n = true then some c
    else match coneKids (coneRec N f) (aigKids N n) c with
      | none => none
      | some c => some ⟨c.nodes ++ [n], c.order ++ [n]⟩

/-- `tts_map`; `find?` gives the first entry, as `insert` keeps an existing one -/
abbrev Tables := List (Nat × TT)

/-- `tts_map.find( n )` -/
def Tables.get? (t : Tables) (n : Nat) : Option TT := (t.find? fun p => p.1 == n).map (·.2)

/-- the tables of the leaves, refactor.hpp 351-370, for distinct leaves -/
def leafTables (leaves : List Nat) : Tables := leaves.mapIdx fun k l => (l, TT.nthVar leaves.length k)

/-- `tt` or `~tt` -/
def edge (t : TT) (c : Bool) : TT := if c then t.not else t

/-- the loop over the cone, refactor.hpp 372-413.  Simplification: a fanin without table, for which `operator[]`
creates an empty table, is `undefined` (the operands of `binary_and` then have different sizes). -/
def coneTables (N : Aig) : List Nat → Tables → Except Stop Tables
  | [], t => .ok t
  | n :: l, t =>
    if N.isPi n then coneTables N l t
    else andThen (orUndefined N.nodes[n]?) fun nd =>
      andThen (orUndefined (t.get? nd.c0.index)) fun t0 =>
        andThen (orUndefined (t.get? nd.c1.index)) fun t1 =>
          coneTables N l (t ++ [(n, (edge t0 nd.c0.compl).and (edge t1 nd.c1.compl))])

/-- `compute_cone_tt`, refactor.hpp 347-416 -/
def coneTT (N : Aig) (leaves order : List Nat) (root : Nat) : Except Stop TT :=
  andThen (coneTables N order (leafTables leaves)) fun t => orUndefined (t.get? root)

/-! ### replacement -/

/-- the variables of `refactor_impl` that change while gates are visited -/
structure State where
  net : Aig
  vals : Vals
  depth : Depths
  fanouts : Fanouts

/-- the loop over the fanins in `recursive_update_depth`, refactor.hpp 499-506 -/
def updateKids (rec : Nat → Depths → Except Stop (Depths × Nat)) (leaves : List Nat) :
    List Nat → Depths → Nat → Except Stop (Depths × Nat)
  | [], d, m => .ok (d, m)
  | k :: l, d, m =>
    if k ∈ leaves then andThen (orUndefined (d.get? k)) fun x => updateKids rec leaves l d (max m (1 + x))
    else andThen (rec k d) fun q => updateKids rec leaves l q.1 (max m (1 + q.2))

/-- `recursive_update_depth`, refactor.hpp 494-520 -/
def updateDepth (N : Aig) (leaves : List Nat) : Nat → Nat → Depths → Except Stop (Depths × Nat)
  | 0, _, _ => .error .bound
  | f + 1, n, d =>
    andThen (updateKids (updateDepth N leaves f) leaves (aigKids N n) d 0) fun q => .ok (q.1.put n q.2, q.2)

/-- `update_fanouts_info`, refactor.hpp 525-549 -/
def updateFanouts (N : Aig) (order : List Nat) (old new : Nat) (fo : Fanouts) : Fanouts :=
  let fo := match fo.get? old with
    | none => fo
    | some l => (if (fo.get? new).isSome then fo else (new, l) :: fo).filter fun p => p.1 != old
  order.foldl (addFanins N) fo

/-- the loop in `recursive_update_fanouts_depth`, refactor.hpp 564-572 -/
def fanoutKids (rec : Nat → Depths → Except Stop Depths) (top : Nat) : List Nat → Depths → Except Stop Depths
  | [], d => .ok d
  | k :: l, d => andThen (orUndefined (d.get? k)) fun x =>
    if x < top + 1 then andThen (rec k (d.put k (top + 1))) fun d => fanoutKids rec top l d
    else fanoutKids rec top l d

/-- `recursive_update_fanouts_depth`, refactor.hpp 554-573 -/
def fanoutDepths (fo : Fanouts) : Nat → Nat → Depths → Except Stop Depths
  | 0, _, _ => .error .bound
  | f + 1, n, d =>
    match fo.get? n with
    | none => .ok d
    | some l => andThen (orUndefined (d.get? n)) fun top => fanoutKids (fanoutDepths fo f) top l d

/-- the values written by `sub_ntk_replace`, refactor.hpp 474-479 -/
def replacedVals (N : Aig) (old new : Nat) (leaves : List Nat) (v : Vals) : Vals :=
  let put (v : Vals) (n : Nat) : Vals := fun k => if k = n then BitVec.ofNat 32 (N.fanoutSize n) else v k
  leaves.foldl put (put (fun k => if k = old then 0 else v k) new)

/-- the condition in `on_signal`, refactor.hpp 440-444, with 32-bit arithmetic for `reuqire_depth` -/
def accepts (P : RfParams) (saved added top rd cur root new : Nat) : Bool :=
  (decide ((saved : Int) - added > 0) || (P.allowZeroGain && decide ((saved : Int) - added = 0))) &&
    (decide (cur ≤ (top + 1 + (2 ^ 32 - rd)) % 2 ^ 32) || P.allowDepthUp) && root != new

/-- `on_signal`, refactor.hpp 431-457, with `sub_ntk_replace` (466-480) -/
def onSignal (P : RfParams) (f top : Nat) (rdepth : Depths) (root : Nat) (leaves order : List Nat) (s : State)
    (g : Sig) : Except Stop State :=
  andThen (orBound (deref (aigParam s.net) f root s.vals)) fun q1 =>
    andThen (orBound (ref (aigParam s.net) f g.index q1.1)) fun q2 =>
      andThen (orUndefined (rdepth.get? root)) fun rd =>
        andThen (updateDepth s.net leaves f g.index s.depth) fun q3 =>
          if accepts P q1.2 q2.2 top rd q3.2 root g.index then
            andThen (orBound (s.net.substituteNode f root g)) fun M =>
              let fo := updateFanouts M order root g.index s.fanouts
              andThen (fanoutDepths fo f g.index q3.1) fun d =>
                .ok ⟨M, replacedVals M root g.index leaves q2.1, d, fo⟩
          else
            andThen (orBound (deref (aigParam s.net) f g.index q2.1)) fun q4 =>
              andThen (orBound (ref (aigParam s.net) f root q4.1)) fun q5 =>
                .ok { s with vals := q5.1, depth := q3.1 }

/-- bound on the recursion of the factoring procedure that suffices for `t` (`Sop.genFactor_spec`) -/
def factorFuel (t : TT) : Nat :=
  match Sop.getIsop t with
  | none => 0
  | some (cs, _) => Sop.lits (Sop.ofCubes cs t.n) + 66

/-- `replace_sub_ntk`, refactor.hpp 421-461 -/
def replaceSub (P : RfParams) (f top : Nat) (rdepth : Depths) (root : Nat) (leaves order : List Nat) (t : TT)
    (s : State) : Except Stop State :=
  andThen (orBound (Sop.factor s.net t (leaves.map fun l => ⟨l, false⟩) (factorFuel t))) fun r =>
    onSignal P f top rdepth root leaves order { s with net := r.1 } r.2

/-- the lambda in `run`, refactor.hpp 81-102, with the filter of `foreach_gate`, aig_network.hpp 1082-1089 -/
def gateStep (P : RfParams) (f top : Nat) (rdepth : Depths) (s : State) (n : Nat) : Except Stop State :=
  if s.net.isCi n ∨ s.net.isDead n ∨ s.net.fanoutSize n > 1000 then .ok s
  else
    andThen (reconvCut s.net s.depth P.maxLeaves f n) fun q =>
      let N := setMarks s.net fun k => if k ∈ q.1 then 1 else 0
      andThen (orBound (coneRec N f n ⟨q.2, []⟩)) fun c =>
        if c.order.length ≠ 1 ∧ c.order.length ≤ P.maxCone then
          andThen (coneTT N q.2 c.order n) fun t =>
            replaceSub P f top rdepth n q.2 c.order t { s with net := N }
        else .ok { s with net := N }

/-- the loop over the gates, refactor.hpp 81-102 -/
def gateLoop (P : RfParams) (f top : Nat) (rdepth : Depths) : List Nat → State → Except Stop State
  | [], s => .ok s
  | n :: l, s => andThen (gateStep P f top rdepth s n) fun s => gateLoop P f top rdepth l s

/-- `init` and `run` without the final `cleanup_dangling`, refactor.hpp 76-102 and 109-115 -/
def refactorCore (P : RfParams) (f : Nat) (N : Aig) : Except Stop Aig :=
  andThen (orBound (view N f)) fun v1 =>
    andThen (initDepth v1.1 v1.2 [] 0) fun q =>
      andThen (orBound (view v1.1 f)) fun v2 =>
        andThen (initReverse v2.1 v2.2) fun rd =>
          andThen (gateLoop P f q.2 rd ((List.range v2.1.nodes.length).drop 1)
            ⟨v2.1, initVals N, q.1, initFanouts v2.1⟩) fun s => .ok s.net

/-- `refactor`, refactor.hpp 592-605 -/
def refactor (P : RfParams) (f : Nat) (N : Aig) : Except Stop Aig :=
  andThen (refactorCore P f N) fun M => orBound (Aig.cleanupDangling M f)

end Verif.Refactor
