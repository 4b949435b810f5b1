import Mathlib.Data.Rat.Defs
import Verif.Mapping.Map
import Verif.Mapping.Area

set_option autoImplicit false

/-!
# The LUT mapper with its costs

Model of `klut_mapping_impl`, `include/operations/algorithms/klut_mapping.hpp` 147-797, with delays, area flow, exact area, estimated references and
required times. `Mapping/Map.lean` answers every comparison of costs by an oracle; here the oracle is computed, and the rest of the mapper is the same.
Simplification: areas and edge counts are rational numbers instead of `float`. Delays are natural numbers and required times integers: the code only
adds and subtracts 1, so that they are exact as `float` below 2^24.
-/

namespace Verif.Mapper.Timed
open Cuts
open RefDeref (Vals)

/-- `general_cut_data`, include/database/cut/detail/cut_data.hpp 35-42; `power` and `useless` are 0 in all cuts. -/
structure Cost where
  delay : Nat
  area : Rat
  edge : Rat
deriving DecidableEq, Repr

/-- `gv_eps`, general_cut_enumeration.hpp 23, and `fEpsilon`, klut_mapping.hpp 186 -/
def eps : Rat := 5 / 1000

/-- two tests with tolerance as in general_cut_enumeration.hpp 46-49: smaller, larger or neither -/
def cmp (x y : Rat) : Ordering := if x < y - eps then .lt else if x > y + eps then .gt else .eq

/-- `operator<` of cuts, general_cut_enumeration.hpp 32-125; delays are integers, the tolerance is below 1. -/
def less (m : Cmp) (c d : Cut (FData Cost)) : Bool :=
  let delay := compare c.data.cost.delay d.data.cost.delay
  let size := compare c.leaves.length d.leaves.length
  let area := cmp c.data.cost.area d.data.cost.area
  let edge := cmp c.data.cost.edge d.data.cost.edge
  (match m with
   | .delay => ((delay.then size).then area).then edge
   | .delay2 => ((delay.then area).then edge).then size
   | .area => ((area.then edge).then delay).then size
   | .default => delay.then size) == .lt

/-- State of the mapper: cuts, `refs`, `est_refs` and `require_times` (klut_mapping.hpp 59-66; `none` is the largest `float`). `arrival_times[n]` is the
delay of the best cut of `n` as soon as `n` has been processed (201, 208, 358, 422). -/
structure St where
  map : MapSt Cost
  refs : Vals
  est : Nat → Rat
  req : Nat → Option Int

/-- delay of the best cut of a leaf, klut_mapping.hpp 637-638; a default constructed cut has delay 0, and leaves are nodes, so that `none` does not occur. -/
def bestDelay (st : MapSt Cost) (n : Nat) : Nat :=
  match st.best[n]? with
  | some c => c.data.cost.delay
  | none => 0

/-- `cut_delay`, klut_mapping.hpp 632-641 -/
def cutDelay (st : MapSt Cost) : List Nat → Nat
  | [] => 0
  | l :: ls => max (bestDelay st l + 1) (cutDelay st ls)

/-- `cut_area_flow` and `cut_edge_flow`, klut_mapping.hpp 742-797: `get` selects area or edge, `acc` starts with 1 or the number of leaves. -/
def flow (get : Cost → Rat) (S : St) : List Nat → Rat → Rat
  | [], acc => acc
  | l :: ls, acc =>
    let x := match S.map.best[l]? with
      | some c => get c.data.cost
      | none => 0
    let add := if S.refs l = 0 ∨ l = 0 then x else x / S.est l
    flow get S ls (if acc ≥ 10 ^ 32 ∨ add ≥ 10 ^ 32 then 10 ^ 32 else if acc + add ≥ 10 ^ 32 then 10 ^ 32 else acc + add)

/-- the leaves of the best cuts (`get_best_cut`), as read by the probing functions, klut_mapping.hpp 652, 665 -/
def cover (C : Choice) (st : MapSt Cost) : Cover :=
  ⟨C.net, fun n => match st.best[n]? with
    | some c => c.leaves
    | none => []⟩

/-- `cut_area_derefed` and `cut_edge_derefed`, klut_mapping.hpp 670-678 and 717-727, as a value. Simplification: the counters
afterwards are dropped; without registers and choices the recursion ends and the counters are the same (`probing_pure`, by C37). -/
def exact (C : Choice) (S : St) (cost : List Nat → Nat) (cut : List Nat) : Rat :=
  match cutDerefed (cover C S.map) cost (C.net.nodes.length + 1) cut S.refs with
  | some (_, a) => a
  | none => 0

/-- the cost data of a new cut, klut_mapping.hpp 857-869 -/
def newCost (C : Choice) (m : Mode) (S : St) (c : Cut (FData Cost)) : Cost :=
  if m = .area then ⟨cutDelay S.map c.leaves, exact C S (fun _ => 1) c.leaves, exact C S List.length c.leaves⟩
  else ⟨cutDelay S.map c.leaves, flow (·.area) S c.leaves 1, flow (·.edge) S c.leaves c.leaves.length⟩

/-- the test against the required time, klut_mapping.hpp 354-355 and 418-419: delays are integers, the tolerance is below 1. -/
def inTime (req : Option Int) (c : Cut (FData Cost)) : Bool :=
  match req with
  | none => true
  | some r => decide ((c.data.cost.delay : Int) ≤ r)

/-- All decisions while `n` is processed. The test of line 401 compares the number of the round's mode with `ETC_DELAY`, which is 1 (cut.hpp 36). -/
def heur (C : Choice) (r : Round) (S : St) (n : Nat) : Heur Cost :=
  { lt := less r.ps.eSortMode
    cost := newCost C r.ps.eCutMode S
    accept := inTime (S.req n)
    acceptChoice := inTime (S.req n)
    skip := fun m c => r.mode != 1 && !inTime (S.req m) c }

/-- the estimated references, klut_mapping.hpp 334-341 -/
def estimate (r : Round) (S : St) (n : Nat) : St :=
  let refs : Rat := (S.refs n).toNat
  let e := if r.mode = 0 then refs else if r.mode = 1 then (refs + 2 * S.est n) / 3 else S.est n
  { S with est := fun k => if k = n then e else S.est k }

/-- `if( mode && refs[n] > 0u ) cut_area_deref( get_best_cut( n ) )`, klut_mapping.hpp 344-347 and 380-383; with `cut_area_ref`
362-365 and 429-432 -/
def probe (f : Cover → (List Nat → Nat) → Nat → List Nat → Vals → Option (Vals × Nat)) (C : Choice) (r : Round) (S : St) (n : Nat) : Option St :=
  if r.mode ≠ 0 ∧ S.refs n ≠ 0 then
    match f (cover C S.map) (fun _ => 1) (C.net.nodes.length + 1) ((cover C S.map).best n) S.refs with
    | none => none
    | some (v, _) => some { S with refs := v }
  else some S

/-- `perform_mapping_and`, klut_mapping.hpp 331-368, then `perform_mapping_and_choice`, 377-435, for a node of the loop 298-310 -/
def node (p : CutPs) (C : Choice) (r : Round) (S : St) (n : Nat) : Option St :=
  if C.net.isCi n = true ∨ n = 0 then some S
  else
    match probe cutDeref C r (estimate r S n) n with
    | none => none
    | some S =>
      match mapAnd p C.net (heur C r S n) false S.map n with
      | none => none
      | some st =>
        match probe cutRef C r { S with map := st } n with
        | none => none
        | some S =>
          match C.equivs[n]? with
          | none => none
          | some e =>
            if e.isSome = true ∧ C.net.fanoutSize n > 0 then
              match probe cutDeref C r S n with
              | none => none
              | some S =>
                match mapChoice p C (heur C r S n) false S.map n with
                | none => none
                | some st => probe cutRef C r { S with map := st } n
            else some S

/-- the loop of `perform_mapping_round`, klut_mapping.hpp 298-310 -/
def loop (p : CutPs) (C : Choice) (r : Round) : List Nat → St → Option St
  | [], S => some S
  | n :: l, S =>
    match node p C r S n with
    | none => none
    | some S => loop p C r l S

/-- `mark_current_mapping_rec`, klut_mapping.hpp 539-557, without the area; the first argument bounds the recursion depth. -/
def markCur (C : Choice) (best : Nat → List Nat) : Nat → Nat → Vals → Option Vals
  | 0, _, _ => none
  | f + 1, n, v =>
    if v n ≠ 0 ∨ C.net.isCi n = true ∨ n = 0 then some (v.add n 1)
    else (best n).foldl (fun v l => v.bind (markCur C best f l)) (some (v.add n 1))

/-- writing a required time (`_storage->require_times[ n ] = x`, klut_mapping.hpp 497, 518, 525) -/
def setReq (q : Nat → Option Int) (n : Nat) (x : Option Int) : Nat → Option Int := fun k => if k = n then x else q k

/-- `std::min`, klut_mapping.hpp 518, where `none` is the largest `float` (subtracting 1 does not change it) -/
def minReq : Option Int → Option Int → Option Int
  | none, y => y
  | x, none => x
  | some x, some y => some (min x y)

/-- the loop from the outputs to the inputs, klut_mapping.hpp 504-529 -/
def propagate (C : Choice) (best : Nat → List Nat) (refs : Vals) : List Nat → (Nat → Option Int) → Option (Nat → Option Int)
  | [], q => some q
  | n :: l, q =>
    if C.net.isCi n = true ∨ n = 0 ∨ refs n = 0 then propagate C best refs l q
    else
      let q1 := (best n).foldl (fun q' leaf => setReq q' leaf (minReq (q' leaf) ((q n).map (· - 1)))) q
      match C.equivs[n]? with
      | none => none
      | some e =>
        match C.chain (C.equivs.length + 1) e with
        | none => none
        | some ms => propagate C best refs l (ms.foldl (fun q' m => setReq q' m (q' n)) q1)

/-- `compute_required_times`, klut_mapping.hpp 476-531; without the areas, which are only printed -/
def required (C : Choice) (r : Round) (order : List Nat) (S : St) : Option St :=
  let outs := C.net.outputs.map (·.index)
  let best := (cover C S.map).best
  match outs.foldl (fun v n => v.bind (markCur C best (C.net.nodes.length + 1) n)) (some (fun _ => 0 : Vals)) with
  | none => none
  | some v =>
    let glo : Nat := (outs.map (bestDelay S.map)).foldl max 0
    let q := outs.foldl (fun q n => setReq q n (some (glo : Int))) (fun _ => none)
    if r.ps.bArea then some { S with refs := v, req := q }
    else
      match propagate C best v order.reverse q with
      | none => none
      | some q => some { S with refs := v, req := q }

/-- `reset_refs`, klut_mapping.hpp 976-991: fanins of all nodes (also of the constant and the inputs) and the primary outputs -/
def resetRefs (C : Choice) (S : St) : St :=
  let v := C.net.nodes.foldl (fun (v : Vals) nd => (v.add nd.c0.index 1).add nd.c1.index 1) (fun _ => 0)
  { S with refs := (C.net.outputs.take C.net.numPos).foldl (fun v s => v.add s.index 1) v }

/-- the rounds of `perform_mapping`, klut_mapping.hpp 217-249: `reset_refs` before the second and third preprocessing round (224, 230) -/
def rounds (p : CutPs) (C : Choice) (order : List Nat) : List Round → St → Option St
  | [], S => some S
  | r :: l, S =>
    match loop p C r order (if r.preprocess = true ∧ r.first = false then resetRefs C S else S) with
    | none => none
    | some S =>
      match required C r order S with
      | none => none
      | some S => rounds p C order l S

/-- the state before the first round, klut_mapping.hpp 48-57 and 198-211 -/
def start (C : Choice) (st : MapSt Cost) : St :=
  ⟨st, fun n => if n = 0 ∨ n ∈ C.net.inputs then 1 else 0, fun n => if n = 0 ∨ n ∈ C.net.inputs then 1 else 0, fun _ => none⟩

/-- what `klut_mapping` returns beside the mapping, `mapping_qor_storage`, map_qor.hpp 26-30 and klut_mapping.hpp 1089 -/
structure Qor where
  delay : Nat
  area : Nat
deriving DecidableEq, Repr

/-- the largest arrival time of a primary output, klut_mapping.hpp 587-591 and 615 -/
def bestOf (N : Aig) (st : MapSt Cost) : Nat := ((N.outputs.take N.numPos).map fun s => bestDelay st s.index).foldl max 0

/-- the number of calls of `add_to_mapping`, klut_mapping.hpp 593-608 and 616 -/
def countCells (N : Aig) (r : Nat → Nat) (order : List Nat) : Nat := (order.filter fun n => !(decide (r n = 0) || N.isCi n || n == 0)).length

/-- `derive_final_mapping`, klut_mapping.hpp 581-618, with the reported values -/
def report (N : Aig) (order : List Nat) (st : MapSt Cost) : Option (Mapping × Qor) :=
  match markAll (markRec N st.best (N.nodes.length + 1)) ((N.outputs.take N.numPos).map (·.index)) (fun _ => 0), derive N order st with
  | some r, some M => some (M, ⟨bestOf N st, countCells N r order⟩)
  | _, _ => none

/-- `perform_mapping`, klut_mapping.hpp 194-253, with the given rounds -/
def mapWith (p : CutPs) (C : Choice) (rs : List Round) : Option (Mapping × Qor) :=
  match initCuts (0 :: C.net.inputs) (MapSt.init ⟨0, 0, 0⟩ C.net.nodes.length) with
  | none => none
  | some st =>
    match topologize C with
    | none => none
    | some order =>
      match rounds p C order rs (start C st) with
      | none => none
      | some S => report C.net order S.map

/-- `klut_mapping`, klut_mapping.hpp 1082-1090, with `run`, 147-161 -/
def klutMapping (p : Ps) (C : Choice) : Option (Mapping × Qor) := mapWith p.cut C (run p)

end Verif.Mapper.Timed
