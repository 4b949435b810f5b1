import Verif.Rewrite.Db
import Verif.Cut.Enum
import Verif.RefDeref.Basic

set_option autoImplicit false

/-!
# DAG-aware rewriting

Model of `include/operations/optimization/rewrite.hpp` 35-356.  All recursive functions get the same bound `f` on
their recursion depth; `none` is a run that exceeds it (or does not terminate) or has undefined behaviour.
-/

namespace Verif.Rewrite

open Verif.RefDeref
open Verif.Cuts

/-- `rewrite_params`, rewrite.hpp 35-47; `cuts` also fixes the order and the cost of cuts
(`cut_enumeration_rewrite_cut`, a single integer that is never written). -/
structure RwParams (β : Type) where
  cuts : Params β
  cost0 : β
  useZeroGain : Bool
  preserveDepth : Bool

/-- `deref_cut` / `ref_cut`, rewrite.hpp 258-292, as instances of `RefDeref.deref` / `RefDeref.ref`: stop at the
leaves, every other node costs 1. -/
def cutParam (N : Aig) (leaves : List Nat) : Param := ⟨aigKids N, leaves.contains, fun _ => 1⟩

/-- `_depth_arrive` / `_depth_require`; `operator[]` of the map yields 0 for a node without entry -/
abbrev Depths := Nat → Int

/-- assignment to an entry -/
def Depths.put (d : Depths) (n : Nat) (x : Int) : Depths := fun k => if k = n then x else d k

/-- body of the first loop of `initialize_depth`, rewrite.hpp 189-199 (arrival part) -/
def arriveStep (N : Aig) (d : Depths) (n : Nat) : Depths :=
  if N.isPi n then d.put n 0
  else d.put n ((aigKids N n).foldl (fun x k => max x (d k + 1)) (-1))

/-- arrival depths after `initialize_depth`, rewrite.hpp 189-199 (a network without dead nodes) -/
def initArrive (N : Aig) : Depths := (List.range N.size).foldl (arriveStep N) fun _ => 0

/-- the lambda in `compute_require_depth_rec`, rewrite.hpp 221-227; `rec` is the recursive call -/
def requireKids (rec : Nat → Depths → Option Depths) (n : Nat) : List Nat → Depths → Option Depths
  | [], d => some d
  | k :: l, d =>
    if d k > d n - 1 then
      match rec k (d.put k (d n - 1)) with
      | none => none
      | some d => requireKids rec n l d
    else requireKids rec n l d

/-- `compute_require_depth_rec`, rewrite.hpp 217-228 -/
def requireRec (N : Aig) : Nat → Nat → Depths → Option Depths
  | 0, _, _ => none
  | f + 1, n, d =>
    if N.isPi n ∨ n = 0 then some d else requireKids (requireRec N f) n (aigKids N n) d

/-- the last loop of `initialize_depth`, rewrite.hpp 207-210 -/
def requireOuts (N : Aig) (f : Nat) (dmax : Int) : List Sig → Depths → Option Depths
  | [], d => some d
  | o :: os, d =>
    match requireRec N f o.index (d.put o.index dmax) with
    | none => none
    | some d => requireOuts N f dmax os d

/-- required depths after `initialize_depth`, rewrite.hpp 188 and 200-210 -/
def initRequire (N : Aig) (f : Nat) : Option Depths :=
  let outs := N.outputs.take N.numPos
  requireOuts N f (outs.foldl (fun x o => max x (initArrive N o.index)) 0) outs
    fun n => if n < N.size then 100000 else 0

/-- the lambda in `update_arrive_depth`, rewrite.hpp 238-248 -/
def arriveKids (rec : Nat → Depths → Option (Depths × Int)) (leaves : List Nat) (n : Nat) :
    List Nat → Depths → Int → Option (Depths × Int)
  | [], d, res => some (d, res)
  | k :: l, d, res =>
    if leaves.contains k then
      arriveKids rec leaves n l (d.put n (max (d n) (d k + 1))) (max res (d k + 1))
    else
      match rec k d with
      | none => none
      | some (d, x) =>
        match rec k d with
        | none => none
        | some (d, y) => arriveKids rec leaves n l (d.put n (max (d n) (y + 1))) (max res (x + 1))

/-- `update_arrive_depth`, rewrite.hpp 236-250 -/
def updateArrive (N : Aig) (leaves : List Nat) : Nat → Nat → Depths → Option (Depths × Int)
  | 0, _, _ => none
  | f + 1, n, d => arriveKids (updateArrive N leaves f) leaves n (aigKids N n) d 0

/-- `initialize_reference`, rewrite.hpp 177-182; a new node has value 0 -/
def initVals (N : Aig) : Vals := fun n => BitVec.ofNat 32 (N.fanoutSize n)

/-- the variables used while the cuts of a node are tried: values, arrival depths, `best_gain`, `best_signal` -/
structure Cand where
  vals : Vals
  arrive : Depths
  gain : Int
  best : Sig

/-- `on_signal`, rewrite.hpp 105-122 -/
def onSignal {β : Type} (P : RwParams β) (f : Nat) (req : Int) (leaves : List Nat) (before : Nat) (N : Aig) (s : Sig)
    (c : Cand) : Option Cand :=
  match ref (cutParam N leaves) f s.index c.vals with
  | none => none
  | some (vals, cost) =>
    match deref (cutParam N leaves) f s.index vals with
    | none => none
    | some (vals, _) =>
      match updateArrive N leaves f s.index c.arrive with
      | none => none
      | some (arrive, _) =>
        if (P.preserveDepth = false ∨ req - arrive s.index ≥ 0) ∧ c.gain < (before : Int) - cost then
          some ⟨vals, arrive, before - cost, s⟩
        else some ⟨vals, arrive, c.gain, c.best⟩

/-- the loop over the cuts of a node, rewrite.hpp 91-126 -/
def cutLoop {β : Type} (P : RwParams β) (f : Nat) (db : Db) (cache : TTCache) (req : Int) (n : Nat) :
    List (Cut (FData β)) → Aig → Cand → Option (Aig × Cand)
  | [], N, c => some (N, c)
  | cut :: rest, N, c =>
    if cut.leaves.length ≠ 4 then cutLoop P f db cache req n rest N c
    else
      match cache.lookup cut.data.func with
      | none => none
      | some tt =>
        match deref (cutParam N cut.leaves) f n c.vals with
        | none => none
        | some (vals, before) =>
          match resynth db N tt (cut.leaves.map fun l => ⟨l, false⟩) (onSignal P f req cut.leaves before)
              { c with vals := vals } with
          | none => none
          | some (N, c) =>
            match ref (cutParam N cut.leaves) f n c.vals with
            | none => none
            | some (vals, _) => cutLoop P f db cache req n rest N { c with vals := vals }

/-- the loop over the gates, rewrite.hpp 82-132.  `best_replacement` is a list: the nodes are visited in ascending
order, so its order is that of the `std::map`. -/
def nodeLoop {β : Type} (P : RwParams β) (f : Nat) (db : Db) (cuts : CutNet β) (req : Depths) :
    List Nat → Aig → Vals → Depths → List (Nat × Sig) → Option (Aig × Vals × List (Nat × Sig))
  | [], N, vals, _, best => some (N, vals, best)
  | n :: rest, N, vals, arrive, best =>
    if N.fanoutSize n > 1000 then nodeLoop P f db cuts req rest N vals arrive best
    else
      match cuts.sets[n]? with
      | none => none
      | some s =>
        match cutLoop P f db cuts.cache (req n) n s.view N ⟨vals, arrive, -1, ⟨0, false⟩⟩ with
        | none => none
        | some (N, c) =>
          nodeLoop P f db cuts req rest N c.vals c.arrive
            (if c.gain > 0 ∨ (P.useZeroGain = true ∧ c.gain = 0) then best ++ [(n, c.best)] else best)

/-- the nodes of the signals in `_fanouts[m]`, `initialize_fanouts`, rewrite.hpp 160-172 -/
def fanoutsOf (N : Aig) (m : Nat) : List Nat :=
  (N.gates.flatMap fun g => ((aigKids N g).filter (· == m)).map fun _ => g) ++
    ((N.outputs.take N.numPos).filter (·.index == m)).map (·.index)

/-- `signal_t( new_n, c ^ compl )`, rewrite.hpp 314, 327, 330 -/
def toward (s : Sig) (c : Sig) : Sig := ⟨s.index, Bool.xor s.compl c.compl⟩

/-- one pass of the loop over the fanouts, rewrite.hpp 322-331, with `set_child0` / `set_child1`,
aig_network.hpp 1137-1143 -/
def redirect (old : Nat) (s : Sig) (N : Aig) (g : Nat) : Option Aig :=
  match N.nodes[g]? with
  | none => none
  | some nd => some { N with nodes := N.nodes.set g { nd with
      c0 := if nd.c0.index = old then toward s nd.c0 else nd.c0,
      c1 := if nd.c1.index = old then toward s nd.c1 else nd.c1 } }

/-- the loop over the fanouts, rewrite.hpp 321-332 -/
def redirectAll (old : Nat) (s : Sig) : List Nat → Aig → Option Aig
  | [], N => some N
  | g :: gs, N =>
    match redirect old s N g with
    | none => none
    | some N => redirectAll old s gs N

/-- `local_replacement`, rewrite.hpp 300-333: only the first matching primary output is redirected, and the
fanouts only if there is none.  `N0` is the network at the time of `initialize_fanouts`. -/
def replaceNode (f : Nat) (N0 : Aig) (N : Aig) (vals : Vals) (old : Nat) (s : Sig) : Option (Aig × Vals) :=
  match deref (aigParam N) f old vals with
  | none => none
  | some (vals, _) =>
    match ref (aigParam N) f old vals with
    | none => none
    | some (vals, _) =>
      match (N.outputs.take N.numPos).findIdx? (·.index == old) with
      | some i => some ({ N with outputs := N.outputs.modify i (toward s) }, vals)
      | none =>
        match redirectAll old s (fanoutsOf N0 old) N with
        | none => none
        | some N => some (N, vals)

/-- the loop over `best_replacement`, rewrite.hpp 141-146 -/
def replaceLoop (f : Nat) (N0 : Aig) : List (Nat × Sig) → Aig → Vals → Option Aig
  | [], N, _ => some N
  | (n, s) :: rest, N, vals =>
    if n = s.index then replaceLoop f N0 rest N vals
    else
      match replaceNode f N0 N vals n s with
      | none => none
      | some (N, vals) => replaceLoop f N0 rest N vals

/-- `run` without the final `cleanup_dangling`, rewrite.hpp 75-146 -/
def rewriteCore {β : Type} (P : RwParams β) (values : List Nat) (f : Nat) (N : Aig) : Option Aig :=
  match generateDb values, initRequire N f, enumerate P.cuts N P.cost0 with
  | some db, some req, some cuts =>
    match nodeLoop P f db cuts req N.gates N (initVals N) (initArrive N) [] with
    | none => none
    | some (M, vals, best) => replaceLoop f N best M vals
  | _, _, _ => none

/-- `rewrite`, rewrite.hpp 347-356 and 148; `values` are the words of the database. -/
def rewrite {β : Type} (P : RwParams β) (values : List Nat) (f : Nat) (N : Aig) : Option Aig :=
  match rewriteCore P values f N with
  | none => none
  | some M => Aig.cleanupDangling M f

end Verif.Rewrite
