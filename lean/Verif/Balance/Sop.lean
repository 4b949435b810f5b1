import Verif.Cut.Enum
import Verif.Isop
import Verif.Aig.Cleanup
import Verif.Topo.Depth

set_option autoImplicit false

/-!
# Cut-based SOP balancing

Model of `include/operations/optimization/balancing.hpp` 78-258 with the rebalancing function
`include/operations/optimization/balancing/sop_balancing.hpp` 47-134 on AIGs.
-/

namespace Verif.SopBalance
open Cuts

/-- `arrival_time_pair`, balancing.hpp 78-83; levels are 32-bit numbers. -/
structure Arr where
  f : Sig
  level : Nat
deriving DecidableEq, Repr

/-- `node_map<arrival_time_pair> old_to_new`, balancing.hpp 119 -/
abbrev ArrMap := Nat → Arr

/-- `old_to_new[n] = a` -/
def ArrMap.set (m : ArrMap) (n : Nat) (a : Arr) : ArrMap := fun k => if k = n then a else m k

/-- signals only -/
def ArrMap.sig (m : ArrMap) : Aig.SigMap := fun n => (m n).f

/-- `top` and `pop` of `arrival_time_queue`, balancing/utils.hpp 26-37.  The queue is the list of its elements.  Which
of them is on top depends on the levels and on the heap operations of the library; here `sel` answers that, and the theorems
hold for every `sel`. -/
def pop (sel : List Arr → Nat) (q : List Arr) : Option (Arr × List Arr) :=
  match q[sel q % q.length]? with
  | none => none
  | some a => some (a, q.eraseIdx (sel q % q.length))

/-- the position of an element of lowest level: one way to answer `top`, balancing/utils.hpp 26-34 -/
def lowest (q : List Arr) : Nat := q.findIdx fun a => q.all fun b => a.level ≤ b.level

/-- `balanced_tree`, sop_balancing.hpp 90-108; the first argument bounds the number of passes of the loop. -/
def balancedTree (sel : List Arr → Nat) (isAnd : Bool) : Nat → Aig → List Arr → Option (Aig × Arr)
  | 0, _, _ => none
  | k + 1, D, q =>
    match q with
    | [] => some (D, ⟨⟨0, true⟩, 0⟩)
    | [a] => some (D, a)
    | _ :: _ :: _ =>
      match pop sel q with
      | none => none
      | some (a, q1) =>
        match pop sel q1 with
        | none => none
        | some (b, q2) =>
          let r := if isAnd then D.createAnd a.f b.f else D.createOr a.f b.f
          balancedTree sel isAnd k r.1 (⟨r.2, (max a.level b.level + 1) % 4294967296⟩ :: q2)

/-- the literals of a cube, sop_balancing.hpp 73-80: variables `i`, `i+1`, … (`k` of them); `none`: outside
`arrival_times`. -/
def literals (arr : List Arr) (c : Cube) : Nat → Nat → Option (List Arr)
  | _, 0 => some []
  | i, k + 1 =>
    if c.getMask i then
      match arr[i]?, literals arr c (i + 1) k with
      | some a, some r => some (⟨if c.getBit i then a.f else a.f.not, a.level⟩ :: r)
      | _, _ => none
    else literals arr c (i + 1) k

/-- the loop over the cubes in `create_function`, sop_balancing.hpp 63-88: network, terms, number of gates -/
def products (sel : List Arr → Nat) (arr : List Arr) (nvar : Nat) : List Cube → Aig → Option (Aig × List Arr × Nat)
  | [], D => some (D, [], 0)
  | c :: cs, D =>
    match literals arr c 0 nvar with
    | none => none
    | some ls =>
      match balancedTree sel true (ls.length + 1) D ls with
      | none => none
      | some (D1, a) =>
        match products sel arr nvar cs D1 with
        | none => none
        | some (D2, ts, g) => some (D2, a :: ts, g + (ls.length - 1))

/-- best candidate so far: `best` and `best_size`, balancing.hpp 162-163 -/
structure Best where
  arr : Arr
  size : Nat
deriving DecidableEq, Repr

/-- `sop_rebalancing::operator()`, sop_balancing.hpp 50-60, with the callback of balancing.hpp 174-180; both make the
same comparison.  The cache of SOP forms (110-123) is left out: it returns what `isop` returned for the same function. -/
def rebalance (sel : List Arr → Nat) (D : Aig) (t : TT) (arr : List Arr) (best : Best) : Option (Aig × Best) :=
  match t.isop with
  | none => none
  | some cubes =>
    match products sel arr t.n cubes D with
    | none => none
    | some (D1, ts, g) =>
      match balancedTree sel false (ts.length + 1) D1 ts with
      | none => none
      | some (D2, cand) =>
        if cand.level < best.arr.level ∨ (cand.level = best.arr.level ∧ g + (ts.length - 1) < best.size) then
          some (D2, ⟨cand, g + (ts.length - 1)⟩)
        else some (D2, best)

/-- the loop over the cuts of a node, balancing.hpp 164-181; `none`: the truth table or a leaf is missing. -/
def cutLoop (sel : List Arr → Nat) (cache : TTCache) (m : ArrMap) : List (Cut (FData Unit)) → Aig → Best → Option (Aig × Best)
  | [], D, b => some (D, b)
  | c :: cs, D, b =>
    match cache.lookup c.data.func with
    | none => none
    | some t =>
      if c.leaves.length = 1 ∨ t.isConst0 = true then cutLoop sel cache m cs D b
      else
        match rebalance sel D t (c.leaves.map m) b with
        | none => none
        | some (D1, b1) => cutLoop sel cache m cs D1 b1

/-- body of the loop over the topological order, balancing.hpp 143-184.  `off n = some l` says that the option
`only_on_critical_path` is set, `n` is not on the critical path and has level `l`. -/
def balanceNode (sel : List Arr → Nat) (off : Nat → Option Nat) (N : Aig) (st : CutNet Unit) (D : Aig) (m : ArrMap) (n : Nat) :
    Option (Aig × ArrMap) :=
  if n = 0 ∨ N.isPi n then some (D, m)
  else
    match off n with
    | some l =>
      match N.nodes[n]? with
      | none => none
      | some nd =>
        let r := D.createAnd (m.sig.img nd.c0) (m.sig.img nd.c1)
        some (r.1, m.set n ⟨r.2, l⟩)
    | none =>
      match st.sets[n]? with
      | none => none
      | some s =>
        match cutLoop sel st.cache m s.view D ⟨⟨⟨0, false⟩, 4294967295⟩, 0⟩ with
        | none => none
        | some (D1, b) => some (D1, m.set n b.arr)

/-- the loop, balancing.hpp 143-184 -/
def balanceNodes (sel : List Arr → Nat) (off : Nat → Option Nat) (N : Aig) (st : CutNet Unit) :
    List Nat → Aig → ArrMap → Option (Aig × ArrMap)
  | [], D, m => some (D, m)
  | n :: ns, D, m =>
    match balanceNode sel off N st D m n with
    | none => none
    | some (D1, m1) => balanceNodes sel off N st ns D1 m1

/-- `create_pi` for every primary input, balancing.hpp 127-129 -/
def mapPis : List Nat → List Sig → ArrMap → Option ArrMap
  | [], _, m => some m
  | _ :: _, [], _ => none
  | n :: ns, s :: ss, m => mapPis ns ss (m.set n ⟨s, 0⟩)

/-- `balancing_impl::run` without the final cleanup, balancing.hpp 116-189 -/
def balanceRaw (sel : List Arr → Nat) (off : Nat → Option Nat) (P : Params Unit) (N : Aig) (fuel : Nat) : Option Aig :=
  let q := Aig.cloneInputs N.numPis Aig.empty
  match mapPis (N.inputs.take N.numPis) q.2 (fun _ => ⟨⟨0, false⟩, 0⟩), enumerate P N (), Topo.topoView N fuel with
  | some m, some st, some order =>
    match balanceNodes sel off N st order q.1 m with
    | none => none
    | some (D, m) => some (Aig.cloneOutputs D ((N.outputs.take N.numPos).map m.sig.img))
  | _, _, _ => none

/-- cut enumeration as called in balancing.hpp 138: cuts are ordered by size (cut.hpp 194-199), there are no cost data. -/
def sopParams (cutSize cutLimit : Nat) (minimize : Bool) : Params Unit := ⟨cutSize, cutLimit, minimize, ltSize, fun _ _ => ()⟩

/-- `balancing` with `sop_rebalancing`, balancing.hpp 116-192, 228-258.  `fuel` bounds the depth of the recursion in the
topological sort of the given network; in the final cleanup it is bounded by the number of nodes. -/
def balance (sel : List Arr → Nat) (off : Nat → Option Nat) (P : Params Unit) (N : Aig) (fuel : Nat) : Option Aig :=
  match balanceRaw sel off P N fuel with
  | none => none
  | some D => Aig.cleanupDangling D D.size

/-- the nodes that `balancing` only copies and their levels, balancing.hpp 131-135, 151: with `only_on_critical_path` all
nodes, since the view never marks a node as critical (depth_view.hpp 230-236 is commented out). -/
def copied (onlyCritical : Bool) (N : Aig) (fuel : Nat) : Option (Nat → Option Nat) :=
  if onlyCritical then (Topo.depthView N false fuel).map fun q n => some (q.1.lev n) else some fun _ => none

/-- `balancing` with `sop_rebalancing` and all its parameters, balancing.hpp 228-258 -/
def sopBalancing (sel : List Arr → Nat) (onlyCritical : Bool) (P : Params Unit) (N : Aig) (fuel : Nat) : Option Aig :=
  match copied onlyCritical N fuel with
  | none => none
  | some off => balance sel off P N fuel

end Verif.SopBalance
