import Verif.Cut.Set
import Verif.TTCache
import Verif.Aig.Sim

set_option autoImplicit false

/-!
# Cut enumeration

Model of `include/database/cut/cut_enumeration.hpp` 137-520 with `ComputeTruth = true` on AIGs.
-/

namespace Verif.Cuts

/-- `cut_data<true, T>`, cut_enumeration.hpp 84-92 -/
structure FData (β : Type) where
  func : Nat
  cost : β
deriving DecidableEq, Repr

variable {β : Type}

/-- `network_cuts`, cut_enumeration.hpp 304-316: cut sets and truth tables (best cuts and statistics are
left out; the enumeration does not read them). -/
structure CutNet (β : Type) where
  sets : List (CutSet (FData β))
  cache : TTCache

/-- `max_cut_num`, cut_enumeration.hpp 158 -/
def maxCutNum : Nat := 12

/-- `max_cut_size`, cut_enumeration.hpp 82 -/
def maxCutSize : Nat := 7

/-- a default constructed `cut_set`, cut_set.hpp 41-57; `cost` is the content of default constructed cost data -/
def CutSet.init (cost : β) : CutSet (FData β) := CutSet.clear maxCutNum ⟨fun _ => ⟨[], 0, ⟨0, cost⟩⟩, [], 0⟩

/-- constructor of `network_cuts`, cut_enumeration.hpp 162-171 -/
def CutNet.init (cost : β) (size : Nat) : CutNet β :=
  ⟨List.replicate size (CutSet.init cost), ((TTCache.empty.insert (TT.const 0 false)).1.insert (TT.nthVar 1 0)).1⟩

/-- `add_zero_cut` / `add_unit_cut`, cut_enumeration.hpp 234-252, on the set of the node: leaves and
`func_id` are given. -/
def CutSet.addFixed (s : CutSet (FData β)) (l : List Nat) (func : Nat) : Option (CutSet (FData β)) :=
  s.addCut l fun d => { d with func := func }

/-- the loop of `compute_truth_table_support`, cut_enumeration.hpp 211-216: `sup` is the range from `itp` on,
`off` its distance from the beginning. -/
def supportFrom : List Nat → List Nat → Nat → List Nat
  | [], _, _ => []
  | x :: sub, sup, off =>
    let d := sup.findIdx (· == x)
    (off + d) :: supportFrom sub (sup.drop d) (off + d)

/-- `compute_truth_table_support`, cut_enumeration.hpp 206-219 -/
def support (sub sup : List Nat) : List Nat := supportFrom sub sup 0

/-- parameters, cut_enumeration.hpp 40-58, and the two customisation points: the comparison of cuts and
`cut_enumeration_update_cut::apply` (which computes the cost of a new cut of a node). -/
structure Params (β : Type) where
  cutSize : Nat
  cutLimit : Nat
  minimize : Bool
  lt : Cut (FData β) → Cut (FData β) → Bool
  cost : Nat → Cut (FData β) → β

/-- table of a child cut over the leaves of the merged cut, cut_enumeration.hpp 461-464 -/
def childTable (cache : TTCache) (c res : Cut (FData β)) : Option TT :=
  match cache.lookup c.data.func with
  | none => none
  | some t => some ((t.extendTo res.leaves.length).expand (support c.leaves res.leaves))

/-- leaves picked by `support`, cut_enumeration.hpp 479-484; `none`: index outside the vector -/
def pick (leaves : List Nat) : List Nat → Option (List Nat)
  | [] => some []
  | i :: is =>
    match leaves[i]?, pick leaves is with
    | some x, some xs => some (x :: xs)
    | _, _ => none

/-- `compute_truth_table`, cut_enumeration.hpp 453-491: new cache and the cut with leaves and `func_id` set.
Complemented edges are handled by `compute` of the network, aig_network.hpp 1172-1185. -/
def computeTruth (N : Aig) (minimize : Bool) (cache : TTCache) (n : Nat) (c1 c2 res : Cut (FData β)) :
    Option (TTCache × Cut (FData β)) :=
  match childTable cache c1 res, childTable cache c2 res, N.nodes[n]? with
  | some t1, some t2, some nd =>
    let tt := (if nd.c0.compl then t1.not else t1).and (if nd.c1.compl then t2.not else t2)
    if minimize ∧ tt.minBase.2.length ≠ res.leaves.length then
      match pick res.leaves tt.minBase.2 with
      | none => none
      | some l =>
        let r := cache.insert (tt.minBase.1.shrinkTo tt.minBase.2.length)
        some (r.1, { res.setLeaves l with data := { res.data with func := r.2 } })
    else if minimize then
      let r := cache.insert tt.minBase.1
      some (r.1, { res with data := { res.data with func := r.2 } })
    else
      let r := cache.insert tt
      some (r.1, { res with data := { res.data with func := r.2 } })
  | _, _, _ => none

/-- one pass of the inner loop of `merge_cuts2`, cut_enumeration.hpp 411-430.  The variable `new_cut` keeps its
data between passes; here a new cut starts with the data of `c1`, which is overwritten as well. -/
def mergeStep (P : Params β) (N : Aig) (n : Nat) (st : TTCache × CutSet (FData β)) (c1 c2 : Cut (FData β)) :
    Option (TTCache × CutSet (FData β)) :=
  match c1.merge maxCutSize c2 c1 P.cutSize with
  | .overflow => none
  | .tooLarge => some st
  | .ok r =>
    if st.2.isDominated r then some st
    else
      match computeTruth N P.minimize st.1 n c1 c2 r with
      | none => none
      | some (cache, r') =>
        match st.2.insert maxCutNum P.lt { r' with data := { r'.data with cost := P.cost n r' } } with
        | none => none
        | some s => some (cache, s)

/-- the two loops of `merge_cuts2`, cut_enumeration.hpp 407-432, over the list of pairs -/
def mergeLoop (P : Params β) (N : Aig) (n : Nat) :
    TTCache × CutSet (FData β) → List (Cut (FData β) × Cut (FData β)) → Option (TTCache × CutSet (FData β))
  | st, [] => some st
  | st, (c1, c2) :: rest =>
    match mergeStep P N n st c1 c2 with
    | none => none
    | some st' => mergeLoop P N n st' rest

/-- pairs in the order of the loops -/
def pairs {γ : Type} (l1 l2 : List γ) : List (γ × γ) := l1.flatMap fun c1 => l2.map fun c2 => (c1, c2)

/-- `ps.cut_limit - 1` in `uint32_t`, cut_enumeration.hpp 435 -/
def limitArg (cutLimit : Nat) : Nat := if cutLimit = 0 then 4294967295 else cutLimit - 1

/-- end of `merge_cuts2`, cut_enumeration.hpp 435-442; `*rcuts.begin()` is read even if the set is empty. -/
def finish (P : Params β) (n : Nat) (s : CutSet (FData β)) : Option (CutSet (FData β)) :=
  match s.limit (limitArg P.cutLimit) with
  | none => none
  | some s =>
    match s.ptrs[0]? with
    | none => none
    | some p => if s.len > 1 ∨ (s.store p).leaves.length > 1 then s.addFixed [n] 2 else some s

/-- `merge_cuts2`, cut_enumeration.hpp 376-443 -/
def mergeCuts (P : Params β) (N : Aig) (st : CutNet β) (n : Nat) : Option (CutNet β) :=
  match N.nodes[n]? with
  | none => none
  | some nd =>
    match st.sets[nd.c0.index]?, st.sets[nd.c1.index]?, st.sets[n]? with
    | some s0, some s1, some s =>
      match mergeLoop P N n (st.cache, s.clear maxCutNum) (pairs s0.view s1.view) with
      | none => none
      | some (cache, r) =>
        match finish P n r with
        | none => none
        | some r' => some ⟨st.sets.set n r', cache⟩
    | _, _, _ => none

/-- the body of `run`, cut_enumeration.hpp 341-363 -/
def enumNode (P : Params β) (N : Aig) (st : CutNet β) (n : Nat) : Option (CutNet β) :=
  if n = 0 then
    match st.sets[n]? with
    | none => none
    | some s => match s.addFixed [] 0 with
      | none => none
      | some s' => some { st with sets := st.sets.set n s' }
  else if N.isPi n then
    match st.sets[n]? with
    | none => none
    | some s => match s.addFixed [n] 2 with
      | none => none
      | some s' => some { st with sets := st.sets.set n s' }
  else mergeCuts P N st n

/-- `run`, cut_enumeration.hpp 339-364, over a list of nodes -/
def enumNodes (P : Params β) (N : Aig) : CutNet β → List Nat → Option (CutNet β)
  | st, [] => some st
  | st, n :: ns =>
    match enumNode P N st n with
    | none => none
    | some st' => enumNodes P N st' ns

/-- `cut_enumeration`, cut_enumeration.hpp 503-520; `foreach_node` visits the nodes that are not dead,
aig_network.hpp (foreach_node). -/
def enumerate (P : Params β) (N : Aig) (cost0 : β) : Option (CutNet β) :=
  enumNodes P N (CutNet.init cost0 N.size) ((List.range N.size).filter fun n => !N.isDead n)

end Verif.Cuts
