import Verif.Aig.Cleanup
import Mathlib.Data.List.Sort

set_option autoImplicit false

/-!
# AND balancing

Model of include/operations/optimization/and_balance.hpp for AIGs. `is_xor` is constantly false for AIGs
(aig_network.hpp 801-805), so the branches for XOR supergates are never taken and not modelled.
-/

namespace Verif.Balance

/-- `_new_aig`, `_old2new` and the levels of `_new_aig` (and_balance.hpp 353-356, depth_view.hpp 277-280). `none` in
the map is `SIGNAL_NULL`. Levels are natural numbers instead of `uint32_t`. -/
structure BSt where
  ntk : Aig
  lev : List Nat
  map : Nat → Option Sig

/-- `_new_aig.level(s.index)`, depth_view.hpp 150-153; reads outside the levels are excluded by the check in
`buildSuper` -/
def levOf (lev : List Nat) (s : Sig) : Nat :=
  match lev[s.index]? with
  | some k => k
  | none => 0

/-- `get_balance_cone_rec`, and_balance.hpp 151-173; `acc` is `super`. The first argument bounds the recursion depth;
`none`: not enough or the node does not exist. -/
def cone (N : Aig) (root : Sig) : Nat → Sig → List Sig → Option (List Sig)
  | 0, _, _ => none
  | f + 1, s, acc =>
    if s ≠ root ∧ (s.compl = true ∨ ((root.index ≠ 0 ∧ N.isCi root.index = false) ∧ N.isPi s.index = true) ∨
        1 < N.fanoutSize s.index ∨ 10000 < acc.length) then some (acc ++ [s])
    else match N.nodes[s.index]? with
      | none => none
      | some nd => match cone N root f nd.c0 acc with
        | none => none
        | some acc => cone N root f nd.c1 acc

/-- comparison by literal, aig_network.hpp 141-144, for `std::sort` in and_balance.hpp 123 -/
def litLe (a b : Sig) : Bool := a.data ≤ b.data

/-- removal of duplicates, and_balance.hpp 125-148; `none` stands for `nodes.clear()` because of opposite literals.
Simplification: builds a new list instead of overwriting the vector from the front. -/
def dedup : List Sig → Option (List Sig)
  | [] => some []
  | [a] => some [a]
  | a :: b :: l =>
    if a = b.not then none
    else match dedup (b :: l) with
      | none => none
      | some r => some (if a ≠ b then a :: r else r)

/-- `balance_unify`, and_balance.hpp 118-149: sorting and removal of duplicates. Elements comparing equal are equal, so
the result does not depend on the sorting algorithm. -/
def unify (nodes : List Sig) : List Sig :=
  match dedup (nodes.insertionSort (fun a b => litLe a b = true)) with
  | none => []
  | some l => l

/-- the loop of `balance_find_left`, and_balance.hpp 238-248; `k` is the position after `current` -/
def findLeftGo (lev : List Nat) (super : List Sig) (right : Nat) : Nat → Option Nat
  | 0 => some 0
  | k + 1 => match super[k]? with
    | none => none
    | some left => if levOf lev left ≠ right then some (k + 1) else findLeftGo lev super right k

/-- `balance_find_left`, and_balance.hpp 224-253; `none`: access outside the vector -/
def findLeft (lev : List Nat) (super : List Sig) : Option Nat :=
  if super.length < 3 then some 0
  else match super[super.length - 2]? with
    | none => none
    | some r => findLeftGo lev super (levOf lev r) (super.length - 2)

/-- the loop of `balance_permute`, and_balance.hpp 271-313, from position `k - 1` down to `left`: position to be
swapped with `right`, if any -/
def permuteGo (D : Aig) (super : List Sig) (left : Nat) (node1 node2 : Sig) : Nat → Option (Option Nat)
  | 0 => some none
  | k + 1 =>
    if k < left then some none
    else match super[k]? with
      | none => none
      | some node3 =>
        if node3.index = 0 then some (some k)
        else if node1.index = node3.index then
          if node2.index = node3.index then some none else some (some k)
        else if D.findAnd node1 node3 then
          if node2.index = node3.index then some none else some (some k)
        else permuteGo D super left node1 node2 k

/-- `balance_permute`, and_balance.hpp 255-314; `none`: access outside the vector -/
def permute (D : Aig) (super : List Sig) (left : Nat) : Option (List Sig) :=
  let right := super.length - 2
  if left = right then some super
  else match super[right + 1]?, super[right]? with
    | some node1, some node2 =>
      if node1.index = 0 ∨ node2.index = 0 ∨ node1.index = node2.index then some super
      else match permuteGo D super left node1 node2 (right + 1) with
        | none => none
        | some none => some super
        | some (some i) => match super[i]? with
          | none => none
          | some node3 => some ((super.set i node2).set right node3)
    | _, _ => none

/-- the loop of `push_unique_by_level`, and_balance.hpp 336-349: `l` is the part left of the new element in reverse
order; result in reverse order -/
def bubble (lev : List Nat) (s : Sig) : List Sig → List Sig
  | [] => [s]
  | a :: l => if levOf lev s ≤ levOf lev a then s :: a :: l else a :: bubble lev s l

/-- `push_unique_by_level`, and_balance.hpp 316-351 -/
def pushUnique (lev : List Nat) (super : List Sig) (s : Sig) : List Sig :=
  if s ∈ super then super else (bubble lev s super.reverse).reverse

/-- `create_and` of `_new_aig`: aig_network.hpp 313-367 with the callback `on_add`, depth_view.hpp 260-275, which is
called for new nodes only -/
def createAndL (D : Aig) (lev : List Nat) (a b : Sig) : Aig × List Nat × Sig :=
  let r := D.createAnd a b
  (r.1, if r.1.nodes.length = D.nodes.length then lev else lev ++ [max (levOf lev a) (levOf lev b) + 1], r.2)

/-- the loop of `build_super`, and_balance.hpp 197-219; the first argument bounds the number of rounds. All levels
are checked to exist before they are read (`none`: out-of-bounds read). -/
def superLoop : Nat → Aig → List Nat → List Sig → Option (Aig × List Nat × Sig)
  | 0, _, _, _ => none
  | f + 1, D, lev, super =>
    match super with
    | [] => some (D, lev, Sig.const false)
    | [s] => some (D, lev, s)
    | super =>
      if super.all fun s => decide (s.index < lev.length) then
        match findLeft lev super with
        | none => none
        | some left => match permute D super left with
          | none => none
          | some super => match super.reverse with
            | node0 :: node1 :: rest =>
              let r := createAndL D lev node0 node1
              superLoop f r.1 r.2.1 (pushUnique r.2.1 rest.reverse r.2.2)
            | _ => none
      else none

/-- `build_super`, and_balance.hpp 175-222. `sort` is the implementation of `std::sort` for the order "higher level
first, then higher index first" (180-195); literals of the same node compare equal, so that their order is not
determined by the code. -/
def buildSuper (sort : (Sig → Nat × Nat) → List Sig → List Sig) (D : Aig) (lev : List Nat) (super : List Sig) :
    Option (Aig × List Nat × Sig) :=
  if super.all fun s => decide (s.index < lev.length) then
    superLoop (super.length + 1) D lev (sort (fun s => (levOf lev s, s.index)) super)
  else none

/-- the loop over the supergate, and_balance.hpp 84-89; `rec` is `balance_rec` -/
def balanceKids (rec : BSt → Nat → Option (BSt × Sig)) : BSt → List Sig → Option (BSt × List Sig)
  | st, [] => some (st, [])
  | st, s :: l => match rec st s.index with
    | none => none
    | some (st, r) => match balanceKids rec st l with
      | none => none
      | some (st, l') => some (st, r.xorb s.compl :: l')

/-- `balance_rec`, and_balance.hpp 65-102. The first argument bounds the recursion depth. -/
def balanceRec (sort : (Sig → Nat × Nat) → List Sig → List Sig) (N : Aig) : Nat → BSt → Nat → Option (BSt × Sig)
  | 0, _, _ => none
  | f + 1, st, driver =>
    match st.map driver with
    | some s => some (st, s)
    | none => match cone N ⟨driver, false⟩ (f + 1) ⟨driver, false⟩ [] with
      | none => none
      | some nodes =>
        match unify nodes with
        | [] => some (⟨st.ntk, st.lev, fun n => if n = driver then some (Sig.const false) else st.map n⟩, Sig.const false)
        | super => match balanceKids (balanceRec sort N f) st super with
          | none => none
          | some (st, [s]) => some (st, s)
          | some (st, super) => match buildSuper sort st.ntk st.lev super with
            | none => none
            | some (D, lev, s) => some (⟨D, lev, fun n => if n = driver then some s else st.map n⟩, s)

/-- the constructor's loop over the primary inputs, and_balance.hpp 41-45 -/
def initMap : List Nat → Aig → (Nat → Option Sig) → Aig × (Nat → Option Sig)
  | [], D, m => (D, m)
  | n :: l, D, m =>
    let r := D.createPi
    initMap l r.1 fun k => if k = n then some r.2 else m k

/-- constructor, and_balance.hpp 36-47; `update_levels` on a network without outputs sets all levels to 0
(depth_view.hpp 170-177, 218-237) -/
def initSt (N : Aig) : BSt :=
  let r := initMap (N.inputs.take N.numPis) Aig.empty fun n => if n = 0 then some (Sig.const false) else none
  ⟨r.1, List.replicate r.1.nodes.length 0, r.2⟩

/-- the loop over the outputs in `run`, and_balance.hpp 54-59: state and driver signals. Simplification: the outputs are
added to the new network after the loop (`run` below); `create_po` changes only fan-out counts and the output list,
which balancing of the later outputs does not read in the new network. -/
def balancePos (sort : (Sig → Nat × Nat) → List Sig → List Sig) (N : Aig) (f : Nat) : BSt → List Sig → Option (BSt × List Sig) :=
  balanceKids (balanceRec sort N f)

/-- the result of `cleanup_dangling` on `_new_aig`, whose type is `depth_view`: the copy `dest` is a `depth_view` as well
(cleanup.hpp 418-421), and its `create_po` reads the level of the driver (depth_view.hpp 184-189). `dest` has levels
for the nodes existing at its last `on_add`, hence for node 0 only if there is no gate. `true`: an output reads a level
outside the vector. The value read ends up in `_depth`, which is discarded with the view. -/
def levelsOverrun (D : Aig) : Bool := D.numGates == 0 && D.outputs.any fun o => o.index != 0

/-- `balance_and`, and_balance.hpp 52-62, 360-365: the resulting network and whether levels have been read outside
their vector -/
def balanceAnd (sort : (Sig → Nat × Nat) → List Sig → List Sig) (N : Aig) (fuel : Nat) : Option (Aig × Bool) :=
  match balancePos sort N fuel (initSt N) (N.outputs.take N.numPos) with
  | none => none
  | some (st, outs) =>
    let D := Aig.cloneOutputs st.ntk outs
    match Aig.cleanupDangling D D.size with
    | none => none
    | some D => some (D, levelsOverrun D)

/-- an implementation of the sorting step, to run the model -/
def sortDesc (key : Sig → Nat × Nat) (l : List Sig) : List Sig :=
  l.insertionSort fun a b => (key b).1 < (key a).1 ∨ ((key b).1 = (key a).1 ∧ (key b).2 ≤ (key a).2)

end Verif.Balance
