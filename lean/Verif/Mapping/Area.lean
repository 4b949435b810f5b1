import Verif.RefDeref.Basic

set_option autoImplicit false

/-!
# Exact area and edge probing of the LUT mapper

Model of `cut_area_deref` … `cut_edge_refed`, include/operations/algorithms/klut_mapping.hpp 644-740.
-/

namespace Verif.Mapper

open RefDeref (Vals)

/-- What the probing functions read: the network (for `is_pi`, `is_constant`) and the leaves of the
current best cut of each node (`_cut_network.get_best_cut`, the candidate cover). -/
structure Cover where
  net : Aig
  best : Nat → List Nat

/-- `_ntk.is_pi(leaf) || _ntk.is_constant(leaf)`, klut_mapping.hpp 650, 663, 697, 710. -/
def Cover.term (C : Cover) (n : Nat) : Bool := C.net.isPi n || n == 0

/-- loop of `cut_area_deref` (klut_mapping.hpp 647-653) and `cut_edge_deref` (694-700): the counter of each
leaf is decremented (32-bit, wrapping; the assertion is off in release builds); `rec` is the recursive
call on a cut, `none` stands for non-termination.
Simplification: areas and edge counts are natural numbers instead of `float`. -/
def derefLoop (C : Cover) (rec : List Nat → Vals → Option (Vals × Nat)) :
    List Nat → Vals → Nat → Option (Vals × Nat)
  | [], v, a => some (v, a)
  | leaf :: l, v, a =>
    let v := v.add leaf (-1)
    if v leaf ≠ 0 || C.term leaf then derefLoop C rec l v a
    else match rec (C.best leaf) v with
      | none => none
      | some (v, b) => derefLoop C rec l v (a + b)

/-- `cut_area_deref` (klut_mapping.hpp 644-655, `cost` constantly 1) and `cut_edge_deref` (691-702, `cost` the
number of leaves). The first argument bounds the recursion depth. -/
def cutDeref (C : Cover) (cost : List Nat → Nat) : Nat → List Nat → Vals → Option (Vals × Nat)
  | 0, _, _ => none
  | f + 1, cut, v => derefLoop C (cutDeref C cost f) cut v (cost cut)

/-- loop of `cut_area_ref` (klut_mapping.hpp 660-666) and `cut_edge_ref` (707-713). -/
def refLoop (C : Cover) (rec : List Nat → Vals → Option (Vals × Nat)) :
    List Nat → Vals → Nat → Option (Vals × Nat)
  | [], v, a => some (v, a)
  | leaf :: l, v, a =>
    let old := v leaf
    let v := v.add leaf 1
    if old ≠ 0 || C.term leaf then refLoop C rec l v a
    else match rec (C.best leaf) v with
      | none => none
      | some (v, b) => refLoop C rec l v (a + b)

/-- `cut_area_ref` (klut_mapping.hpp 657-668) and `cut_edge_ref` (704-715). -/
def cutRef (C : Cover) (cost : List Nat → Nat) : Nat → List Nat → Vals → Option (Vals × Nat)
  | 0, _, _ => none
  | f + 1, cut, v => refLoop C (cutRef C cost f) cut v (cost cut)

/-- `cut_area_derefed` (klut_mapping.hpp 670-678) and `cut_edge_derefed` (717-727): counters afterwards and
result. -/
def cutDerefed (C : Cover) (cost : List Nat → Nat) (f : Nat) (cut : List Nat) (v : Vals) :
    Option (Vals × Nat) :=
  if cut.length < 2 then some (v, 0) else
    match cutRef C cost f cut v with
    | none => none
    | some (v, _) => cutDeref C cost f cut v

/-- `cut_area_refed` (klut_mapping.hpp 680-689) and `cut_edge_refed` (729-740). -/
def cutRefed (C : Cover) (cost : List Nat → Nat) (f : Nat) (cut : List Nat) (v : Vals) :
    Option (Vals × Nat) :=
  if cut.length < 2 then some (v, 0) else
    match cutDeref C cost f cut v with
    | none => none
    | some (v, _) => cutRef C cost f cut v

end Verif.Mapper
