import Verif.Cut.Basic

set_option autoImplicit false

/-!
# Cut sets

Model of `include/database/cut/cut_set.hpp` 35-245.  Pointers into the cut array are its indices.
-/

namespace Verif.Cuts

variable {α : Type}

/-- `cut_set<CutType, MaxCuts>`, cut_set.hpp 239-245. `_cuts` is a function from slots, `_pcuts` the list of
slots, `len` is both `_pend - begin` and `_pcend - begin` (every function moves both).  `_length` is written
but never read and is left out. -/
structure CutSet (α : Type) where
  store : Nat → Cut α
  ptrs : List Nat
  len : Nat

/-- what `begin()`..`end()` shows, cut_set.hpp 93-97 -/
def CutSet.view (s : CutSet α) : List (Cut α) := (s.ptrs.take s.len).map s.store

/-- `clear`, cut_set.hpp 49-57; the contents of the slots stay as they are. -/
def CutSet.clear (maxCuts : Nat) (s : CutSet α) : CutSet α := { s with ptrs := List.range maxCuts, len := 0 }

/-- `is_dominated`, cut_set.hpp 132-135 -/
def CutSet.isDominated (s : CutSet α) (c : Cut α) : Bool := s.view.any fun o => o.dominates c

/-- `add_cut`, cut_set.hpp 117-126; `none`: `_pend` is at the end of the array (the check is an `assert`,
off in the release build). The caller gets a reference to the cut and changes its data by `f`. -/
def CutSet.addCut (s : CutSet α) (l : List Nat) (f : α → α) : Option (CutSet α) :=
  match s.ptrs[s.len]? with
  | none => none
  | some p => some { s with store := fun q => if q = p then { (s.store p).setLeaves l with data := f (s.store p).data }
                                              else s.store q,
                            len := s.len + 1 }

/-- the loop of `std::lower_bound` (libstdc++): `first`, `len`; `none` would be a read outside the range. -/
def lowerBoundGo (lt : Cut α → Cut α → Bool) (l : List (Cut α)) (c : Cut α) : Nat → Nat → Nat → Option Nat
  | _, first, 0 => some first
  | 0, _, _ + 1 => none
  | fuel + 1, first, n + 1 =>
    let half := (n + 1) / 2
    match l[first + half]? with
    | none => none
    | some m =>
      if lt m c then lowerBoundGo lt l c fuel (first + half + 1) (n + 1 - half - 1)
      else lowerBoundGo lt l c fuel first half

/-- `std::lower_bound` as called in cut_set.hpp 146 -/
def lowerBound (lt : Cut α → Cut α → Bool) (l : List (Cut α)) (c : Cut α) : Option Nat :=
  lowerBoundGo lt l c l.length 0 l.length

/-- `insert`, cut_set.hpp 142-179.  The chain of swaps in 168-173 moves the pointer at `_pend` to `ipos` and
shifts the ones in between; it is written as erase and insert here. -/
def CutSet.insert (maxCuts : Nat) (lt : Cut α → Cut α → Bool) (s : CutSet α) (c : Cut α) : Option (CutSet α) :=
  let old := s.ptrs.take s.len
  let kept := old.filter fun p => !c.dominates (s.store p)
  let ptrs := kept ++ (old.filter fun p => c.dominates (s.store p)) ++ s.ptrs.drop s.len
  match lowerBound lt (kept.map s.store) c with
  | none => none
  | some ipos =>
    if kept.length = maxCuts ∧ ipos = kept.length then some { s with ptrs := ptrs, len := kept.length }
    else
      let pend := if kept.length = maxCuts then kept.length - 1 else kept.length
      match ptrs[pend]? with
      | none => none
      | some p =>
        some { store := fun q => if q = p then { (s.store p).setLeaves c.leaves with data := c.data } else s.store q,
               ptrs := (ptrs.eraseIdx pend).insertIdx ipos p,
               len := pend + 1 }

/-- `update_best`, cut_set.hpp 184-192; `none` for an index outside the array. -/
def CutSet.updateBest (s : CutSet α) (i : Nat) : Option (CutSet α) :=
  match s.ptrs[i]? with
  | none => none
  | some p => some { s with ptrs := p :: s.ptrs.eraseIdx i }

/-- `limit`, cut_set.hpp 197-204; `none` for `limit(0)` on a non-empty set, where `_pend` is set in front of
the array. -/
def CutSet.limit (s : CutSet α) (k : Nat) : Option (CutSet α) :=
  if s.len > k then (if k = 0 then none else some { s with len := k - 1 }) else some s

/-- `remove`, cut_set.hpp 209-219: the pointers behind `i` move down by one, the last position keeps its
pointer as well.  `none` for an empty set or an index outside the set. -/
def CutSet.remove (s : CutSet α) (i : Nat) : Option (CutSet α) :=
  if i < s.len then
    some { s with ptrs := (s.ptrs.take i) ++ ((s.ptrs.take s.len).drop (i + 1)) ++ s.ptrs.drop (s.len - 1),
                  len := s.len - 1 }
  else none

/-- The way the enumeration adds a cut: `if (rcuts.is_dominated(c)) continue; … rcuts.insert(c);`,
cut_enumeration.hpp 416-432, klut_mapping.hpp 846-868, balance.hpp 276-287. -/
def CutSet.offer (maxCuts : Nat) (lt : Cut α → Cut α → Bool) (s : CutSet α) (c : Cut α) : Option (CutSet α) :=
  if s.isDominated c then some s else s.insert maxCuts lt c

/-- a sequence of offers -/
def CutSet.offers (maxCuts : Nat) (lt : Cut α → Cut α → Bool) : CutSet α → List (Cut α) → Option (CutSet α)
  | s, [] => some s
  | s, c :: cs =>
    match s.offer maxCuts lt c with
    | none => none
    | some s' => s'.offers maxCuts lt cs

/-- `operator<` for cuts without cost data, general_cut_enumeration.hpp 25-29: by size. -/
def ltSize (c d : Cut α) : Bool := decide (c.leaves.length < d.leaves.length)

/-- `general_cut_data`, cost fields in thousandths (floats in the code), cut.hpp / general_cut_enumeration.hpp. -/
structure CostData where
  delay : Int
  area : Int
  edge : Int
  power : Int
  useless : Int
deriving DecidableEq, Repr

/-- `operator<` in mode `ETC_AREA`, general_cut_enumeration.hpp 83-109, with `gv_eps` = 0.005 = 5 thousandths. -/
def ltArea (c d : Cut CostData) : Bool :=
  let x := c.data; let y := d.data
  if x.area < y.area - 5 then true else if x.area > y.area + 5 then false
  else if x.edge < y.edge - 5 then true else if x.edge > y.edge + 5 then false
  else if x.power < y.power - 5 then true else if x.power > y.power + 5 then false
  else if x.delay < y.delay - 5 then true else if x.delay > y.delay + 5 then false
  else if c.leaves.length < d.leaves.length then true else if c.leaves.length > d.leaves.length then false
  else decide (x.useless < y.useless)

end Verif.Cuts
