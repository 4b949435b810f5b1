import Verif.Choice.Mux

set_option autoImplicit false

/-!
# AIGs with choices

Model of `include/operations/algorithms/aig_with_choice.hpp` 38-128 and 256-306.
-/

namespace Verif

/-- `aig_with_choice`: an AIG with, for every node, the next node of its class (`_equivs`, a linked
list) and its representative (`_reprs`), aig_with_choice.hpp 301-302. `none` is `AIG_NULL`. -/
structure Choice where
  net : Aig
  equivs : List (Option Nat)
  reprs : List Nat
deriving DecidableEq, Repr

namespace Choice

/-- Constructor from a network and `init_choices`, aig_with_choice.hpp 50-60 and 88-98. The two
arrays get the given size; `derive_choice_aig` constructs an empty network with the size of another
one and adds nodes later (choice_computation.hpp 1073). -/
def init (N : Aig) (size : Nat) : Choice :=
  { net := N, equivs := List.replicate size none, reprs := List.range size }

/-- The class list from a node on: the loops over `_equivs` of aig_with_choice.hpp 117-121 and
266-269. `none` for an access out of range, or when the list does not end within the given number
of steps. -/
def chain (C : Choice) : Nat → Option Nat → Option (List Nat)
  | _, none => some []
  | 0, some _ => none
  | fuel + 1, some n =>
    match C.equivs[n]? with
    | none => none
    | some e => (chain C fuel e).map (n :: ·)

/-- `check_tfi_rec`, aig_with_choice.hpp 280-298, with the nodes marked by `set_value(tmp, 1)` given
as a list. Simplified: node values are taken to be 0 outside `check_tfi`, and the visited marks of
the new traversal id to be unset at its start. The first argument bounds the recursion depth. -/
def checkRec (C : Choice) (marked : List Nat) : Nat → Option Nat → List Nat →
    Option (Bool × List Nat)
  | _, none, V => some (false, V)
  | 0, some _, _ => none
  | fuel + 1, some n, V =>
    if n ≥ C.net.nodes.length then none
    else if C.net.isCi n then some (false, V)
    else if n ∈ marked then some (true, V)
    else if n ∈ V then some (false, V)
    else
      match C.net.kids n, C.equivs[n]? with
      | some (a, b), some e =>
        (checkRec C marked fuel (some a.index) (n :: V)).bind fun r1 =>
          if r1.1 then some r1
          else
            (checkRec C marked fuel (some b.index) r1.2).bind fun r2 =>
              if r2.1 then some r2 else checkRec C marked fuel e r2.2
      | _, _ => none

/-- `set_choice`, aig_with_choice.hpp 106-126, with `check_tfi`, 263-278. The recursion bound is the
number of nodes plus one; theorem `checkRec_total` shows that it is never reached. -/
def setChoice (C : Choice) (n r : Nat) : Option (Choice × Bool) :=
  if r ≥ n then some (C, false)
  else
    match C.chain (C.equivs.length + 1) (some r) with
    | none => none
    | some l =>
      match C.checkRec l (C.net.nodes.length + 1) (some n) [] with
      | none => none
      | some (true, _) => some (C, false)
      | some (false, _) =>
        match l.getLast? with
        | none => none
        | some t =>
          if n < C.reprs.length then
            some ({ C with reprs := C.reprs.set n r, equivs := C.equivs.set t (some n) }, true)
          else none

end Choice
end Verif
