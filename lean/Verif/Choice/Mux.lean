import Verif.Aig.Basic

set_option autoImplicit false

/-!
# Multiplexer recognition

Model of `is_mux` and `recognize_mux` (`include/operations/algorithms/aig_with_choice.hpp` 142-255).
-/

namespace Verif.Aig

/-- `is_and`, aig_network.hpp 790-793. -/
def isAnd (N : Aig) (n : Nat) : Bool := decide (n > 0) && !N.isCi n

/-- `get_child0` and `get_child1`, aig_network.hpp 1127-1135; `none` for an access out of range. -/
def kids (N : Aig) (n : Nat) : Option (Sig × Sig) := (N.nodes[n]?).map fun nd => (nd.c0, nd.c1)

/-- The test on the four grandchildren, aig_with_choice.hpp 161-163. -/
def muxPattern (c00 c01 c10 c11 : Sig) : Bool :=
  c00 == c10.not || c00 == c11.not || c01 == c10.not || c01 == c11.not

/-- `is_mux`, aig_with_choice.hpp 142-164. An access out of range is `none`. -/
def isMux (N : Aig) (n : Nat) : Option Bool :=
  if n ≥ N.nodes.length then none
  else if !N.isAnd n then some false
  else
    match N.kids n with
    | none => none
    | some (c0, c1) =>
      if !c0.compl || !c1.compl then some false
      else if c0.index ≥ N.nodes.length ∨ c1.index ≥ N.nodes.length then none
      else if !N.isAnd c0.index || !N.isAnd c1.index then some false
      else
        match N.kids c0.index, N.kids c1.index with
        | some (c00, c01), some (c10, c11) => some (muxPattern c00 c01 c10 c11)
        | _, _ => none

/-- Choice of the control input from the two complementary grandchildren `a` (below the first
child, with sibling `a'`) and `b` (below the second, with sibling `b'`): one of the four equal
branches of `recognize_mux`, aig_with_choice.hpp 187-251. -/
def muxBranch (a a' b b' : Sig) : Sig × Sig × Sig :=
  if a.compl then (b, b'.not, a'.not) else (a, a'.not, b'.not)

/-- The case distinction of `recognize_mux`, aig_with_choice.hpp 187-252, in the order of the code;
`none` is the `assert(0)` of line 253, where the three results stay unset. -/
def muxSelect (c00 c01 c10 c11 : Sig) : Option (Sig × Sig × Sig) :=
  if c01 = c11.not then some (muxBranch c01 c00 c11 c10)
  else if c00 = c10.not then some (muxBranch c00 c01 c10 c11)
  else if c00 = c11.not then some (muxBranch c00 c01 c11 c10)
  else if c01 = c10.not then some (muxBranch c01 c00 c10 c11)
  else none

/-- `recognize_mux`, aig_with_choice.hpp 174-255: control, then-input, else-input. -/
def recognizeMux (N : Aig) (n : Nat) : Option (Sig × Sig × Sig) :=
  match N.kids n with
  | none => none
  | some (c0, c1) =>
    match N.kids c0.index, N.kids c1.index with
    | some (c00, c01), some (c10, c11) => muxSelect c00 c01 c10 c11
    | _, _ => none

end Verif.Aig
