import Mathlib.Data.Nat.Notation

set_option autoImplicit false

/-!
# Cuts

Model of `include/database/cut/cut.hpp` 79-305.  Leaves are natural numbers (`uint32_t` in the code, never
computed with), the signature is a natural number below 2^64.
-/

namespace Verif.Cuts

/-- `cut<MaxLeaves, T>`, cut.hpp 79-207: leaves, signature and data.  `_length`, `_cend` and `_end` are
the length of the list. -/
structure Cut (α : Type) where
  leaves : List Nat
  sig : Nat
  data : α
deriving DecidableEq, Repr

/-- the signature computed by `set_leaves`, cut.hpp 231-236: bit `leaf & 63` for every leaf. -/
def signature : List Nat → Nat
  | [] => 0
  | x :: l => 2 ^ (x % 64) ||| signature l

variable {α : Type}

/-- `set_leaves`, cut.hpp 225-237 (the array must be large enough; checked by the callers in the model). -/
def Cut.setLeaves (c : Cut α) (l : List Nat) : Cut α := { c with leaves := l, sig := signature l }

/-- the loop of `dominates`, cut.hpp 270-280: `it1` never reaches the end inside the loop. -/
def includesLoop : List Nat → List Nat → Bool
  | _, [] => false
  | [], _ :: _ => true
  | x :: a, y :: b =>
    if x < y then false
    else if y = x then (if a.isEmpty then true else includesLoop a b)
    else includesLoop (x :: a) b

/-- `dominates`, cut.hpp 246-282. -/
def Cut.dominates (c d : Cut α) : Bool :=
  if c.leaves.length > d.leaves.length ∨ c.sig &&& d.sig ≠ c.sig then false
  else if c.leaves.length = d.leaves.length then c.leaves == d.leaves
  else if c.leaves.length = 0 then true
  else includesLoop c.leaves d.leaves

/-- one element of the first range against the second range in `std::set_union`; `rest` continues with
the rest of the first range. -/
def unionStep (x : Nat) (a : List Nat) (rest : List Nat → List Nat) : List Nat → List Nat
  | [] => x :: a
  | y :: b =>
    if x < y then x :: rest (y :: b)
    else if y < x then y :: unionStep x a rest b
    else x :: rest b

/-- `std::set_union`, used in cut.hpp 296. -/
def setUnion : List Nat → List Nat → List Nat
  | [], b => b
  | x :: a, b => unionStep x a (setUnion a) b

/-- `__builtin_popcount` of a 32-bit value -/
def popcount32 (w : Nat) : Nat := ((List.range 32).map fun i => if w.testBit i then 1 else 0).sum

/-- outcome of `merge` -/
inductive Merged (α : Type)
  /-- `std::set_union` writes past the end of the leaf array -/
  | overflow
  /-- `false` is returned -/
  | tooLarge
  | ok (c : Cut α)
deriving DecidableEq, Repr

/-- `merge`, cut.hpp 284-306. `res` keeps its data. -/
def Cut.merge (maxLeaves : Nat) (c d res : Cut α) (cutSize : Nat) : Merged α :=
  let sign := (c.sig + d.sig) % 2 ^ 64
  if c.leaves.length + d.leaves.length > cutSize ∧
      popcount32 (sign % 2 ^ 32) + popcount32 (sign / 2 ^ 32) > cutSize then .tooLarge
  else
    let u := setUnion c.leaves d.leaves
    if u.length > maxLeaves then .overflow
    else if u.length ≤ cutSize then .ok { res with leaves := u, sig := c.sig ||| d.sig }
    else .tooLarge

end Verif.Cuts
