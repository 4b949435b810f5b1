import Verif.Aig.Cleanup

set_option autoImplicit false

/-!
# miter

Model of `include/operations/algorithms/miter.hpp` 41-83 for AIGs.
-/

namespace Verif.Aig

/-- `std::transform( pos1.begin(), pos1.end(), pos2.begin(), …, create_xor )`, miter.hpp 74-77; `none` when
the second sequence is shorter (read past its end). -/
def xorOutputs : List Sig → List Sig → Aig → Option (Aig × List Sig)
  | [], _, D => some (D, [])
  | _ :: _, [], _ => none
  | o1 :: l1, o2 :: l2, D =>
    let r := D.createXor o1 o2
    match xorOutputs l1 l2 r.1 with
    | none => none
    | some (D, xs) => some (D, r.2 :: xs)

/-- copies of both networks and the exclusive-ors of the outputs, miter.hpp 62-77. -/
def miterXors (N1 N2 : Aig) (fuel : Nat) : Option (Aig × List Sig) :=
  let q := cloneInputs N1.numPis Aig.empty
  match cleanupInto N1 q.1 q.2 fuel with
  | none => none
  | some (D1, pos1) =>
    match cleanupInto N2 D1 q.2 fuel with
    | none => none
    | some (D2, pos2) => xorOutputs pos1 pos2 D2

/-- `miter`, miter.hpp 41-83. The outer `none` is undefined behaviour or non-termination of the copies,
the inner one is `std::nullopt`. -/
def miter (N1 N2 : Aig) (fuel : Nat) : Option (Option Aig) :=
  if N1.numPis ≠ N2.numPis ∨ N1.numPos ≠ N2.numPos then some none
  else match miterXors N1 N2 fuel with
    | none => none
    | some (D3, xs) =>
      let r := D3.createNaryOr xs
      some (some (r.1.createPo r.2))

end Verif.Aig
