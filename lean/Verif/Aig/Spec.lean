import Verif.Aig.Basic

set_option autoImplicit false

/-!
# What an AIG means (specification side)

These definitions look only at the node vector, the input list and the output list.  They use none of
the algorithms of the model.
-/

namespace Verif.Aig

/-- Node `n` is an AND gate of `N` with fanins `a`, `b`: it exists, is not the constant node, is not an
input and is not dead. -/
def IsGate (N : Aig) (n : Nat) (a b : Sig) : Prop :=
  n ≠ 0 ∧ n ∉ N.inputs ∧ ∃ nd, N.nodes[n]? = some nd ∧ nd.dead = false ∧ nd.c0 = a ∧ nd.c1 = b

/-- `v` respects the constant and all gates of `N`. -/
structure Models (N : Aig) (v : Nat → Bool) : Prop where
  const : v 0 = false
  gate : ∀ n a b, N.IsGate n a b → v n = (a.val v && b.val v)

/-- `v` is a valuation of the nodes of `N` when the k-th combinational input is `x k`. -/
structure Consistent (N : Aig) (x : Nat → Bool) (v : Nat → Bool) : Prop where
  models : N.Models v
  input : ∀ k n, N.inputs[k]? = some n → v n = x k

/-- The signal refers to an existing node. -/
def Valid (N : Aig) (s : Sig) : Prop := s.index < N.nodes.length

instance (N : Aig) (s : Sig) : Decidable (N.Valid s) := inferInstanceAs (Decidable (_ < _))

/-- The number of fanin edges of gates plus outputs that refer to `n`. -/
noncomputable def refCount (N : Aig) (n : Nat) : Nat :=
  open Classical in
  ((List.range N.nodes.length).map fun g =>
    (if ∃ a b, N.IsGate g a b ∧ a.index = n then 1 else 0) +
    (if ∃ a b, N.IsGate g a b ∧ b.index = n then 1 else 0)).sum
  + N.outputs.countP (fun s => s.index == n)

/-- Networks that a client can build with the construction API
(`create_pi`, `create_ro`, `create_po`, `create_ri`, `create_and`; all other constructors are
compositions of these). -/
inductive Built : Aig → Prop
  | empty : Built Aig.empty
  | pi {N} : Built N → Built N.createPi.1
  | ro {N} : Built N → Built N.createRo.1
  | po {N f} : Built N → N.Valid f → Built (N.createPo f)
  | ri {N f r} : Built N → N.Valid f → Built (N.createRi f r)
  | and {N a b} : Built N → N.Valid a → N.Valid b → Built (N.createAnd a b).1

end Verif.Aig
