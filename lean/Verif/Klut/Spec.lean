import Verif.Klut.Basic

set_option autoImplicit false

/-!
# What a LUT network means (specification side)
-/

namespace Verif.Klut

/-- Node `n` is a LUT with fanins `cs` and function `f`. -/
def IsLut (N : Klut) (n : Nat) (cs : List Nat) (f : TT) : Prop :=
  2 ≤ n ∧ n ∉ N.inputs ∧ ∃ nd, N.nodes[n]? = some nd ∧ nd.children = cs ∧ N.cache.lookup nd.fn = some f

/-- the values of the fanins, as an assignment of the variables of the LUT function -/
def args (v : Nat → Bool) (cs : List Nat) : Nat → Bool := fun j => match cs[j]? with
  | some c => v c
  | none => false

/-- `v` is a valuation of the nodes of `N` when the k-th combinational input is `x k`. -/
structure Consistent (N : Klut) (x v : Nat → Bool) : Prop where
  const0 : v 0 = false
  const1 : v 1 = true
  input : ∀ k n, N.inputs[k]? = some n → v n = x k
  lut : ∀ n cs f, N.IsLut n cs f → v n = f.eval (args v cs)

/-- Networks that a client can build with the construction API. -/
inductive Built : Klut → Prop
  | empty : Built Klut.empty
  | pi {N} : Built N → Built N.createPi.1
  | ro {N} : Built N → Built N.createRo.1
  | po {N f} : Built N → f < N.nodes.length → Built (N.createPo f)
  | ri {N f r} : Built N → f < N.nodes.length → Built (N.createRi f r)
  | node {N cs f} : Built N → (∀ c ∈ cs, c < N.nodes.length) → f.WF → f.n = cs.length → Built (N.createNode cs f).1
  | not {N a} : Built N → a < N.nodes.length → Built (N.createNot a).1
  | and {N a b} : Built N → a < N.nodes.length → b < N.nodes.length → Built (N.createAnd a b).1
  | or {N a b} : Built N → a < N.nodes.length → b < N.nodes.length → Built (N.createOr a b).1
  | lt {N a b} : Built N → a < N.nodes.length → b < N.nodes.length → Built (N.createLt a b).1
  | le {N a b} : Built N → a < N.nodes.length → b < N.nodes.length → Built (N.createLe a b).1
  | xor {N a b} : Built N → a < N.nodes.length → b < N.nodes.length → Built (N.createXor a b).1
  | maj {N a b c} : Built N → a < N.nodes.length → b < N.nodes.length → c < N.nodes.length →
      Built (N.createMaj a b c).1
  | ite {N a b c} : Built N → a < N.nodes.length → b < N.nodes.length → c < N.nodes.length →
      Built (N.createIte a b c).1
  | xor3 {N a b c} : Built N → a < N.nodes.length → b < N.nodes.length → c < N.nodes.length →
      Built (N.createXor3 a b c).1

end Verif.Klut
