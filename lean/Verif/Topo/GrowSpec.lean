import Verif.Topo.Grow
import Verif.Aig.Spec

set_option autoImplicit false

/-!
# Specification for C82: longest ways, used gates, and the uses of a depth view
-/

namespace Verif.Topo.Grow

/-- A complemented edge counts if complements are counted. -/
def weight (cc : Bool) (s : Sig) : Nat := if cc = true ∧ s.compl = true then 1 else 0

/-- There is a way of length `k` from `n` towards the inputs: each gate that is left counts one. -/
inductive Way (N : Aig) (cc : Bool) : Nat → Nat → Prop
  | stop (n : Nat) : Way N cc n 0
  | gate {n k : Nat} {a b s : Sig} : N.IsGate n a b → s = a ∨ s = b → Way N cc s.index k → Way N cc n (k + weight cc s + 1)

/-- `l` is the length of a longest way from `n`. -/
def IsLevel (N : Aig) (cc : Bool) (n l : Nat) : Prop := Way N cc n l ∧ ∀ k, Way N cc n k → k ≤ l

/-- `d` is the length of a longest way from the outputs, 0 without outputs. -/
def IsDepth (N : Aig) (cc : Bool) (d : Nat) : Prop :=
  (∀ f ∈ N.outputs, ∀ k, Way N cc f.index k → k + weight cc f ≤ d) ∧
    (d = 0 ∨ ∃ f ∈ N.outputs, ∃ k, Way N cc f.index k ∧ d = k + weight cc f)

/-- Some output depends on `n`. -/
inductive Used (N : Aig) : Nat → Prop
  | out {f : Sig} : f ∈ N.outputs → Used N f.index
  | gate {n : Nat} {a b s : Sig} : Used N n → N.IsGate n a b → s = a ∨ s = b → Used N s.index

/-- Some output depends on every gate. -/
def AllUsed (N : Aig) : Prop := ∀ n a b, N.IsGate n a b → Used N n

/-- The views that can be reached without registers, if no gate is unused whenever all levels are computed: by the default constructor, by the constructor from a network, and
by creating inputs, outputs and gates, resizing and updating. Calls that read outside a vector lead nowhere; the number of nodes bounds the depth of the recursion. -/
inductive Session : View → Prop
  | fresh (cc : Bool) : Session (fresh cc)
  | net {N : Aig} {cc : Bool} {fuel : Nat} {V : View} : Aig.Built N → N.inputs.length = N.numPis → N.outputs.length = N.numPos → AllUsed N →
      N.nodes.length ≤ fuel →
      ofNet N cc fuel = some V → Session V
  | pi {V : View} : Session V → Session V.createPi.1
  | po {V V' : View} {f : Sig} : Session V → V.createPo f = some V' → Session V'
  | and {V : View} {a b : Sig} {r : View × Sig} : Session V → V.net.Valid a → V.net.Valid b → V.createAnd a b = some r → Session r.1
  | resize {V : View} : Session V → Session V.resize
  | update {V V' : View} {fuel : Nat} : Session V → AllUsed V.net → V.net.nodes.length ≤ fuel → V.update fuel = some V' → Session V'

end Verif.Topo.Grow
