import Verif.Klut.Mapping
import Verif.Klut.Spec
import Verif.Topo.Proof
import Verif.Aig.Spec

set_option autoImplicit false

/-!
# Legal covers of an AIG by cells (specification side)
-/

namespace Verif.Cover
open RefDeref (aigKids)
open Topo (Tfi)

/-- `n` is a gate that is a cell root -/
def Root (N : Aig) (M : Mapping) (n : Nat) : Prop := (∃ a b, N.IsGate n a b) ∧ M.isCellRoot n = some true

/-- A node whose value is available between LUTs: constant, input or cell root. -/
def Avail (N : Aig) (M : Mapping) (n : Nat) : Prop := n = 0 ∨ n ∈ N.inputs ∨ Root N M n

/-- The cells of `M` cover the outputs of `N`: the outputs are available, the leaves of every cell are available
and lie strictly below the root, and the cell function is the function of the root in terms of the leaves. -/
structure Legal (N : Aig) (M : Mapping) : Prop where
  marked : ∀ n, n < N.nodes.length → ∃ b, M.isCellRoot n = some b
  output : ∀ o ∈ N.outputs, Avail N M o.index
  cell : ∀ n, Root N M n → ∃ cs f, M.cellFanins n = some cs ∧ M.cellFunction n = some f ∧ f.WF ∧ f.n = cs.length ∧
    (∀ l ∈ cs, Avail N M l ∧ l ≠ n ∧ Tfi (aigKids N) n l) ∧
    ∀ v, N.Models v → v n = f.eval (Klut.args v cs)

/-- The cells of `M` compute what they should from available nodes, whatever the order of the nodes. Nothing excludes
a cell that has itself as a leaf. -/
structure Right (N : Aig) (M : Mapping) : Prop where
  marked : ∀ n, n < N.nodes.length → ∃ b, M.isCellRoot n = some b
  output : ∀ o ∈ N.outputs, Avail N M o.index
  cell : ∀ n, Root N M n → ∃ cs f, M.cellFanins n = some cs ∧ M.cellFunction n = some f ∧ f.WF ∧ f.n = cs.length ∧
    (∀ l ∈ cs, Avail N M l) ∧ ∀ v, N.Models v → v n = f.eval (Klut.args v cs)

theorem Legal.right {N : Aig} {M : Mapping} (h : Legal N M) : Right N M := by
  refine ⟨h.marked, h.output, fun n hr => ?_⟩
  obtain ⟨cs, f, h1, h2, h3, h4, h5, h6⟩ := h.cell n hr
  exact ⟨cs, f, h1, h2, h3, h4, fun l hl => (h5 l hl).1, h6⟩

/-- The leaves of every cell have smaller indices than the root. With choices a leaf need not be in the cone of
the root, but the cells still cannot form a loop. -/
def Rising (N : Aig) (M : Mapping) : Prop :=
  ∀ n cs, Root N M n → M.cellFanins n = some cs → ∀ l ∈ cs, l < n

end Verif.Cover
