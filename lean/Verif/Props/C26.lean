import Verif.Refactor.Proof

set_option autoImplicit false

/-!
# C26: refactoring preserves the function

`Built`, `Consistent` and `Valid` are the specification of `Verif/Aig/Spec.lean`: `Consistent x v` says that `v` gives
the inputs the values `x` and respects the constant and every gate.
-/

namespace Verif.Refactor

open Verif.Aig (Built)

/-- C26 for networks without registers and cuts of at most 31 leaves: whenever `refactor` comes back, the result is a
constructed network with the same inputs and outputs, and every output computes the same function.  Missing from
the full statement: registers (false, `C26_registers`), networks with gates outside the cones of the outputs on which
the result of `find` is dereferenced without a test (`C26_undefined`), and termination. -/
theorem C26_partial (P : RfParams) (hP : P.maxLeaves ≤ 31) (f : Nat) (N D : Aig) (hN : Built N)
    (hpi : N.inputs.length = N.numPis) (hpo : N.outputs.length = N.numPos) (e : refactor P f N = .ok D) :
    Built D ∧ D.numPis = N.numPis ∧ D.inputs.length = N.inputs.length ∧ D.numPos = N.numPos ∧
      D.outputs.length = N.outputs.length ∧
      ∀ x v v', N.Consistent x v → D.Consistent x v' → D.outputs.map (·.val v') = N.outputs.map (·.val v) := by
  obtain ⟨M, hM, e⟩ := andThen_ok e
  have e := orBound_ok e
  have R := refactorCore_rel hP hN hpi hM
  have F := R.step.frame
  obtain ⟨d1, d2, d3, d4, d5, d6⟩ := Aig.C14_returns_partial M R.step.loose.source
    (by rw [F.inputs, F.numPis]; exact hpi) (by rw [F.outLen, F.numPos]; exact hpo) f D e
  refine ⟨d1, d2.trans F.numPis, by rw [d3, F.inputs], d4.trans F.numPos, d5.trans F.outLen, ?_⟩
  intro x v v' hv hv'
  obtain ⟨u, hm, hi, ho⟩ := R.follow v (hN.modelsAll hv.models)
  rw [← ho]
  refine d6 x u v' ⟨hm.const, fun o _ n _ h0 hni nd hnd => hm.gate n nd h0 hni hnd⟩ ?_ hv'
  intro k n hk
  rw [F.inputs] at hk
  rw [hi n (List.mem_of_getElem? hk)]
  exact hv.input k n hk

/-! ### Example: `a b + a c` becomes `a (b + c)` -/

/-- three inputs -/
def ins3 : Aig := ((Aig.empty.createPi.1).createPi.1).createPi.1

/-- `a b + a c` -/
def sumProd : Aig :=
  ((((ins3.createAnd ⟨1, false⟩ ⟨2, false⟩).1).createAnd ⟨1, false⟩ ⟨3, false⟩).1.createAnd ⟨4, true⟩ ⟨5, true⟩).1.createPo
    ⟨6, true⟩

theorem sumProd_built : Built sumProd :=
  .po (.and (.and (.and (.pi (.pi (.pi .empty))) (by decide) (by decide)) (by decide) (by decide)) (by decide) (by decide))
    (by decide)

/-- the values set by the `refactor` command -/
def rfDefault : RfParams := ⟨10, 16, true, false⟩

/-- the network has three gates, the result two: the hypotheses of `C26_partial` hold for it -/
example : Built sumProd ∧ sumProd.inputs.length = sumProd.numPis ∧ sumProd.outputs.length = sumProd.numPos ∧
    rfDefault.maxLeaves ≤ 31 ∧ sumProd.numGates = 3 ∧
    (match refactor rfDefault 30 sumProd with
      | .ok D => some (D.numGates, D.outputs.length)
      | .error _ => none) = some (2, 1) :=
  ⟨sumProd_built, by decide, by decide, by decide, by decide, by decide +kernel⟩

/-! ### What is missing -/

/-- a network with a gate on top of a gate, neither of which drives an output -/
def dangling : Aig :=
  (((ins3.createAnd ⟨1, false⟩ ⟨2, false⟩).1).createAnd ⟨4, false⟩ ⟨3, false⟩).1.createPo ⟨1, true⟩

/-- On a network with gates outside the cones of the outputs `refactor` dereferences the end of a map: depths are
computed on a `topo_view` (refactor.hpp 132-150), which does not contain these gates, but all gates are visited (82). -/
theorem C26_undefined : Built dangling ∧ dangling.inputs.length = dangling.numPis ∧
    dangling.outputs.length = dangling.numPos ∧
    (match refactor rfDefault 30 dangling with
      | .error .undefined => true
      | _ => false) = true :=
  ⟨.po (.and (.and (.pi (.pi (.pi .empty))) (by decide) (by decide)) (by decide) (by decide)) (by decide),
    by decide, by decide, by decide +kernel⟩

/-- Registers are lost: the network with one input and one register has no register afterwards. -/
theorem C26_registers : ∃ N, Built N ∧ N.inputs.length = 2 ∧ N.outputs.length = 2 ∧
    (match refactor rfDefault 30 N with
      | .ok D => some (D.inputs.length, D.outputs.length)
      | .error _ => none) = some (1, 1) :=
  ⟨((((Aig.empty.createPi).1.createRo).1.createPo ⟨2, false⟩).createRi ⟨1, false⟩ 0),
    .ri (.po (.ro (.pi .empty)) (by decide)) (by decide), by decide, by decide, by decide +kernel⟩

end Verif.Refactor
