import Verif.Balance.Proof

set_option autoImplicit false

/-!
# C17: AND balancing preserves behaviour

`balance_and` returns a network in which every output computes the same function of the inputs as before.

Proved for constructed networks without registers, for every implementation of `std::sort` (the order of the two
literals of one node is left open by the comparison). Missing: networks with registers, for which the claim is false
(`C17_violated_registers`).
-/

namespace Verif.Balance

open Aig

/-- C17 without registers: balancing ends, keeps the interface, and every output computes the same function. Reading
levels outside their vector can happen only if the resulting network has no gate. -/
theorem C17_partial (sort : (Sig → Nat × Nat) → List Sig → List Sig) (hsort : ∀ key l, (sort key l).Perm l)
    (N : Aig) (hN : Built N) (hpi : N.inputs.length = N.numPis) (hpo : N.outputs.length = N.numPos)
    (f : Nat) (hf : N.size ≤ f) :
    ∃ D over, balanceAnd sort N f = some (D, over) ∧ Built D ∧ D.numPis = N.numPis ∧ D.inputs.length = N.inputs.length ∧
      D.numPos = N.numPos ∧ D.outputs.length = N.outputs.length ∧
      (∀ x v v', N.Consistent x v → D.Consistent x v' → D.outputs.map (·.val v') = N.outputs.map (·.val v)) ∧
      (over = true → D.numGates = 0) := by
  obtain ⟨hI, hB, i1, i2, i3, i4⟩ := initSt_spec hN hpi
  have htake : N.outputs.take N.numPos = N.outputs := by rw [← hpo, List.take_length]
  obtain ⟨st, outs, e, hs, hv, hlen, hval⟩ := balanceKids_spec
    (fun st n hI hn => balanceRec_spec hsort hN.wf hpi f st n hI hn) N.outputs (initSt N) hI (fun o ho => by
      have := hN.wf.outputs o ho
      simp only [Valid, size] at *
      exact ⟨by omega, this⟩)
  obtain ⟨c1, c2, c3, c4, c5, _, c7, _⟩ := cloneOutputs_spec outs st.ntk (hs.grown.built hB) hv
  rw [hs.grown.outputs, i3, List.nil_append] at c2
  rw [hs.grown.numPos, i4, Nat.zero_add] at c3
  rw [hs.grown.inputs] at c4
  rw [hs.grown.numPis, i1] at c5
  obtain ⟨D, ed, d1, d2, d3, d4, d5, d6⟩ := C14_built_partial (cloneOutputs st.ntk outs) c1 (by rw [c4, c5, i2])
    (by rw [c2, c3]) _ le_rfl
  refine ⟨D, levelsOverrun D, ?_, d1, d2.trans c5, ?_, ?_, ?_, ?_, ?_⟩
  · unfold balanceAnd balancePos
    rw [htake, e]
    dsimp only
    rw [ed]
  · rw [d3, c4, i2, hpi]
  · rw [d4, c3, hlen, hpo]
  · rw [d5, c2, hlen]
  · intro x v v' hc hc'
    obtain ⟨w, hw⟩ : ∃ w, (cloneOutputs st.ntk outs).Consistent x w := ⟨_, c1.wf.consistent_value x⟩
    rw [d6 x w v' hw hc', c2]
    exact hval x v w hc (c7.consistent hw)
  · intro ho
    unfold levelsOverrun at ho
    simp only [Bool.and_eq_true, beq_iff_eq] at ho
    exact ho.1

/-! ### a case -/

/-- `((x1 ∧ x2) ∧ x3) ∧ x4` and its negation with a repeated literal: outputs 7 and `¬(7 ∧ x1)` -/
def chain : Aig :=
  let N := Aig.empty.createPi.1.createPi.1.createPi.1.createPi.1
  let N := (N.createAnd ⟨1, false⟩ ⟨2, false⟩).1
  let N := (N.createAnd ⟨5, false⟩ ⟨3, false⟩).1
  let N := (N.createAnd ⟨6, false⟩ ⟨4, false⟩).1
  let N := (N.createAnd ⟨7, false⟩ ⟨1, false⟩).1
  (N.createPo ⟨7, false⟩).createPo ⟨8, true⟩

theorem chain_built : Built chain := by
  refine Built.po (Built.po (Built.and (Built.and (Built.and (Built.and
    (Built.pi (Built.pi (Built.pi (Built.pi .empty)))) ?_ ?_) ?_ ?_) ?_ ?_) ?_ ?_) ?_) ?_ <;> decide

theorem sortDesc_perm (key : Sig → Nat × Nat) (l : List Sig) : (sortDesc key l).Perm l := List.perm_insertionSort _ _

example : ∃ D over, balanceAnd sortDesc chain 9 = some (D, over) ∧ Built D ∧ D.numPis = 4 ∧ D.outputs.length = 2 := by
  obtain ⟨D, over, e, h1, h2, _, _, h3, _⟩ := C17_partial sortDesc sortDesc_perm chain chain_built (by decide) (by decide) 9
    (by decide)
  exact ⟨D, over, e, h1, h2, h3⟩

/-- The chain of four inputs becomes a tree, without reading levels outside their vector. -/
example : (balanceAnd sortDesc chain 9).map (fun r => (r.1.outputs, r.1.kids 7, r.2)) =
    some ([⟨7, false⟩, ⟨8, true⟩], some (⟨5, false⟩, ⟨6, false⟩), false) := by decide +kernel

/-! ### where the claim fails -/

/-- input 1, register output 2, gate 3 = 1 ∧ 2 drives the output, the register is fed by input 1 -/
def sequential : Aig :=
  let N := Aig.empty.createPi.1.createRo.1
  let N := (N.createAnd ⟨1, false⟩ ⟨2, false⟩).1
  (N.createPo ⟨3, false⟩).createRi ⟨1, false⟩ (-1)

/-- With registers the claim is false: a register output is taken for an AND gate of the nodes encoded in its index, so
the output `x1 ∧ r` becomes `x1`, and the register is lost. -/
theorem C17_violated_registers : ∃ N D over, Built N ∧ balanceAnd sortDesc N N.size = some (D, over) ∧
    D.inputs.length < N.inputs.length ∧ D.outputs.length < N.outputs.length ∧
    ∃ x v v', N.Consistent x v ∧ D.Consistent x v' ∧
      (N.outputs[0]?).map (·.val v) = some false ∧ (D.outputs[0]?).map (·.val v') = some true := by
  have hB : Built sequential := by
    refine Built.ri (Built.po (Built.and (Built.ro (Built.pi .empty)) ?_ ?_) ?_) ?_ <;> decide
  refine ⟨sequential, (Aig.empty.createPi.1).createPo ⟨1, false⟩, true, hB, by decide +kernel, by decide, by decide,
    fun k => k == 0, _, _, hB.wf.consistent_value _, (Built.wf (.po (.pi .empty) (by decide))).consistent_value _, ?_, ?_⟩
  · have hc := hB.wf.consistent_value (fun k => k == 0)
    have h1 := hc.input 0 1 (by decide)
    have h2 := hc.input 1 2 (by decide)
    have h3 := hc.models.gate 3 ⟨1, false⟩ ⟨2, false⟩ ⟨by decide, by decide, _, by rfl, rfl, rfl, rfl⟩
    simp only [show sequential.outputs[0]? = some ⟨3, false⟩ by decide, Option.map_some, Sig.val, Bool.false_xor] at *
    rw [h3, h1, h2]; rfl
  · have hc := (Built.wf (.po (.pi .empty) (f := ⟨1, false⟩) (by decide))).consistent_value (fun k => k == 0)
    simp only [show ((Aig.empty.createPi.1).createPo ⟨1, false⟩).outputs[0]? = some ⟨1, false⟩ by decide,
      Option.map_some, Sig.val, Bool.false_xor]
    rw [hc.input 0 1 (by decide)]; rfl

/-- one input driving the output -/
def wire : Aig := Aig.empty.createPi.1.createPo ⟨1, false⟩

/-- On a network without gates an output driven by an input makes the final copy read a level outside its vector. -/
theorem C17_violated_levels : ∃ N, Built N ∧ N.inputs.length = N.numPis ∧ N.outputs.length = N.numPos ∧
    ∃ D, balanceAnd sortDesc N N.size = some (D, true) := by
  refine ⟨wire, ?_, rfl, rfl, ?_⟩
  · refine Built.po (Built.pi .empty) ?_; decide
  · have : (balanceAnd sortDesc wire wire.size).map (·.2) = some true := by decide +kernel
    cases hb : balanceAnd sortDesc wire wire.size with
    | none => rw [hb] at this; cases this
    | some r =>
      rw [hb] at this
      obtain ⟨D, o⟩ := r
      simp only [Option.map_some, Option.some.injEq] at this
      exact ⟨D, by rw [this]⟩

end Verif.Balance
