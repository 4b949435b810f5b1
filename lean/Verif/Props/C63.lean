import Verif.Choice.SweepProof
import Verif.Choice.Dpll
import Verif.Props.C60
import Verif.Props.C41

set_option autoImplicit false

/-!
# C63: choice computation keeps all functions

The claim for all networks is false for the reasons of C60 (`C60_violated_order`, `C60_violated_registers`): the sweeping (`C63_repr`) is right for
all networks, what is made of its result is not.
-/

namespace Verif.Choice
open Aig (WF Built)

/-- C63. Whatever the random numbers, and for every solver whose answers `unsat` are right (its models may be wrong): `man_sweep` gives every node a
representative that is not larger and has the same value up to their phases, for all input values. -/
theorem C63_repr (N : Aig) (hN : N.Built) (E : Env) (hw : 0 < E.nwords) (hs : Prover.Sound E.solve) (S : Sweep) (e : manSweep N E = some S) :
    S.repr.length = N.nodes.length ∧ ∀ n r : Nat, S.repr[n]? = some r → r ≤ n ∧
      ∀ v, N.Models v → Bool.xor (v n) (N.phaseOf n) = Bool.xor (v r) (N.phaseOf r) := by
  rcases manSweep_spec hN.phased hw hs with ⟨S', e', h⟩ | ⟨e', -⟩
  · rw [e] at e'
    obtain rfl := Option.some.inj e'
    exact ⟨h.repr.len, fun n r hr => ⟨h.repr.le n r hr, fun v hv => h.repr.same n r hr v hv⟩⟩
  · rw [e] at e'; cases e'

/-- C63. The sweeping is defined for networks of less than 1000 nodes: all entries exist, all recursions end. -/
theorem C63_defined (N : Aig) (hN : N.Built) (E : Env) (hw : 0 < E.nwords) (hs : Prover.Sound E.solve) (hlt : N.nodes.length < 1000) :
    ∃ S, manSweep N E = some S := by
  rcases manSweep_spec hN.phased hw hs with ⟨S', e', _⟩ | ⟨_, h⟩
  · exact ⟨S', e'⟩
  · omega

theorem computeChoice_spec {N : Aig} (hN : N.Phased) (hi : InputsFirst N) (E : Env) (hw : 0 < E.nwords) (hs : Prover.Sound E.solve) :
    (N.nodes.length < 1000 → ∃ D, computeChoice N E = some D) ∧
    ∀ D, computeChoice N E = some D → SameOutputs N D.net ∧ D.Ordered ∧ D.Sound := by
  rcases manSweep_spec hN hw hs with ⟨S, e, h⟩ | ⟨e, hb⟩
  · obtain ⟨D, e2, h1, h2, h3, _⟩ := derive_wf N hN.wf hi S.repr h.repr
    rw [computeChoice, e, Option.bind_some, e2]
    exact ⟨fun _ => ⟨D, rfl⟩, fun D' e => by obtain rfl := Option.some.inj e; exact ⟨h1, h2, h3⟩⟩
  · rw [computeChoice, e]
    exact ⟨fun h => by omega, fun D' e => by cases e⟩

/-- C63 for networks whose inputs come first, register outputs counted as inputs and register inputs as outputs: `compute_choice` gives a network
with the same output functions in which all recorded choices are equivalent to their representatives. Missing: inputs after gates, where it fails; that
registers stay registers, which is not the case. -/
theorem C63_choice_partial (N : Aig) (hN : N.Built) (hi : InputsFirst N) (E : Env) (hw : 0 < E.nwords) (hs : Prover.Sound E.solve) :
    (N.nodes.length < 1000 → ∃ D, computeChoice N E = some D) ∧
    ∀ D, computeChoice N E = some D → SameOutputs N D.net ∧ D.Ordered ∧ D.Sound :=
  computeChoice_spec hN.phased hi E hw hs

/-- C63 for the whole flow of `map_fpga` with choices: miter of the networks, choice computation, mapping, LUT network. Whatever the random numbers,
the heuristics of the mapper and the answers of a sound solver, the LUT network has the output functions of the first network. Missing: networks with
registers, without inputs or with inputs after gates; mappings in which a node is its own cell; cut limits other than 3 to 11. -/
theorem C63_pipeline_partial {β : Type} (k : Nat) (hk : 0 < k) (A : Aig) (l : List Aig) (hgood : ∀ B ∈ A :: l, ChoiceMiter.Good k B)
    (hpo : ∀ B ∈ A :: l, B.outputs.length = A.numPos) (fuel : Nat) (hf : ∀ B ∈ A :: l, B.nodes.length ≤ fuel)
    (E : Env) (hw : 0 < E.nwords) (hs : Prover.Sound E.solve) :
    ∃ M, ChoiceMiter.merge fuel (A :: l) = some M ∧ (M.nodes.length < 1000 → ∃ D, computeChoice M E = some D) ∧
      ∀ D, computeChoice M E = some D → ∀ (p : Mapper.Ps), Mapper.PsOk p.cut → ∀ (H : Nat → Nat → Mapper.Heur β) (cost : β) (L : Mapping),
      Mapper.klutMap p D H cost = some L → (∀ n, ¬ Mapper.SelfCell D.net L n) →
      ∃ r, Collapse.choiceToKlut D.net L = some r ∧ (r = none ↔ L.hasMapping = false ∧ 0 < D.net.numGates) ∧
        ∀ K, r = some K → K.inputs.length = A.inputs.length ∧ K.outputs.length = A.outputs.length ∧
          (∀ x v v', A.Consistent x v → K.Consistent x v' → K.outputs.map v' = A.outputs.map (·.val v)) ∧
          ∀ (n : Nat) nd, K.nodes[n]? = some nd → nd.children.length ≤ p.cut.cutSize := by
  obtain ⟨M, e, hm, hin, hph⟩ := ChoiceMiter.merge_spec k hk A l hgood hpo fuel hf
  have hi : InputsFirst M := by unfold InputsFirst; rw [hin]; simp
  obtain ⟨h1, h2⟩ := computeChoice_spec hph hi E hw hs
  refine ⟨M, e, h1, fun D hD p hp H cost L hL hself => ?_⟩
  obtain ⟨h3, h4, h5⟩ := h2 D hD
  obtain ⟨r, e2, h6, h7⟩ := mapping_of h3 h4 h5 p hp H cost L hL hself
  refine ⟨r, e2, h6, fun K hK => ?_⟩
  obtain ⟨q1, q2, q3, q4⟩ := h7 K hK
  refine ⟨by rw [q1, hm.inputs], by rw [q2, hm.outputs], fun x v v' hv hv' => ?_, q4⟩
  have hw := hph.wf.consistent_value x
  rw [q3 x _ v' hw hv', hm.val x v _ hv hw]

/-! ### Examples -/

/-- the parameters of choice_computation.hpp 36-40, the generator of the program and a solver that can be run -/
def runEnv : Env := ⟨8, ⟨5000, 100, true⟩, minstd, Prover.search⟩

/-- In `simNet` gate 6 gets the representative 4, `a ∧ b = a ∧ ¬(a ∧ ¬b)`, by two questions to the solver. -/
theorem simNet_sweep : (manSweep simNet runEnv).map (fun S => (S.repr, S.asks)) = some ([0, 1, 2, 3, 4, 5, 4, 7], 2) := by decide +kernel

example : ∃ S, manSweep simNet runEnv = some S ∧ S.repr[6]? = some 4 ∧
    ∀ v, simNet.Models v → Bool.xor (v 6) (simNet.phaseOf 6) = Bool.xor (v 4) (simNet.phaseOf 4) := by
  obtain ⟨S, e⟩ := C63_defined simNet simNet_built runEnv (by decide) Prover.search_sound (by decide)
  have h := simNet_sweep
  rw [e] at h
  obtain ⟨h1, -⟩ : S.repr = [0, 1, 2, 3, 4, 5, 4, 7] ∧ S.asks = 2 := by simpa using h
  have h6 : S.repr[6]? = some 4 := by rw [h1]; rfl
  exact ⟨S, e, h6, ((C63_repr simNet simNet_built runEnv (by decide) Prover.search_sound S e).2 6 4 h6).2⟩

/-- two inputs; `mA` has the output `x₁ ∧ x₂`, `mB` has `x₂ ∧ ¬(¬x₁ ∧ x₂)`: the miter has 6 nodes -/
example : ∃ M, ChoiceMiter.merge 5 [ChoiceMiter.mA, ChoiceMiter.mB] = some M ∧ (M.nodes.length < 1000 → ∃ D, computeChoice M runEnv = some D) := by
  obtain ⟨M, e, h, _⟩ := C63_pipeline_partial (β := Nat) 2 (by decide) ChoiceMiter.mA [ChoiceMiter.mB] (by
      intro B hB
      simp only [List.mem_cons, List.not_mem_nil, or_false] at hB
      rcases hB with rfl | rfl
      · exact ChoiceMiter.mA_good
      · exact ChoiceMiter.mB_good) (by
      intro B hB
      simp only [List.mem_cons, List.not_mem_nil, or_false] at hB
      rcases hB with rfl | rfl <;> decide) 5 (by
      intro B hB
      simp only [List.mem_cons, List.not_mem_nil, or_false] at hB
      rcases hB with rfl | rfl <;> decide) runEnv (by decide) Prover.search_sound
  exact ⟨M, e, h⟩

/-- In the miter the two forms of the output are found to be equivalent: node 5, the output, represents the class, node 4 is its choice. -/
theorem miter_choice : ((ChoiceMiter.merge 5 [ChoiceMiter.mA, ChoiceMiter.mB]).bind (computeChoice · runEnv)).map
    (fun D => (D.equivs, D.net.outputs, D.net.gates)) = some ([none, none, none, none, none, some 4], [⟨5, false⟩], [3, 4, 5]) := by decide +kernel

end Verif.Choice
