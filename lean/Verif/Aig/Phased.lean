import Verif.Props.AigInv

set_option autoImplicit false

/-!
# Networks with right phase bits

Some networks are not constructed by the public operations alone: `merge_aigs_to_miter` removes outputs afterwards. What the algorithms need is kept.
-/

namespace Verif.Aig

/-- a well-formed network whose phase bits are the values for all inputs 0 -/
structure Phased (N : Aig) : Prop where
  wf : WF N
  zero : ∀ v, N.Models v → (∀ i ∈ N.inputs, v i = false) → ∀ n, n < N.nodes.length → N.phaseOf n = v n

theorem Built.phased {N : Aig} (h : Built N) : Phased N :=
  ⟨h.wf, fun v hv h0 => C09_phase N h v ⟨hv, fun _ _ hk => h0 _ (List.mem_of_getElem? hk)⟩⟩

/-- other outputs -/
theorem Phased.outputs {N : Aig} (h : Phased N) {K : List Sig} {k : Nat} (hK : ∀ s ∈ K, N.Valid s) : Phased { N with outputs := K, numPos := k } := by
  refine ⟨⟨h.wf.pos, h.wf.node0, h.wf.input, h.wf.gate, h.wf.table, h.wf.tableNodup, h.wf.inputsNodup, h.wf.uniq, hK⟩, ?_⟩
  intro v hv h0 n hn
  exact h.zero v ⟨hv.const, fun m a b g => hv.gate m a b g⟩ h0 n hn

end Verif.Aig
