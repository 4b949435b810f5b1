import Verif.Balance.Depth
import Verif.Props.C17

set_option autoImplicit false

/-!
# C52: AND balancing never makes an output deeper

The depth of an output of the balanced network, i.e. the largest number of gates on a path to it, is at most the depth of
the same output before. `GPath N n d` (Balance/Depth.lean): there is a path with `d` gates ending in `n`.

Proved for constructed networks without registers and for every implementation of `std::sort` that returns a
permutation ordered by the comparison. Missing: networks with registers, which `balance_and` does not support
(`C17_violated_registers`).
-/

namespace Verif.Balance

open Aig

/-- C52 without registers: every path to an output of the result is matched by a path at least as long to the same
output of the source. -/
theorem C52_partial (sort : (Sig → Nat × Nat) → List Sig → List Sig) (hsort : Sorts sort)
    (N : Aig) (hN : Built N) (hpi : N.inputs.length = N.numPis) (hpo : N.outputs.length = N.numPos)
    (f : Nat) (hf : N.size ≤ f) :
    ∃ D over, balanceAnd sort N f = some (D, over) ∧ D.outputs.length = N.outputs.length ∧
      ∀ (i : Nat) o o', N.outputs[i]? = some o → D.outputs[i]? = some o' →
        ∀ d, GPath D o'.index d → ∃ d', d ≤ d' ∧ GPath N o.index d' := by
  obtain ⟨hI, hB, i1, i2, i3, i4⟩ := initSt_spec hN hpi
  have htake : N.outputs.take N.numPos = N.outputs := by rw [← hpo, List.take_length]
  have hout : ∀ o ∈ N.outputs, o.index < f ∧ o.index < N.nodes.length := fun o ho => by
    have := hN.wf.outputs o ho
    simp only [Valid, size] at *
    exact ⟨by omega, this⟩
  have hrec := fun st n (hI : BInv N (initSt N).ntk st) hn => balanceRec_spec hsort.perm hN.wf hpi f st n hI hn
  obtain ⟨st, outs, e, hs, hv, hlen, _⟩ := balanceKids_spec hrec N.outputs (initSt N) hI hout
  obtain ⟨hd, _, _, hlv⟩ := balanceKids_depth hrec
    (fun st n hI hd hn => balanceRec_depth hsort hN.wf hpi (lvl_bound hN.wf) f st n hI hd hn)
    N.outputs (initSt N) hI (initSt_depth hN hpi _) hout st outs e
  obtain ⟨c1, c2, c3, c4, c5, _, _, c8⟩ := cloneOutputs_spec outs st.ntk (hs.grown.built hB) hv
  rw [hs.grown.outputs, i3, List.nil_append] at c2
  rw [hs.grown.numPos, i4, Nat.zero_add] at c3
  rw [hs.grown.inputs] at c4
  rw [hs.grown.numPis, i1] at c5
  have q1 : (cloneOutputs st.ntk outs).inputs.length = (cloneOutputs st.ntk outs).numPis := by rw [c4, c5, i2]
  have q2 : (cloneOutputs st.ntk outs).outputs.length = (cloneOutputs st.ntk outs).numPos := by rw [c2, c3]
  obtain ⟨D, ed, d1, d2, d3, d4, d5, d6⟩ := C14_built_partial (cloneOutputs st.ntk outs) c1 q1 q2 _ le_rfl
  refine ⟨D, levelsOverrun D, ?_, by rw [d5, c2, hlen], ?_⟩
  · unfold balanceAnd balancePos
    rw [htake, e]
    dsimp only
    rw [ed]
  · intro i o o' ho ho' d hp
    obtain ⟨r, hr⟩ : ∃ r, outs[i]? = some r :=
      ⟨_, List.getElem?_eq_getElem (by rw [hlen]; exact lt_of_getElem? ho)⟩
    have hp2 := cleanup_path _ c1 q1 q2 _ le_rfl D ed (by rw [c2]; exact hr) ho' hp
    have hp3 : ∀ n d, GPath (cloneOutputs st.ntk outs) n d → GPath st.ntk n d := by
      intro n d h
      induction h with
      | base n => exact .base n
      | step g hk _ ih => exact .step ((c8 _ _ _).1 g) hk ih
    exact ⟨lvl N o.index, (hd.lev.path (hp3 _ _ hp2)).trans (hlv i o r ho hr), lvl_path _⟩

/-! ### a case -/

theorem sortDesc_sorts : Sorts sortDesc := by
  refine ⟨sortDesc_perm, fun key l => ?_⟩
  have ht : IsTrans Sig (fun a b => (key b).1 < (key a).1 ∨ ((key b).1 = (key a).1 ∧ (key b).2 ≤ (key a).2)) :=
    ⟨fun a b c h h' => by omega⟩
  have ho : Std.Total (fun a b : Sig => (key b).1 < (key a).1 ∨ ((key b).1 = (key a).1 ∧ (key b).2 ≤ (key a).2)) :=
    ⟨fun a b => by omega⟩
  have := List.pairwise_insertionSort (fun a b => (key b).1 < (key a).1 ∨ ((key b).1 = (key a).1 ∧ (key b).2 ≤ (key a).2)) l
  exact this.imp fun h => by omega

/-- The chain of four inputs (three gates deep) becomes a tree of depth two: no path to output 0 is longer than the
bound from C52, and that output has a path with three gates before. -/
example : ∃ D over, balanceAnd sortDesc chain 9 = some (D, over) ∧
    ∀ o', D.outputs[0]? = some o' → ∀ d, GPath D o'.index d → ∃ d', d ≤ d' ∧ GPath chain 7 d' := by
  obtain ⟨D, over, e, _, h⟩ := C52_partial sortDesc sortDesc_sorts chain chain_built (by decide) (by decide) 9 (by decide)
  exact ⟨D, over, e, fun o' ho' d hp => h 0 ⟨7, false⟩ o' (by decide) ho' d hp⟩

example : GPath chain 7 3 :=
  .step (a := ⟨4, false⟩) (b := ⟨6, false⟩) ⟨by decide, by decide, _, by rfl, rfl, rfl, rfl⟩ (Or.inr rfl)
    (.step (a := ⟨3, false⟩) (b := ⟨5, false⟩) ⟨by decide, by decide, _, by rfl, rfl, rfl, rfl⟩ (Or.inr rfl)
      (.step (a := ⟨1, false⟩) (b := ⟨2, false⟩) ⟨by decide, by decide, _, by rfl, rfl, rfl, rfl⟩ (Or.inr rfl) (.base 2)))

end Verif.Balance
