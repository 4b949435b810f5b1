import Verif.Aig.Cleanup
import Verif.Topo.Partial

set_option autoImplicit false

/-!
# Copying a network: helper lemmas
-/

namespace Verif.Aig

open Topo (Traversable Tfi FaninsFirst)
open RefDeref (aigKids)

/-- `D` is `D0` with more gates -/
structure Grown (D0 D : Aig) : Prop where
  wf : WF D
  ext : Ext D0 D
  inputs : D.inputs = D0.inputs
  outputs : D.outputs = D0.outputs
  numPis : D.numPis = D0.numPis
  numPos : D.numPos = D0.numPos
  latches : D.latches = D0.latches
  built : Built D0 → Built D

theorem GateSpec.grown {N : Aig} {f} {r} (h : GateSpec N f r) : Grown N r.1 :=
  ⟨h.wf, h.ext, h.inputs, h.outputs, h.numPis, h.numPos, h.latches, h.built⟩

theorem Grown.refl {D : Aig} (h : WF D) : Grown D D :=
  ⟨h, Ext.refl D, rfl, rfl, rfl, rfl, rfl, id⟩

theorem Grown.trans {A B C : Aig} (h : Grown A B) (g : Grown B C) : Grown A C :=
  ⟨g.wf, h.ext.trans g.ext, g.inputs.trans h.inputs, g.outputs.trans h.outputs, g.numPis.trans h.numPis,
    g.numPos.trans h.numPos, g.latches.trans h.latches, fun hA => g.built (h.built hA)⟩

/-- A network that can be read as a source: acyclic in some order, its inputs are exactly the nodes that
look like inputs, and everything reachable from the outputs exists. -/
structure Readable (N : Aig) (r : Nat → Nat) : Prop where
  trav : Traversable N r
  ciInput : ∀ n, n ≠ 0 → N.isCi n = true → n ∈ N.inputs
  valid : ∀ o ∈ N.outputs, ∀ n, Tfi (aigKids N) o.index n → n < N.nodes.length

/-- The part of `Readable` that does not speak about cycles. -/
structure Source (N : Aig) : Prop where
  inputs : ∀ n ∈ N.inputs, n ≠ 0 ∧ N.isCi n = true
  inputsNodup : N.inputs.Nodup
  marks : ∀ n, Topo.visOf N n ≤ N.travId
  ciInput : ∀ n, n ≠ 0 → N.isCi n = true → n ∈ N.inputs
  valid : ∀ o ∈ N.outputs, ∀ n, Tfi (aigKids N) o.index n → n < N.nodes.length

theorem Readable.source {N : Aig} {r : Nat → Nat} (h : Readable N r) : Source N :=
  ⟨h.trav.inputs, h.trav.inputsNodup, h.trav.marks, h.ciInput, h.valid⟩

/-- `v` respects the constant and every gate in the transitive fanin of the outputs, dead or not. -/
structure LiveModels (N : Aig) (v : Nat → Bool) : Prop where
  const : v 0 = false
  gate : ∀ o ∈ N.outputs, ∀ n, Tfi (aigKids N) o.index n → n ≠ 0 → n ∉ N.inputs →
    ∀ nd, N.nodes[n]? = some nd → v n = (nd.c0.val v && nd.c1.val v)

theorem img_val (m : SigMap) (s : Sig) (v : Nat → Bool) :
    (m.img s).val v = Bool.xor ((m s.index).val v) s.compl := by
  unfold SigMap.img; split <;> simp_all

theorem img_valid {D : Aig} {m : SigMap} {s : Sig} (h : D.Valid (m s.index)) : D.Valid (m.img s) := by
  unfold SigMap.img; split <;> simpa using h

theorem mapLeaves_spec : ∀ (ns : List Nat) (ss : List Sig) (m : SigMap), ns.Nodup → ns.length = ss.length →
    ∃ m', mapLeaves ns ss m = some m' ∧ (∀ n, n ∉ ns → m' n = m n) ∧
      ∀ (k n : Nat) (s : Sig), ns[k]? = some n → ss[k]? = some s → m' n = s := by
  intro ns
  induction ns with
  | nil => intro ss m _ _; exact ⟨m, rfl, fun _ _ => rfl, by simp⟩
  | cons n ns ih =>
    intro ss m hnd hl
    cases ss with
    | nil => simp at hl
    | cons s ss =>
      rw [List.nodup_cons] at hnd
      obtain ⟨m', e, h1, h2⟩ := ih ss (m.set n s) hnd.2 (by simpa using hl)
      refine ⟨m', e, ?_, ?_⟩
      · intro k hk
        simp only [List.mem_cons, not_or] at hk
        rw [h1 k hk.2]; simp [SigMap.set, hk.1]
      · intro k a b ha hb
        cases k with
        | zero =>
          simp only [List.getElem?_cons_zero, Option.some.injEq] at ha hb
          subst ha hb
          rw [h1 n hnd.1]; simp [SigMap.set]
        | succ k => exact h2 k a b (by simpa using ha) (by simpa using hb)

/-- the fanins of a node that is not an input -/
theorem aigKids_gate {N : Aig} {n : Nat} {nd : Node} (h0 : n ≠ 0) (hc : N.isCi n = false)
    (hn : N.nodes[n]? = some nd) : aigKids N n = [nd.c0.index, nd.c1.index] := by
  simp [aigKids, h0, hc, hn]

/-- state of the copying loop after the nodes `done` -/
structure Copied (N D0 : Aig) (good : (Nat → Bool) → (Nat → Bool) → Prop) (done : List Nat) (D : Aig)
    (m : SigMap) : Prop where
  grown : Grown D0 D
  valid : ∀ n, D.Valid (m n)
  val : ∀ v v', good v v' → D.Models v' → ∀ n ∈ done, (m n).val v' = v n

theorem cloneNodes_spec {N D0 : Aig} (hN : Source N)
    {good : (Nat → Bool) → (Nat → Bool) → Prop} (hgood : ∀ v v', good v v' → LiveModels N v)
    {order : List Nat} (hff : FaninsFirst (aigKids N) order)
    (hmem : ∀ m ∈ order, m = 0 ∨ m ∈ N.inputs ∨ ∃ o ∈ N.outputs, Tfi (aigKids N) o.index m) :
    ∀ (rest done : List Nat) (D : Aig) (m : SigMap), order = done ++ rest →
      (∀ v v', good v v' → D.Models v' → ∀ n, (n = 0 ∨ n ∈ N.inputs) → (m n).val v' = v n) →
      Copied N D0 good done D m →
      ∃ D' m', cloneNodes N rest D m = some (D', m') ∧ Copied N D0 good order D' m' := by
  intro rest
  induction rest with
  | nil => intro done D m e _ h; exact ⟨D, m, rfl, by rw [e]; simpa using h⟩
  | cons n rest ih =>
    intro done D m e hci h
    rw [cloneNodes, cloneNode]
    by_cases hc : n = 0 ∨ N.isCi n = true
    · rw [if_pos hc]
      dsimp only
      refine ih (done ++ [n]) D m (by simp [e]) hci ⟨h.grown, h.valid, ?_⟩
      intro v v' hg hv k hk
      rw [List.mem_append, List.mem_singleton] at hk
      rcases hk with hk | rfl
      · exact h.val v v' hg hv k hk
      · refine hci v v' hg hv k ?_
        rcases hc with hc | hc
        · exact Or.inl hc
        · by_cases h0 : k = 0
          · exact Or.inl h0
          · exact Or.inr (hN.ciInput k h0 hc)
    · rw [if_neg hc]
      simp only [not_or, Bool.not_eq_true] at hc
      have hin : n ∉ N.inputs := fun hi => by
        have := (hN.inputs n hi).2; rw [hc.2] at this; cases this
      obtain ⟨o, ho, ht⟩ : ∃ o ∈ N.outputs, Tfi (aigKids N) o.index n := by
        rcases hmem n (by rw [e]; simp) with h | h | h
        · exact absurd h hc.1
        · exact absurd h hin
        · exact h
      obtain ⟨nd, hnd⟩ : ∃ nd, N.nodes[n]? = some nd :=
        ⟨_, List.getElem?_eq_getElem (hN.valid o ho n ht)⟩
      rw [hnd]
      dsimp only
      have hkids := aigKids_gate hc.1 hc.2 hnd
      have hf := hff done n rest e
      rw [hkids] at hf
      have hs := createAnd_spec h.grown.wf (a := m.img nd.c0) (b := m.img nd.c1)
        (img_valid (h.valid _)) (img_valid (h.valid _))
      have hnd' : n ∉ done ∨ n ∈ done := by tauto
      refine ih (done ++ [n]) _ _ (by simp [e]) ?_ ⟨h.grown.trans hs.grown, ?_, ?_⟩
      · intro v v' hg hv k hk
        have : k ≠ n := by
          rintro rfl
          rcases hk with hk | hk
          · exact hc.1 hk
          · exact hin hk
        simp only [SigMap.set, this, if_false]
        exact hci v v' hg (hs.ext.models hv) k hk
      · intro k
        simp only [SigMap.set]
        split
        · exact hs.valid
        · exact hs.ext.valid (h.valid k)
      · intro v v' hg hv k hk
        simp only [SigMap.set]
        split
        · rename_i e'
          rw [hs.val v' hv, img_val, img_val,
            h.val v v' hg (hs.ext.models hv) _ (hf _ (by simp)),
            h.val v v' hg (hs.ext.models hv) _ (hf _ (by simp)), e',
            (hgood v v' hg).gate o ho n ht hc.1 hin nd hnd]
          simp only [Sig.val, Bool.xor_comm]
        · rename_i hne
          rw [List.mem_append, List.mem_singleton] at hk
          exact h.val v v' hg (hs.ext.models hv) k (hk.resolve_right hne)

/-- `cleanup_dangling_impl` copies the functions of all reachable nodes if the traversal comes back;
register outputs (inputs beyond `num_pis`) are read as constant 0. -/
theorem cleanupImpl_core {N D0 : Aig} (hN : Source N) (hD : WF D0) {leaves : List Sig}
    (hl : leaves.length = N.numPis) (hpi : N.numPis ≤ N.inputs.length) (hlv : ∀ s ∈ leaves, D0.Valid s)
    {f : Nat} {order : List Nat} (e1 : Topo.topoView N f = some order) :
    ∃ D m, cleanupImpl N D0 leaves f = some (D, m) ∧ Grown D0 D ∧ (∀ n, D.Valid (m n)) ∧
      ∀ v v', LiveModels N v → D.Models v' →
        (∀ (k n : Nat) (s : Sig), N.inputs[k]? = some n → leaves[k]? = some s → v n = s.val v') →
        (∀ (k n : Nat), N.inputs[k]? = some n → N.numPis ≤ k → v n = false) →
        ∀ o ∈ N.outputs, (m.img o).val v' = o.val v := by
  obtain ⟨m0, e0, h1, h2⟩ := mapLeaves_spec (N.inputs.take N.numPis) leaves (fun _ => ⟨0, false⟩)
    (hN.inputsNodup.sublist (List.take_sublist _ _)) (by simp [hl, hpi])
  obtain ⟨rest, h3, h4, h5, h6⟩ := Topo.topoView_acc N hN.inputs hN.inputsNodup hN.marks e1
  -- the relation between valuations
  let good : (Nat → Bool) → (Nat → Bool) → Prop := fun v v' => LiveModels N v ∧
    (∀ (k n : Nat) (s : Sig), N.inputs[k]? = some n → leaves[k]? = some s → v n = s.val v') ∧
    (∀ (k n : Nat), N.inputs[k]? = some n → N.numPis ≤ k → v n = false)
  have hvalid0 : ∀ n, D0.Valid (m0 n) := by
    intro n
    by_cases hn : n ∈ N.inputs.take N.numPis
    · obtain ⟨k, hk⟩ := List.getElem?_of_mem hn
      have hkl : k < leaves.length := by
        have := lt_of_getElem? hk; rw [List.length_take] at this; omega
      obtain ⟨s, hs⟩ : ∃ s, leaves[k]? = some s := ⟨_, List.getElem?_eq_getElem hkl⟩
      rw [h2 k n s hk hs]
      exact hlv s (List.mem_of_getElem? hs)
    · rw [h1 n hn]; exact hD.pos
  have hm0 : ∀ v v', good v v' → D0.Models v' → ∀ n, (n = 0 ∨ n ∈ N.inputs) → (m0 n).val v' = v n := by
    intro v v' hg hv n hn
    by_cases hn' : n ∈ N.inputs.take N.numPis
    · obtain ⟨k, hk⟩ := List.getElem?_of_mem hn'
      have hkl : k < leaves.length := by
        have := lt_of_getElem? hk; rw [List.length_take] at this; omega
      obtain ⟨s, hs⟩ : ∃ s, leaves[k]? = some s := ⟨_, List.getElem?_eq_getElem hkl⟩
      rw [h2 k n s hk hs]
      have hk' : N.inputs[k]? = some n := by
        rw [List.getElem?_take] at hk; split at hk
        · exact hk
        · cases hk
      exact (hg.2.1 k n s hk' hs).symm
    · rw [h1 n hn']
      have e : Sig.val v' ⟨0, false⟩ = false := by simp [Sig.val, hv.const]
      rw [e]
      rcases hn with rfl | hn
      · exact hg.1.const.symm
      · obtain ⟨k, hk⟩ := List.getElem?_of_mem hn
        refine (hg.2.2 k n hk ?_).symm
        by_contra hlt
        apply hn'
        rw [not_le] at hlt
        exact List.mem_of_getElem? (i := k) (by rw [List.getElem?_take, if_pos hlt]; exact hk)
  obtain ⟨D, m, e2, h7⟩ := cloneNodes_spec (D0 := D0) hN (good := good) (fun v v' h => h.1) h5
    (fun m hm => (h6 m).1 hm) order [] D0 m0 rfl hm0 ⟨.refl hD, hvalid0, by simp⟩
  refine ⟨D, m, by rw [cleanupImpl, e0, e1]; exact e2, h7.grown, h7.valid, ?_⟩
  intro v v' hv hv' hin hro o ho
  rw [img_val, h7.val v v' ⟨hv, hin, hro⟩ hv' o.index ((h6 _).2 (Or.inr (Or.inr ⟨o, ho, .refl _⟩)))]
  simp only [Sig.val, Bool.xor_comm]

/-- The same for acyclic networks, where the traversal does come back. -/
theorem cleanupImpl_spec {N D0 : Aig} {r : Nat → Nat} (hN : Readable N r) (hD : WF D0) {leaves : List Sig}
    (hl : leaves.length = N.numPis) (hpi : N.numPis ≤ N.inputs.length) (hlv : ∀ s ∈ leaves, D0.Valid s)
    {f : Nat} (hf : ∀ o ∈ N.outputs, r o.index < f) :
    ∃ D m, cleanupImpl N D0 leaves f = some (D, m) ∧ Grown D0 D ∧ (∀ n, D.Valid (m n)) ∧
      ∀ v v', LiveModels N v → D.Models v' →
        (∀ (k n : Nat) (s : Sig), N.inputs[k]? = some n → leaves[k]? = some s → v n = s.val v') →
        (∀ (k n : Nat), N.inputs[k]? = some n → N.numPis ≤ k → v n = false) →
        ∀ o ∈ N.outputs, (m.img o).val v' = o.val v := by
  obtain ⟨order, _, e1, _⟩ := Topo.C15_topo N r hN.trav f hf
  exact cleanupImpl_core hN.source hD hl hpi hlv e1

theorem cloneInputs_spec : ∀ (k : Nat) (D : Aig), Built D → D.inputs.length = D.numPis →
    Built (cloneInputs k D).1 ∧ (cloneInputs k D).2.length = k ∧
    (cloneInputs k D).1.numPis = D.numPis + k ∧ (cloneInputs k D).1.inputs.length = D.inputs.length + k ∧
    (cloneInputs k D).1.outputs = D.outputs ∧ (cloneInputs k D).1.numPos = D.numPos ∧
    (cloneInputs k D).1.table = D.table ∧
    (cloneInputs k D).1.latches = D.latches ∧ Ext D (cloneInputs k D).1 ∧
    (∀ s ∈ (cloneInputs k D).2, (cloneInputs k D).1.Valid s ∧ s.compl = false) ∧
    ∀ (i : Nat) (s : Sig), (cloneInputs k D).2[i]? = some s → (cloneInputs k D).1.inputs[D.inputs.length + i]? = some s.index := by
  intro k
  induction k with
  | zero => intro D h _; simp [cloneInputs, h, Ext.refl]
  | succ k ih =>
    intro D h hl
    obtain ⟨h1, h2, h3, h4, h5, h6, ht, h7, h8, h9, h10⟩ := ih D.createPi.1 (.pi h) (by simp [createPi, hl])
    simp only [cloneInputs]
    refine ⟨h1, by simp [h2], ?_, ?_, h5, h6, ht, h7, (ext_createPi D).trans h8, ?_, ?_⟩
    · rw [h3]; simp [createPi]; omega
    · rw [h4]; simp [createPi]; omega
    · intro s hs
      rcases List.mem_cons.1 hs with rfl | hs
      · refine ⟨h8.valid ?_, rfl⟩
        simp [Valid, createPi]
      · exact h9 s hs
    · intro i s hs
      cases i with
      | zero =>
        simp only [List.getElem?_cons_zero, Option.some.injEq] at hs
        subst hs
        apply prefix_getElem? h8.inputs
        simp [createPi]
      | succ i =>
        have := h10 i s (by simpa using hs)
        rw [show (D.createPi).1.inputs.length = D.inputs.length + 1 by simp [createPi]] at this
        rw [show D.inputs.length + (i + 1) = D.inputs.length + 1 + i by omega]
        exact this

theorem cloneOutputs_spec : ∀ (l : List Sig) (D : Aig), Built D → (∀ s ∈ l, D.Valid s) →
    Built (cloneOutputs D l) ∧ (cloneOutputs D l).outputs = D.outputs ++ l ∧
    (cloneOutputs D l).numPos = D.numPos + l.length ∧ (cloneOutputs D l).inputs = D.inputs ∧
    (cloneOutputs D l).numPis = D.numPis ∧ (cloneOutputs D l).table = D.table ∧ Ext D (cloneOutputs D l) ∧
    (∀ n a b, (cloneOutputs D l).IsGate n a b ↔ D.IsGate n a b) := by
  intro l
  induction l with
  | nil => intro D h _; simp [cloneOutputs, h, Ext.refl]
  | cons f l ih =>
    intro D h hl
    have hext := ext_createPo D f
    obtain ⟨h1, h2, h3, h4, h5, h6, h7, h8⟩ := ih (D.createPo f) (.po h (hl f (by simp)))
      (fun s hs => hext.valid (hl s (by simp [hs])))
    simp only [cloneOutputs]
    refine ⟨h1, ?_, ?_, h4, h5, h6, hext.trans h7, ?_⟩
    · rw [h2]; simp [createPo]
    · rw [h3]; simp [createPo]; omega
    · intro n a b
      rw [h8]
      exact incFo_isGate D f.index n a b

end Verif.Aig
