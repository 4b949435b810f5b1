import Verif.Topo.Proof

set_option autoImplicit false

/-!
# C15: the order of a topological view
-/

namespace Verif.Topo

open RefDeref (aigKids)

/-- What the view needs to know about the network.  The network may be in any index order; `r` is any rank
that decreases along fanins (acyclicity). -/
structure Traversable (N : Aig) (r : Nat → Nat) : Prop where
  ranked : ∀ n, ∀ m ∈ aigKids N n, r m < r n
  inputs : ∀ n ∈ N.inputs, n ≠ 0 ∧ N.isCi n = true
  inputsNodup : N.inputs.Nodup
  marks : ∀ n, visOf N n ≤ N.travId

theorem Traversable.update {N : Aig} {r : Nat → Nat} (h : Traversable N r) (roots : List Nat) (f : Nat)
    (hf : ∀ n ∈ roots, r n < f) :
    ∃ s rest, updateTopo (aigKids N) N.inputs roots (visOf N) N.travId f = some s ∧
      s.order = 0 :: N.inputs ++ rest ∧ s.order.Nodup ∧ FaninsFirst (aigKids N) s.order ∧
      ∀ m, m ∈ s.order ↔ m = 0 ∨ m ∈ N.inputs ∨ ∃ n ∈ roots, Tfi (aigKids N) n m := by
  apply updateTopo_spec h.ranked h.marks
  · simp [aigKids]
  · intro n hn; simp [aigKids, h.inputs n hn]
  · rw [List.nodup_cons]; exact ⟨fun h0 => (h.inputs 0 h0).1 rfl, h.inputsNodup⟩
  · exact hf

/-- C15.  The view terminates on every acyclic network and its order starts with the constant and the
inputs, has no duplicates, lists fanins before their users, and contains besides the constant and the
inputs exactly the nodes in the transitive fanin of the outputs. -/
theorem C15_topo (N : Aig) (r : Nat → Nat) (h : Traversable N r) (f : Nat)
    (hf : ∀ o ∈ N.outputs, r o.index < f) :
    ∃ order rest, topoView N f = some order ∧ order = 0 :: N.inputs ++ rest ∧ order.Nodup ∧
      FaninsFirst (aigKids N) order ∧
      ∀ m, m ∈ order ↔ m = 0 ∨ m ∈ N.inputs ∨ ∃ o ∈ N.outputs, Tfi (aigKids N) o.index m := by
  obtain ⟨s, rest, e, h1, h2, h3, h4⟩ := h.update (N.outputs.map (·.index)) f (by simpa using hf)
  exact ⟨s.order, rest, by rw [topoView, e]; rfl, h1, h2, h3, by simpa using h4⟩

/-- The same for a view with a start signal. -/
theorem C15_topo_from (N : Aig) (r : Nat → Nat) (h : Traversable N r) (start : Sig) (f : Nat)
    (hf : r start.index < f) :
    ∃ order rest, topoViewFrom N start f = some order ∧ order = 0 :: N.inputs ++ rest ∧ order.Nodup ∧
      FaninsFirst (aigKids N) order ∧
      ∀ m, m ∈ order ↔ m = 0 ∨ m ∈ N.inputs ∨ Tfi (aigKids N) start.index m := by
  obtain ⟨s, rest, e, h1, h2, h3, h4⟩ := h.update [start.index] f (by simpa using hf)
  exact ⟨s.order, rest, by rw [topoViewFrom, e]; rfl, h1, h2, h3, by simpa using h4⟩

/-- On a combinational network (all inputs are primary inputs) `foreach_gate` of the view visits exactly
the gates in the transitive fanin of the outputs, each once. -/
theorem C15_foreach_gate (N : Aig) (r : Nat → Nat) (h : Traversable N r) (hpi : N.inputs.length = N.numPis)
    (f : Nat) (hf : ∀ o ∈ N.outputs, r o.index < f) (order : List Nat) (ho : topoView N f = some order) :
    (topoGates N order).Nodup ∧ ∀ m, m ∈ topoGates N order ↔
      (m ≠ 0 ∧ m ∉ N.inputs ∧ ∃ o ∈ N.outputs, Tfi (aigKids N) o.index m) := by
  obtain ⟨order', rest, e, h1, h2, h3, h4⟩ := C15_topo N r h f hf
  rw [ho] at e
  cases e
  have hd : topoGates N order = rest := by
    rw [topoGates, h1]
    rw [show 1 + N.numPis = (0 :: N.inputs).length by simp [hpi]; omega]
    exact List.drop_left
  rw [hd]
  rw [h1] at h2
  have h5 := List.nodup_append.1 h2
  refine ⟨h5.2.1, fun m => ⟨fun hm => ?_, ?_⟩⟩
  · have hm' : m ∉ 0 :: N.inputs := fun hc => h5.2.2 m hc m hm rfl
    simp only [List.mem_cons, not_or] at hm'
    refine ⟨hm'.1, hm'.2, ?_⟩
    have := (h4 m).1 (by rw [h1]; exact List.mem_append_right _ hm)
    tauto
  · rintro ⟨h0, hi, ht⟩
    have := (h4 m).2 (Or.inr (Or.inr ht))
    rw [h1] at this
    simp only [List.cons_append, List.mem_cons, List.mem_append] at this
    tauto

/-- With registers the last claim fails: the view's `foreach_gate` also visits register outputs, because
its offset counts primary inputs only (topo_view.hpp 167). -/
theorem C15_foreach_gate_registers :
    ∃ N order, Aig.Built N ∧ topoView N 10 = some order ∧ ∃ m ∈ topoGates N order, m ∈ N.inputs := by
  refine ⟨((((Aig.empty.createPi).1.createRo).1.createPo ⟨2, false⟩).createRi ⟨1, false⟩ 0), [0, 1, 2],
    .ri (.po (.ro (.pi .empty)) (by decide)) (by decide), by decide, 2, by decide, by decide⟩

theorem _root_.Verif.Aig.Built.visited {N : Aig} (h : Aig.Built N) :
    (∀ nd ∈ N.nodes, nd.visited = 0) ∧ N.travId = 0 := by
  have inc : ∀ (N : Aig) (i : Nat), ((∀ nd ∈ N.nodes, nd.visited = 0) ∧ N.travId = 0) →
      (∀ nd ∈ (N.incFo i).nodes, nd.visited = 0) ∧ (N.incFo i).travId = 0 := by
    intro N i h
    refine ⟨fun nd hnd => ?_, h.2⟩
    obtain ⟨k, hk⟩ := List.getElem?_of_mem hnd
    rw [Aig.incFo_get] at hk
    cases hn : N.nodes[k]? with
    | none => simp [hn] at hk
    | some nd' =>
      simp only [hn, Option.map_some, Option.some.injEq] at hk
      have := h.1 nd' (List.mem_of_getElem? hn)
      subst hk
      split <;> exact this
  induction h with
  | empty => simp [Aig.empty]
  | pi _ ih => simp [Aig.createPi, ih.2]; intro nd hnd; rcases hnd with h | rfl; exacts [ih.1 nd h, rfl]
  | ro _ ih => simp [Aig.createRo, ih.2]; intro nd hnd; rcases hnd with h | rfl; exacts [ih.1 nd h, rfl]
  | po _ _ ih => exact inc _ _ ih
  | ri _ _ ih => exact inc _ _ ih
  | @and N a b _ _ _ ih =>
    rcases Aig.createAnd_cases N a b with h | ⟨c, d, _, _, _, _, _, h⟩
    · rw [h]; exact ih
    · rw [h, Aig.addAnd]
      apply inc
      apply inc
      refine ⟨?_, ih.2⟩
      intro nd hnd
      simp only [List.mem_append, List.mem_singleton] at hnd
      rcases hnd with h | rfl
      · exact ih.1 nd h
      · rfl

/-- Every constructed network is traversable, with the node index as rank. -/
theorem C15_built (N : Aig) (hN : Aig.Built N) : Traversable N id := by
  refine ⟨?_, ?_, hN.wf.inputsNodup, ?_⟩
  · intro n m hm
    cases hc : N.isPi n || n == 0 with
    | false =>
      refine RefDeref.C13_aig_acyclic N hN n ?_ m hm
      simp only [RefDeref.aigParam]; rw [Bool.or_comm]; exact hc
    | true =>
      exfalso
      simp only [aigKids] at hm
      split at hm
      · simp at hm
      · rename_i h
        simp only [not_or] at h
        simp only [Bool.or_eq_true, beq_iff_eq] at hc
        rcases hc with hc | hc
        · apply h.2
          unfold Aig.isPi at hc
          unfold Aig.isCi
          split at hc
          · simp only [Bool.and_eq_true] at hc; exact hc.1
          · simp at hc
        · exact h.1 hc
  · intro n hn
    obtain ⟨k, hk⟩ := List.getElem?_of_mem hn
    obtain ⟨h0, nd, hnd, e1, e2, _⟩ := hN.wf.input k n hk
    exact ⟨by omega, by simp [Aig.isCi, hnd, e1, e2]⟩
  · intro n
    unfold visOf
    split
    · rename_i nd hnd
      rw [(hN.visited).1 nd (List.mem_of_getElem? hnd)]; omega
    · omega

/-- A network that is not in index order: node 3 = AND(4, 1) comes before its fanin 4 = AND(1, 2), and node
5 is not used.  It satisfies the hypotheses and the view reorders it. -/
def unordered : Aig where
  nodes := [{ c0 := ⟨0, false⟩, c1 := ⟨0, false⟩ }, { c0 := ⟨0, false⟩, c1 := ⟨0, false⟩ },
    { c0 := ⟨0, true⟩, c1 := ⟨0, true⟩ }, { c0 := ⟨4, false⟩, c1 := ⟨1, false⟩ },
    { c0 := ⟨1, false⟩, c1 := ⟨2, false⟩ }, { c0 := ⟨1, true⟩, c1 := ⟨2, false⟩ }]
  inputs := [1, 2]
  outputs := [⟨3, true⟩]
  table := [5, 4, 3]
  numPis := 2
  numPos := 1
  latches := []
  travId := 0

example : Traversable unordered (fun n => if n = 3 then 5 else if n = 4 then 4 else if n = 5 then 6 else n) := by
  refine ⟨?_, by decide, by decide, ?_⟩
  · intro n m hm
    by_cases h : n < 6
    · have h1 : ∀ n < 6, ∀ m ∈ aigKids unordered n,
        (if m = 3 then 5 else if m = 4 then 4 else if m = 5 then 6 else m) <
          (if n = 3 then 5 else if n = 4 then 4 else if n = 5 then 6 else n) := by decide
      exact h1 n h m hm
    · have : unordered.nodes[n]? = none := by
        rw [List.getElem?_eq_none_iff]; simp [unordered]; omega
      simp [aigKids, this] at hm
  · intro n
    by_cases h : n < 6
    · have h1 : ∀ n < 6, visOf unordered n ≤ unordered.travId := by decide
      exact h1 n h
    · have : unordered.nodes[n]? = none := by
        rw [List.getElem?_eq_none_iff]; simp [unordered]; omega
      simp [visOf, this]

example : topoView unordered 6 = some [0, 1, 2, 4, 3] := by decide

end Verif.Topo
