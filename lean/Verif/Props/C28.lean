import Verif.Aiger.Proof
import Verif.Props.C14

set_option autoImplicit false

/-!
# C28: AIGER write/read round trip
-/

namespace Verif.Aiger

open Aig

/-- Combinational network in the form `write_aiger` asks for (write_aiger.hpp 47-48, "clean"): no registers, and
the inputs are the nodes 1, 2, …; the gates follow without gaps because nothing was removed. -/
structure Clean (N : Aig) : Prop where
  built : Built N
  inputs : N.inputs = List.range' 1 N.numPis
  outputs : N.outputs.length = N.numPos

/-- the AIGER file with the contents of `N` -/
def fileOf (N : Aig) : File where
  nI := N.numPis
  outs := N.outputs.map Sig.data
  ands := (N.nodes.drop (1 + N.numPis)).map fun nd => (nd.c1.data, nd.c0.data)

theorem Clean.gate {N : Aig} (h : Clean N) {n : Nat} {nd : Node} (hn : N.nodes[n]? = some nd) (hp : N.numPis < n) :
    N.IsGate n nd.c0 nd.c1 := by
  apply h.built.wf.isGate_of (by omega) _ hn
  rw [h.inputs, List.mem_range'_1]
  omega

theorem Clean.gates {N : Aig} (h : Clean N) : N.gates = List.range' (1 + N.numPis) (N.nodes.length - (1 + N.numPis)) := by
  have hlen : 1 + N.numPis ≤ N.nodes.length := by
    have := (C08_sizes N h.built).2
    have hi := congrArg List.length h.inputs
    rw [List.length_range'] at hi
    simp only [size] at this; omega
  have hr : List.range N.nodes.length = List.range' 0 (1 + N.numPis) ++ List.range' (1 + N.numPis) (N.nodes.length - (1 + N.numPis)) := by
    have h2 : List.range' (1 + N.numPis) (N.nodes.length - (1 + N.numPis))
        = List.range' (0 + 1 * (1 + N.numPis)) (N.nodes.length - (1 + N.numPis)) := by congr 1; omega
    rw [List.range_eq_range', h2, List.range'_append]
    congr 1; omega
  unfold Aig.gates
  rw [hr, List.filter_append]
  have e1 : (List.range' 0 (1 + N.numPis)).filter (fun n => n != 0 && !N.isCi n && !N.isDead n) = [] := by
    rw [List.filter_eq_nil_iff]
    intro n hn
    rw [List.mem_range'_1] at hn
    by_cases h0 : n = 0
    · simp [h0]
    · have hm : n ∈ N.inputs := by rw [h.inputs, List.mem_range'_1]; omega
      obtain ⟨k, hk⟩ := List.getElem?_of_mem hm
      obtain ⟨_, nd, hnd, c0, c1, _⟩ := h.built.wf.input k n hk
      simp [isCi, hnd, c0, c1]
  have e2 : (List.range' (1 + N.numPis) (N.nodes.length - (1 + N.numPis))).filter
      (fun n => n != 0 && !N.isCi n && !N.isDead n) = List.range' (1 + N.numPis) (N.nodes.length - (1 + N.numPis)) := by
    rw [List.filter_eq_self]
    intro n hn
    rw [List.mem_range'_1] at hn
    obtain ⟨nd, hnd⟩ : ∃ nd, N.nodes[n]? = some nd := ⟨_, List.getElem?_eq_getElem (show n < N.nodes.length by omega)⟩
    have g := h.gate hnd (by omega)
    have h1 := g.not_ci h.built.wf
    obtain ⟨_, _, nd', hnd', hd, _⟩ := g
    have : N.isDead n = false := by simp only [isDead, hnd']; exact hd
    simp [h1, this]; omega
  rw [e1, e2, List.nil_append]

theorem Clean.fileOk {N : Aig} (h : Clean N) (hs : N.size ≤ 2 ^ 31) (ho : N.outputs.length < 2 ^ 32) : (fileOf N).Ok := by
  have hlen : 1 + N.numPis ≤ N.nodes.length := by
    have := (C08_sizes N h.built).2
    have hi := congrArg List.length h.inputs
    rw [List.length_range'] at hi
    simp only [size] at this; omega
  have htot : (fileOf N).nI + 1 + (fileOf N).ands.length = N.nodes.length := by
    simp [fileOf]; omega
  simp only [size] at hs
  refine ⟨?_, ?_, by rw [htot]; omega, by simpa [fileOf] using ho⟩
  · intro k l r hk
    simp only [fileOf, List.getElem?_map, List.getElem?_drop, Option.map_eq_some_iff] at hk
    obtain ⟨nd, hnd, e⟩ := hk
    have hl := h.built.wf.isGate_lt (h.gate hnd (by omega))
    simp only [Prod.mk.injEq] at e
    obtain ⟨rfl, rfl⟩ := e
    have b1 := Bool.toNat_le nd.c0.compl
    have b2 := Bool.toNat_le nd.c1.compl
    simp only [Sig.data, fileOf]
    omega
  · intro o hm
    rw [htot]
    simp only [fileOf, List.mem_map] at hm
    obtain ⟨s, hs, rfl⟩ := hm
    have := h.built.wf.outputs s hs
    have b1 := Bool.toNat_le s.compl
    simp only [Sig.data, Valid] at *
    omega

theorem gatesBytes_spec {N : Aig} (h : Clean N) (hs : N.size ≤ 2 ^ 31) : ∀ (rest : List Node) (i : Nat), N.numPis < i →
    N.nodes.drop i = rest → i + rest.length = N.nodes.length →
    gatesBytes N (List.range' i rest.length) = deltas i (rest.map fun nd => (nd.c1.data, nd.c0.data)) := by
  intro rest
  induction rest with
  | nil => intros; rfl
  | cons nd rest ih =>
    intro i hi hd hl
    have hget : N.nodes[i]? = some nd := by
      have := List.getElem?_drop (xs := N.nodes) (i := i) (j := 0)
      rw [hd] at this
      simpa using this.symm
    rw [List.length_cons] at hl ⊢
    rw [List.range'_succ, gatesBytes, List.map_cons, deltas,
      ih (i + 1) (by omega) (by rw [← List.drop_drop, hd]; rfl) (by omega)]
    have hlt := h.built.wf.isGate_lt (h.gate hget hi)
    have b0 := Bool.toNat_le nd.c0.compl
    have b1 := Bool.toNat_le nd.c1.compl
    simp only [size] at hs
    have hp : ¬ sigLit nd.c0 > sigLit nd.c1 := by
      simp only [sigLit, gt_iff_lt, BitVec.lt_def, BitVec.toNat_ofNat]
      omega
    have hsub : ∀ p q : Nat, q ≤ p → p < 2 ^ 32 → BitVec.ofNat 32 p - BitVec.ofNat 32 q = BitVec.ofNat 32 (p - q) := by
      intro p q hq hp
      apply BitVec.eq_of_toNat_eq
      simp only [BitVec.toNat_sub, BitVec.toNat_ofNat]
      omega
    generalize deltas (i + 1) (rest.map fun nd => (nd.c1.data, nd.c0.data)) = ds
    simp only [gateBytes, hget, if_neg hp]
    simp only [sigLit, Sig.data]
    rw [hsub (2 * i) _ (by omega) (by omega), hsub _ _ (by omega) (by omega)]
    cases encode (BitVec.ofNat 32 (2 * i - (2 * nd.c1.index + nd.c1.compl.toNat))) <;>
    cases encode (BitVec.ofNat 32 (2 * nd.c1.index + nd.c1.compl.toNat - (2 * nd.c0.index + nd.c0.compl.toNat))) <;>
    cases ds <;> simp

theorem write_eq {N : Aig} (h : Clean N) (hs : N.size ≤ 2 ^ 31) (ho : N.outputs.length < 2 ^ 32) :
    ∃ g, deltas ((fileOf N).nI + 1) (fileOf N).ands = some g ∧ write N = some ((fileOf N).bytes g ++ [99#8]) := by
  obtain ⟨g, hg, _⟩ := read_file _ (h.fileOk hs ho)
  refine ⟨g, hg, ?_⟩
  have hi := congrArg List.length h.inputs
  rw [List.length_range'] at hi
  have hsz := (C08_sizes N h.built).2
  simp only [size] at hsz
  have e := gatesBytes_spec h hs (N.nodes.drop (1 + N.numPis)) (1 + N.numPis) (by omega) rfl (by simp; omega)
  rw [List.length_drop, ← h.gates] at e
  have e' : gatesBytes N N.gates = some g := by
    rw [e, ← hg]
    simp only [fileOf, Nat.add_comm 1]
  have hng : N.numGates = (fileOf N).ands.length := by simp [fileOf]; omega
  unfold write
  rw [e']
  simp only [File.bytes, Option.some.injEq]
  rw [List.take_of_length_le (by rw [h.outputs]), hng, hi, ← h.outputs]
  have eo : N.outputs.flatMap (fun f => decimal (sigLit f).toNat ++ [10#8])
      = (fileOf N).outs.flatMap (fun o => decimal o ++ [10#8]) := by
    simp only [fileOf, List.flatMap_map]
    apply List.flatMap_congr
    intro f hf
    have := h.built.wf.outputs f hf
    have b := Bool.toNat_le f.compl
    simp only [size, Valid] at *
    have : (sigLit f).toNat = f.data := by
      simp only [sigLit, Sig.data, BitVec.toNat_ofNat]; omega
    rw [this]
  rw [eo]
  simp [fileOf]

/-- Under a consistent valuation of the network the variables of the file have the values of the nodes. -/
theorem Clean.models {N : Aig} (h : Clean N) {x v} (hv : N.Consistent x v) : (fileOf N).Models x v := by
  have hd : ∀ s : Sig, litVal v s.data = s.val v := by
    intro s
    obtain ⟨i, c⟩ := s
    have h1 : (2 * i + 1) / 2 = i := by omega
    cases c <;> simp [litVal, Sig.data, Sig.val, Nat.add_mod, h1]
  refine ⟨hv.models.const, ?_, ?_⟩
  · intro k hk
    have : N.inputs[k]? = some (k + 1) := by
      rw [h.inputs, List.getElem?_range' (by simpa [fileOf] using hk)]
      congr 1; omega
    exact hv.input k (k + 1) this
  · intro k l r hk
    simp only [fileOf, List.getElem?_map, List.getElem?_drop, Option.map_eq_some_iff] at hk
    obtain ⟨nd, hnd, e⟩ := hk
    simp only [Prod.mk.injEq] at e
    obtain ⟨rfl, rfl⟩ := e
    rw [hd, hd, Bool.and_comm, ← hv.models.gate _ _ _ (h.gate hnd (by omega))]
    congr 1
    simp [fileOf]; omega

/-- Writing a clean combinational network (with fewer than 2^31 nodes) and reading the bytes back gives a
network with the same interface and the same output functions. -/
theorem C28_roundtrip (N : Aig) (h : Clean N) (hs : N.size ≤ 2 ^ 31) (ho : N.outputs.length < 2 ^ 32) :
    ∃ bs M, write N = some bs ∧ read bs = .ok M ∧ Built M ∧ M.numPis = N.numPis ∧ M.inputs.length = N.inputs.length ∧
      M.numPos = N.numPos ∧ M.outputs.length = N.outputs.length ∧
      ∀ x v v', N.Consistent x v → M.Consistent x v' → M.outputs.map (·.val v') = N.outputs.map (·.val v) := by
  obtain ⟨g, hg, hw⟩ := write_eq h hs ho
  obtain ⟨g', hg', hr⟩ := read_file _ (h.fileOk hs ho)
  rw [hg] at hg'
  cases hg'
  obtain ⟨M, e, h1, h2, h3, h4, h5, h6⟩ := hr [99#8] .comment0
  have hi := congrArg List.length h.inputs
  rw [List.length_range'] at hi
  refine ⟨_, M, hw, e, h1, h2, by rw [h3, hi]; rfl, by rw [h4, ← h.outputs]; simp [fileOf], by rw [h5]; simp [fileOf], ?_⟩
  intro x v v' hv hv'
  rw [h6 x v' v hv' (h.models hv)]
  simp only [fileOf, List.map_map]
  apply List.map_congr_left
  intro s _
  obtain ⟨i, c⟩ := s
  have h1 : (2 * i + 1) / 2 = i := by omega
  cases c <;> simp [litVal, Sig.data, Sig.val, h1]

/-! ### cleaned networks are in the required form -/

theorem cloneInputs_range : ∀ (k : Nat) (D : Aig), D.inputs = List.range' 1 D.numPis → D.nodes.length = 1 + D.numPis →
    (cloneInputs k D).1.inputs = List.range' 1 (D.numPis + k) := by
  intro k
  induction k with
  | zero => intro D h _; exact h
  | succ k ih =>
    intro D h hl
    simp only [cloneInputs]
    rw [ih D.createPi.1 ?_ ?_]
    · simp only [createPi]; congr 1; omega
    · simp only [createPi, h, hl]
      rw [List.range'_concat]
      simp
    · simp [createPi, hl]; omega

/-- The result of `cleanup_dangling` on a combinational network has the required form. -/
theorem C28_cleanup_clean (N : Aig) (hN : Built N) (hpi : N.inputs.length = N.numPis)
    (hpo : N.outputs.length = N.numPos) (f : Nat) (hf : N.size ≤ f) (D : Aig) (hD : cleanupDangling N f = some D) :
    Clean D := by
  obtain ⟨D', e, h1, h2, h3, h4, h5, _⟩ := C14_built_partial N hN hpi hpo f hf
  rw [hD] at e
  cases e
  refine ⟨h1, ?_, by omega⟩
  obtain ⟨c1, c2, c3, c4, c5, c6, ct, c7, c8, c9, c10⟩ := cloneInputs_spec N.numPis Aig.empty .empty rfl
  obtain ⟨D1, m, e1, hg, hval, _⟩ := cleanupImpl_spec (D0 := (cloneInputs N.numPis Aig.empty).1)
    (leaves := (cloneInputs N.numPis Aig.empty).2) hN.readable c1.wf c2 (by omega) (fun s hs => (c9 s hs).1) (f := f)
    (fun o ho => by have := hN.wf.outputs o ho; simp only [Valid, size, id] at *; omega)
  simp only [cleanupDangling] at hD
  rw [e1] at hD
  simp only [Option.some.injEq] at hD
  obtain ⟨_, _, _, d4, d5, _⟩ := cloneOutputs_spec ((N.outputs.take N.numPos).map m.img) D1 (hg.built c1) (by
    intro s hs
    obtain ⟨o, _, rfl⟩ := List.mem_map.1 hs
    exact img_valid (hval _))
  have := cloneInputs_range N.numPis Aig.empty rfl rfl
  rw [← hD, d4, d5, hg.inputs, hg.numPis, c3, this]

/-- Cleaning, writing and reading back preserves every output function. -/
theorem C28_cleanup_roundtrip (N : Aig) (hN : Built N) (hpi : N.inputs.length = N.numPis)
    (hpo : N.outputs.length = N.numPos) (f : Nat) (hf : N.size ≤ f) (ho : N.outputs.length < 2 ^ 32) :
    ∃ D, cleanupDangling N f = some D ∧ (D.size ≤ 2 ^ 31 → ∃ bs M, write D = some bs ∧ read bs = .ok M ∧
      M.numPis = N.numPis ∧ M.numPos = N.numPos ∧
      ∀ x v v', N.Consistent x v → M.Consistent x v' → M.outputs.map (·.val v') = N.outputs.map (·.val v)) := by
  obtain ⟨D, e, h1, h2, h3, h4, h5, h6⟩ := C14_built_partial N hN hpi hpo f hf
  refine ⟨D, e, fun hs => ?_⟩
  obtain ⟨bs, M, g1, g2, g3, g4, g5, g6, g7, g8⟩ := C28_roundtrip D (C28_cleanup_clean N hN hpi hpo f hf D e) hs (by omega)
  refine ⟨bs, M, g1, g2, by omega, by omega, fun x v v' hv hv' => ?_⟩
  rw [g8 x (D.value x) v' (h1.wf.consistent_value x) hv', h6 x v (D.value x) hv (h1.wf.consistent_value x)]

/-! ### example -/

/-- two inputs, outputs `!(a ∧ !b)` and `a ∧ (a ∧ !b)` -/
def exNet : Aig :=
  let N := (Aig.empty.createPi.1).createPi.1
  let r := N.createAnd ⟨1, false⟩ ⟨2, true⟩
  let q := r.1.createAnd r.2 ⟨1, false⟩
  (q.1.createPo r.2.not).createPo q.2

/-- The example is clean, has two gates, is written to the bytes below and read back. -/
example : Clean exNet ∧ exNet.numGates = 2 ∧
    write exNet = some ([97, 105, 103, 32, 52, 32, 50, 32, 48, 32, 50, 32, 50, 10, 55, 10, 56, 10, 1, 3, 2, 4, 99].map (BitVec.ofNat 8)) ∧
    (∃ M, read ([97, 105, 103, 32, 52, 32, 50, 32, 48, 32, 50, 32, 50, 10, 55, 10, 56, 10, 1, 3, 2, 4, 99].map (BitVec.ofNat 8)) = .ok M ∧
      M.outputs = [⟨3, true⟩, ⟨4, false⟩]) := by
  refine ⟨⟨?_, rfl, rfl⟩, rfl, by decide, ⟨exNet, by decide +kernel, rfl⟩⟩
  exact .po (.po (.and (.and (.pi (.pi .empty)) (by decide) (by decide)) (by decide) (by decide)) (by decide)) (by decide)

/-- Three inputs, the third one created after a gate; the output is that gate. -/
def exLate : Aig :=
  let N := (Aig.empty.createPi.1).createPi.1
  let r := N.createAnd ⟨1, false⟩ ⟨2, false⟩
  r.1.createPi.1.createPo r.2

/-- Without the requirement the round trip fails: for the network above the output is read back as the third
input. -/
theorem C28_needs_clean : Built exLate ∧ exLate.IsGate 3 ⟨1, false⟩ ⟨2, false⟩ ∧ exLate.outputs = [⟨3, false⟩] ∧
    ∃ bs M, write exLate = some bs ∧ read bs = .ok M ∧ M.outputs = [⟨3, false⟩] ∧ M.inputs = [1, 2, 3] := by
  refine ⟨.po (.pi (.and (.pi (.pi .empty)) (by decide) (by decide))) (by decide), ?_, rfl,
    [97, 105, 103, 32, 52, 32, 51, 32, 48, 32, 49, 32, 49, 10, 54, 10, 2, 2, 99].map (BitVec.ofNat 8),
    (match read ([97, 105, 103, 32, 52, 32, 51, 32, 48, 32, 49, 32, 49, 10, 54, 10, 2, 2, 99].map (BitVec.ofNat 8)) with
      | .ok M => M
      | _ => Aig.empty), by decide, by decide +kernel, by decide +kernel, by decide +kernel⟩
  exact ⟨by decide, by decide, _, rfl, rfl, rfl, rfl⟩

end Verif.Aiger
