import Verif.Props.C30
import Verif.Aig.Spec

set_option autoImplicit false

/-!
# C32: user values do not change structure
-/

namespace Verif

/-- the operations on user values -/
inductive ValueOp
  | clear
  | set (n : Nat) (v : Nat)
  | incr (n : Nat)
  | decr (n : Nat)

namespace Aig

/-- `clear_values`, `set_value`, `incr_value`, `decr_value`, aig_network.hpp 1214-1237; 32-bit wrap-around is
modelled by the remainder. -/
def applyValue (N : Aig) : ValueOp → Aig
  | .clear => { N with nodes := N.nodes.map fun nd => { nd with value := 0 } }
  | .set n v => { N with nodes := N.nodes.modify n fun nd => { nd with value := v % 4294967296 } }
  | .incr n => { N with nodes := N.nodes.modify n fun nd => { nd with value := (nd.value + 1) % 4294967296 } }
  | .decr n => { N with nodes := N.nodes.modify n fun nd => { nd with value := (nd.value + 4294967295) % 4294967296 } }

/-- all of a network except the user values -/
structure SameStructure (N M : Aig) : Prop where
  inputs : M.inputs = N.inputs
  outputs : M.outputs = N.outputs
  size : M.size = N.size
  numGates : M.numGates = N.numGates
  numPis : M.numPis = N.numPis
  numPos : M.numPos = N.numPos
  isCi : ∀ n, M.isCi n = N.isCi n
  isPi : ∀ n, M.isPi n = N.isPi n
  isDead : ∀ n, M.isDead n = N.isDead n
  fanout : ∀ n, M.fanoutSize n = N.fanoutSize n
  phase : ∀ n, M.phaseOf n = N.phaseOf n
  gates : M.gates = N.gates
  isGate : ∀ n a b, M.IsGate n a b ↔ N.IsGate n a b
  find : ∀ a b, M.hashFind a b = N.hashFind a b

theorem sameStructure_of {N M : Aig} (g : Nat → Node → Nat)
    (hn : ∀ n : Nat, M.nodes[n]? = (N.nodes[n]?).map fun nd => { nd with value := g n nd })
    (h1 : M.inputs = N.inputs) (h2 : M.outputs = N.outputs) (h3 : M.table = N.table) (h4 : M.numPis = N.numPis)
    (h5 : M.numPos = N.numPos) : SameStructure N M := by
  have hlen : M.nodes.length = N.nodes.length := by
    apply Nat.le_antisymm
    · by_contra hc
      have := hn N.nodes.length
      rw [List.getElem?_eq_none (Nat.le_refl _), List.getElem?_eq_getElem (by omega)] at this
      simp at this
    · by_contra hc
      have := hn M.nodes.length
      rw [List.getElem?_eq_none (Nat.le_refl _), List.getElem?_eq_getElem (by omega)] at this
      simp at this
  have hci : ∀ n, M.isCi n = N.isCi n := by
    intro n; unfold Aig.isCi; rw [hn]; cases N.nodes[n]? <;> rfl
  have hde : ∀ n, M.isDead n = N.isDead n := by
    intro n; unfold Aig.isDead; rw [hn]; cases N.nodes[n]? <;> rfl
  have hk : ∀ a b, M.hasKids a b = N.hasKids a b := by
    intro a b; funext t; unfold Aig.hasKids; rw [hn]; cases N.nodes[t]? <;> rfl
  refine ⟨h1, h2, hlen, ?_, h4, h5, hci, ?_, hde, ?_, ?_, ?_, ?_, ?_⟩
  · rw [Aig.numGates, h3]; rfl
  · intro n; unfold Aig.isPi; rw [hn, h4]; cases N.nodes[n]? <;> rfl
  · intro n; unfold Aig.fanoutSize; rw [hn]; cases N.nodes[n]? <;> rfl
  · intro n; unfold Aig.phaseOf; rw [hn]; cases N.nodes[n]? <;> rfl
  · unfold Aig.gates
    rw [hlen]
    congr 1
    funext n
    rw [hci, hde]
  · intro n a b
    unfold IsGate
    rw [h1, hn]
    cases N.nodes[n]? with
    | none => simp
    | some nd => simp
  · intro a b
    rw [Aig.hashFind, Aig.hashFind, h3, hk]

theorem applyValue_same (N : Aig) (op : ValueOp) : SameStructure N (N.applyValue op) := by
  cases op with
  | clear =>
    refine sameStructure_of (fun _ _ => 0) ?_ rfl rfl rfl rfl rfl
    intro n
    exact List.getElem?_map ..
  | set m v =>
    refine sameStructure_of (fun n nd => if m = n then v % 4294967296 else nd.value) ?_ rfl rfl rfl rfl rfl
    intro n
    show (List.modify _ _ _)[n]? = _
    rw [List.getElem?_modify]
    by_cases h : m = n <;> simp [h]
  | incr m =>
    refine sameStructure_of (fun n nd => if m = n then (nd.value + 1) % 4294967296 else nd.value) ?_ rfl rfl rfl rfl rfl
    intro n
    show (List.modify _ _ _)[n]? = _
    rw [List.getElem?_modify]
    by_cases h : m = n <;> simp [h]
  | decr m =>
    refine sameStructure_of (fun n nd => if m = n then (nd.value + 4294967295) % 4294967296 else nd.value) ?_ rfl rfl rfl rfl rfl
    intro n
    show (List.modify _ _ _)[n]? = _
    rw [List.getElem?_modify]
    by_cases h : m = n <;> simp [h]

theorem SameStructure.trans {N M L : Aig} (h : SameStructure N M) (k : SameStructure M L) : SameStructure N L :=
  ⟨k.inputs.trans h.inputs, k.outputs.trans h.outputs, k.size.trans h.size, k.numGates.trans h.numGates,
    k.numPis.trans h.numPis, k.numPos.trans h.numPos, fun n => (k.isCi n).trans (h.isCi n),
    fun n => (k.isPi n).trans (h.isPi n), fun n => (k.isDead n).trans (h.isDead n),
    fun n => (k.fanout n).trans (h.fanout n), fun n => (k.phase n).trans (h.phase n), k.gates.trans h.gates,
    fun n a b => (k.isGate n a b).trans (h.isGate n a b), fun a b => (k.find a b).trans (h.find a b)⟩

/-- C32 for AIGs, any sequence of value operations on any network. -/
theorem C32_aig (ops : List ValueOp) : ∀ N : Aig, SameStructure N (ops.foldl applyValue N) := by
  induction ops with
  | nil => intro N; exact ⟨rfl, rfl, rfl, rfl, rfl, rfl, fun _ => rfl, fun _ => rfl, fun _ => rfl, fun _ => rfl, fun _ => rfl, rfl,
      fun _ _ _ => Iff.rfl, fun _ _ => rfl⟩
  | cons op ops ih => intro N; exact (applyValue_same N op).trans (ih _)

/-- values written on an input and on a gate of a small network -/
example : let N := (Aig.empty.createPi.1.createPi.1.createAnd ⟨1, false⟩ ⟨2, true⟩).1
    let M := [ValueOp.set 3 1, .set 1 7, .incr 3, .decr 2].foldl applyValue N
    N.gates = [3] ∧ M.nodes.map (·.value) = [0, 7, 4294967295, 2] := by decide +kernel

end Aig

namespace Klut

/-- the value operations of LUT networks, klut_network.hpp 777-800. -/
def applyValue (N : Klut) : ValueOp → Klut
  | .clear => N.clearValues
  | .set n v => N.setValue n (BitVec.ofNat 32 v)
  | .incr n => N.incrValue n
  | .decr n => N.decrValue n

/-- Violation of C32: `clear_values` turns an input into a gate (visited by `foreach_gate`, which disagrees with
`num_gates`), and writing 1 to a gate turns it into an input. -/
theorem C32_violated : ∃ N : Klut, Built N ∧ N.isPi 2 = true ∧ N.gates = [4] ∧
    (N.applyValue .clear).isPi 2 = false ∧ (N.applyValue .clear).gates = [2, 3, 4] ∧ (N.applyValue .clear).numGates = 1 ∧
    (N.applyValue (.set 4 1)).isPi 4 = true ∧ (N.applyValue (.set 4 1)).gates = [] :=
  ⟨(Klut.empty.createPi.1.createPi.1.createAnd 2 3).1, .and (.pi (.pi .empty)) (by decide) (by decide), by decide +kernel,
    by decide +kernel, by decide +kernel, by decide +kernel, by decide +kernel, by decide +kernel, by decide +kernel⟩

/-- everything except the classification of the nodes -/
structure SameLuts (N M : Klut) : Prop where
  inputs : M.inputs = N.inputs
  outputs : M.outputs = N.outputs
  numPis : M.numPis = N.numPis
  numPos : M.numPos = N.numPos
  size : M.nodes.length = N.nodes.length
  isLut : ∀ n cs f, M.IsLut n cs f ↔ N.IsLut n cs f
  function : ∀ n, M.nodeFunction n = N.nodeFunction n
  values : ∀ x v, Consistent M x v ↔ Consistent N x v

theorem sameLuts_of {N M : Klut} (g : Nat → KNode → BitVec 32)
    (hn : ∀ n : Nat, M.nodes[n]? = (N.nodes[n]?).map fun nd => { nd with value := g n nd }) (h0 : M.nodes.length = N.nodes.length)
    (h1 : M.inputs = N.inputs) (h2 : M.outputs = N.outputs) (h3 : M.cache = N.cache) (h4 : M.numPis = N.numPis)
    (h5 : M.numPos = N.numPos) : SameLuts N M := by
  have hl : ∀ n cs f, M.IsLut n cs f ↔ N.IsLut n cs f := by
    intro n cs f
    unfold IsLut
    rw [h1, hn, h3]
    cases N.nodes[n]? with
    | none => simp
    | some nd => simp
  refine ⟨h1, h2, h4, h5, h0, hl, ?_, ?_⟩
  · intro n
    unfold nodeFunction
    rw [hn, h3]
    cases N.nodes[n]? <;> rfl
  · intro x v
    constructor
    · intro h
      exact ⟨h.const0, h.const1, by rw [← h1]; exact h.input, fun n cs f hf => h.lut n cs f ((hl n cs f).2 hf)⟩
    · intro h
      exact ⟨h.const0, h.const1, by rw [h1]; exact h.input, fun n cs f hf => h.lut n cs f ((hl n cs f).1 hf)⟩

theorem applyValue_same (N : Klut) (op : ValueOp) : SameLuts N (N.applyValue op) := by
  cases op with
  | clear =>
    refine sameLuts_of (fun _ _ => 0#32) ?_ (List.length_map ..) rfl rfl rfl rfl rfl
    intro n
    exact List.getElem?_map ..
  | set m v =>
    refine sameLuts_of (fun n nd => if m = n then BitVec.ofNat 32 v else nd.value) ?_ (List.length_modify ..) rfl rfl rfl rfl rfl
    intro n
    show (List.modify _ _ _)[n]? = _
    rw [List.getElem?_modify]
    by_cases h : m = n <;> simp [h]
  | incr m =>
    refine sameLuts_of (fun n nd => if m = n then nd.value + 1 else nd.value) ?_ (List.length_modify ..) rfl rfl rfl rfl rfl
    intro n
    show (List.modify _ _ _)[n]? = _
    rw [List.getElem?_modify]
    by_cases h : m = n <;> simp [h]
  | decr m =>
    refine sameLuts_of (fun n nd => if m = n then nd.value - 1 else nd.value) ?_ (List.length_modify ..) rfl rfl rfl rfl rfl
    intro n
    show (List.modify _ _ _)[n]? = _
    rw [List.getElem?_modify]
    by_cases h : m = n <;> simp [h]

/-- C32 for LUT networks, what holds: fanins, functions, inputs, outputs and hence all values are unchanged by any
sequence of value operations.  Missing (and false): the predicates `is_ci`, `is_pi` and the loop `foreach_gate`. -/
theorem C32_klut_partial (ops : List ValueOp) : ∀ N : Klut, SameLuts N (ops.foldl applyValue N) := by
  induction ops with
  | nil => intro N; exact ⟨rfl, rfl, rfl, rfl, rfl, fun _ _ _ => Iff.rfl, fun _ => rfl, fun _ _ => Iff.rfl⟩
  | cons op ops ih =>
    intro N
    have h := applyValue_same N op
    have k := ih (N.applyValue op)
    exact ⟨k.inputs.trans h.inputs, k.outputs.trans h.outputs, k.numPis.trans h.numPis, k.numPos.trans h.numPos, k.size.trans h.size,
      fun n cs f => (k.isLut n cs f).trans (h.isLut n cs f), fun n => (k.function n).trans (h.function n),
      fun x v => (k.values x v).trans (h.values x v)⟩

/-- the classification survives exactly when the marks 1 and 3 do -/
theorem C32_klut_flags_partial {N : Klut} (hN : Built N) (ops : List ValueOp)
    (h : ∀ n nd, (ops.foldl applyValue N).nodes[n]? = some nd → ((nd.value = 1#32 ∨ nd.value = 3#32) ↔ n ∈ N.inputs)) :
    (ops.foldl applyValue N).gates = N.gates := by
  have hs := C32_klut_partial ops N
  unfold gates
  rw [hs.size]
  apply List.filter_congr
  intro n hn
  rw [List.mem_range] at hn
  have h1 := (C51_bookkeeping hN).2.2.2.2 n hn
  obtain ⟨nd, hnd⟩ : ∃ nd, (ops.foldl applyValue N).nodes[n]? = some nd :=
    ⟨_, List.getElem?_eq_getElem (by rw [hs.size]; exact hn)⟩
  have h2 := h n nd hnd
  have : (ops.foldl applyValue N).isCi n = N.isCi n := by
    rw [Bool.eq_iff_iff, h1, ← h2, isCi, hnd]
    simp
  rw [this]

/-- gate values may be used as counters as long as they avoid 1 and 3 -/
example : let N := (Klut.empty.createPi.1.createPi.1.createAnd 2 3).1
    let M := [ValueOp.set 4 5, .incr 4, .decr 0].foldl applyValue N
    M.gates = [4] ∧ M.nodes.map (·.value) = [4294967295#32, 0#32, 1#32, 1#32, 6#32] := by decide +kernel

end Klut
end Verif
