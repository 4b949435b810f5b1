import Verif.Props.AigBuild
import Mathlib.Algebra.BigOperators.Group.List.Basic

set_option autoImplicit false

/-!
# C04 - C09: global invariants of constructed networks
-/

namespace Verif.Aig

theorem createAnd_comm (N : Aig) (a b : Sig) : N.createAnd a b = N.createAnd b a := by
  rw [createAnd_eq, createAnd_eq]
  rcases Nat.lt_trichotomy a.index b.index with h | h | h
  · have : order a b = order b a := by
      simp [order, h, Nat.not_lt.2 (le_of_lt h)]
    rw [this]
  · have e1 : order a b = (a, b) := by simp [order, h]
    have e2 : order b a = (b, a) := by simp [order, h]
    rw [e1, e2]
    simp only [createAndOrd, h, if_true]
    by_cases hc : a.compl = b.compl
    · simp [hc, Sig.ext_iff', h]
    · simp [hc, Ne.symm hc]
  · have : order a b = order b a := by
      simp [order, h, Nat.not_lt.2 (le_of_lt h)]
    rw [this]

theorem createAnd_idem {N : Aig} (h : WF N) (a b : Sig) :
    (N.createAnd a b).1.createAnd a b = N.createAnd a b := by
  rcases createAnd_cases N a b with e | ⟨c, d, ho, h1, h2, h3, h4, e⟩
  · generalize hr : N.createAnd a b = r at *
    cases r with | mk M s => simp only at e; subst e; rw [hr]
  · have g := (addAnd_isGate h c d N.nodes.length c d).2 (Or.inr ⟨rfl, rfl, rfl⟩)
    by_cases hd : N.Valid d
    · have hw := h.addAnd (a := c) (b := d) (by omega) h3 hd (h.hashFind_none h4)
      rw [e, createAnd_eq, ho, createAndOrd, if_neg h1, if_neg h2, hw.hashFind_eq g]
      rfl
    · -- the table of the new network finds the node whatever its fanins are
      have hf : (N.addAnd c d).1.hashFind c d = some N.nodes.length := by
        have ht : (N.addAnd c d).1.table = N.nodes.length :: N.table := rfl
        obtain ⟨_, _, nd, hn, _, e0, e1⟩ := g
        rw [hashFind, ht, List.find?_cons_of_pos]
        rw [hasKids, hn]; simp [e0, e1]
      rw [e, createAnd_eq, ho, createAndOrd, if_neg h1, if_neg h2, hf]
      rfl

/-- C04: no two gates have the same two fanins (in either order); no gate has the constant node as a
fanin or both fanins on one node. -/
theorem C04_canonical (N : Aig) (hN : Built N) (n m : Nat) (a b : Sig) (hn : N.IsGate n a b) :
    a.index ≠ 0 ∧ b.index ≠ 0 ∧ a.index ≠ b.index ∧
    (N.IsGate m a b ∨ N.IsGate m b a → m = n) := by
  have h := hN.wf.isGate_lt hn
  refine ⟨by omega, by omega, by omega, ?_⟩
  rintro (hm | hm)
  · exact hN.wf.uniq m n a b hm hn
  · have := hN.wf.isGate_lt hm; omega

/-- C04: asking again for the same conjunction, in either order, returns the same signal and leaves
the network unchanged. -/
theorem C04_idempotent (N : Aig) (hN : Built N) (a b : Sig) :
    (N.createAnd a b).1.createAnd a b = N.createAnd a b ∧
    (N.createAnd a b).1.createAnd b a = N.createAnd a b := by
  refine ⟨createAnd_idem hN.wf a b, ?_⟩
  rw [createAnd_comm _ b a]; exact createAnd_idem hN.wf a b

/-- C04: an existing gate is found again: for every gate the constructor returns that very gate. -/
theorem C04_found (N : Aig) (hN : Built N) (n : Nat) (a b : Sig) (hn : N.IsGate n a b) :
    N.createAnd a b = (N, ⟨n, false⟩) ∧ N.createAnd b a = (N, ⟨n, false⟩) := by
  have h := hN.wf.isGate_lt hn
  have : N.createAnd a b = (N, ⟨n, false⟩) := by
    have ho : order a b = (a, b) := by simp [order]; intro; omega
    rw [createAnd_eq, ho, createAndOrd, if_neg (by simp; omega), if_neg (by simp; omega),
      hN.wf.hashFind_eq hn]
  exact ⟨this, by rw [createAnd_comm]; exact this⟩

theorem demo_gate : demo.IsGate 3 ⟨1, true⟩ ⟨2, false⟩ :=
  ⟨by decide, by decide, _, rfl, rfl, rfl, rfl⟩

example : demo.createAnd ⟨2, false⟩ ⟨1, true⟩ = (demo, ⟨3, false⟩) :=
  (C04_found demo demo_built 3 _ _ demo_gate).2

/-- C05: `find_and` answers true exactly when `create_and` would leave the network unchanged, which is
the case exactly when it would not add a node. -/
theorem C05_find_and (N : Aig) (a b : Sig) :
    (N.findAnd a b = true ↔ (N.createAnd a b).1 = N) ∧
    (N.findAnd a b = false ↔ (N.createAnd a b).1.size = N.size + 1) := by
  have key : (N.findAnd a b = true ∧ (N.createAnd a b).1 = N) ∨
      (N.findAnd a b = false ∧ (N.createAnd a b).1.size = N.size + 1) := by
    rw [createAnd_eq, createAndOrd, findAnd]
    by_cases h1 : (order a b).1.index = (order a b).2.index
    · left; simp [h1]
    by_cases h2 : (order a b).1.index = 0
    · left; rw [if_neg h1, if_pos h2, if_pos (Or.inr h2)]; exact ⟨rfl, rfl⟩
    rw [if_neg h1, if_neg h2, if_neg (by tauto)]
    cases hf : N.hashFind (order a b).1 (order a b).2 with
    | some t => left; simp
    | none => right; simp [size]
  rcases key with ⟨e1, e2⟩ | ⟨e1, e2⟩
  · simp [e1, e2]
  · simp only [e1, e2]
    refine ⟨⟨by simp, fun h => ?_⟩, by simp⟩
    rw [h] at e2; omega

example : demo.findAnd ⟨2, false⟩ ⟨1, true⟩ = true ∧ demo.findAnd ⟨2, false⟩ ⟨3, true⟩ = false := by
  decide

theorem WF.mem_gates {N : Aig} (h : WF N) (n : Nat) :
    n ∈ N.gates ↔ ∃ a b, N.IsGate n a b := by
  simp only [gates, List.mem_filter, List.mem_range, Bool.and_eq_true, Bool.not_eq_true', bne_iff_ne]
  constructor
  · rintro ⟨hl, ⟨h0, hci⟩, hd⟩
    obtain ⟨nd, hn⟩ : ∃ nd, N.nodes[n]? = some nd := ⟨_, List.getElem?_eq_getElem hl⟩
    simp only [isCi, isDead, hn] at hci hd
    refine ⟨nd.c0, nd.c1, h0, ?_, nd, hn, hd, rfl, rfl⟩
    intro hi
    obtain ⟨k, hk⟩ := List.getElem?_of_mem hi
    obtain ⟨_, nd', hn', e0, e1, _⟩ := h.input k n hk
    rw [hn] at hn'; cases hn'
    simp [e0, e1] at hci
  · rintro ⟨a, b, g⟩
    have hl := h.isGate_lt g
    obtain ⟨h0, h1, nd, hn, hd, rfl, rfl⟩ := g
    refine ⟨hl.2.2.2, ⟨h0, ?_⟩, ?_⟩
    · simp only [isCi, hn, beq_eq_false_iff_ne]
      intro e
      rw [e] at hl; omega
    · simpa [isDead, hn] using hd

/-- C06: fanins have smaller indices; `foreach_gate` visits exactly the gates, each once, in increasing
index order, hence every gate after its fanins. -/
theorem C06_topological (N : Aig) (hN : Built N) :
    (∀ n a b, N.IsGate n a b → a.index < n ∧ b.index < n) ∧
    (∀ n, n ∈ N.gates ↔ ∃ a b, N.IsGate n a b) ∧
    N.gates.Pairwise (· < ·) := by
  refine ⟨fun n a b g => ?_, hN.wf.mem_gates, ?_⟩
  · have := hN.wf.isGate_lt g; omega
  · exact List.Pairwise.filter _ List.pairwise_lt_range

example : demo.gates = [3] := by decide

/-! ### C08 -/

theorem gates_length {N : Aig} (h : WF N) : N.numGates = N.gates.length := by
  have hperm : N.table.Perm N.gates := by
    refine (List.perm_ext_iff_of_nodup h.tableNodup (l₂ := N.gates)
      ((List.Pairwise.filter _ List.pairwise_lt_range).imp (fun h => Nat.ne_of_lt h))).2 ?_
    intro t
    rw [h.mem_gates, h.table]
    constructor
    · rintro ⟨h0, h1, h2⟩
      obtain ⟨nd, hn⟩ : ∃ nd, N.nodes[t]? = some nd := ⟨_, List.getElem?_eq_getElem h2⟩
      exact ⟨nd.c0, nd.c1, h0, h1, nd, hn, (h.gate t nd hn h0 h1).2.2.2, rfl, rfl⟩
    · rintro ⟨a, b, h0, h1, nd, hn, _⟩
      exact ⟨h0, h1, lt_of_getElem? hn⟩
  exact hperm.length_eq

/-- C08: `num_gates` is the number of gates visited by `foreach_gate`, and
`size = 1 + #combinational inputs + #gates`. -/
theorem C08_sizes (N : Aig) (hN : Built N) :
    N.numGates = N.gates.length ∧ N.size = 1 + N.inputs.length + N.numGates := by
  refine ⟨gates_length hN.wf, ?_⟩
  induction hN with
  | empty => rfl
  | pi _ ih => simp [createPi, size, numGates] at ih ⊢; omega
  | ro _ ih => simp [createRo, size, numGates] at ih ⊢; omega
  | po _ _ ih => simpa [createPo, size, numGates] using ih
  | ri _ _ ih => simpa [createRi, size, numGates] using ih
  | @and N a b _ _ _ ih =>
    rcases createAnd_cases N a b with e | ⟨c, d, _, _, _, _, _, e⟩
    · rw [e]; exact ih
    · rw [e]
      simp only [size, numGates, addAnd_length] at ih ⊢
      have : (N.addAnd c d).1.table = N.nodes.length :: N.table := rfl
      have h2 : (N.addAnd c d).1.inputs = N.inputs := rfl
      rw [this, h2]; simp; omega

/-- C08: each call changes exactly its own counter (`num_pis`, `num_pos`, number of latches), so the
counters equal the numbers of calls made. -/
theorem C08_counters (N : Aig) (hN : Built N) (f a b : Sig) (r : Int) (ha : N.Valid a)
    (hb : N.Valid b) :
    (Aig.empty.numPis = 0 ∧ Aig.empty.numPos = 0 ∧ Aig.empty.latches = []) ∧
    (N.createPi.1.numPis = N.numPis + 1 ∧ N.createPi.1.numPos = N.numPos ∧
      N.createPi.1.latches = N.latches) ∧
    (N.createRo.1.numPis = N.numPis ∧ N.createRo.1.numPos = N.numPos ∧
      N.createRo.1.latches = N.latches ∧ N.createRo.1.inputs.length = N.inputs.length + 1) ∧
    ((N.createPo f).numPos = N.numPos + 1 ∧ (N.createPo f).numPis = N.numPis ∧
      (N.createPo f).latches = N.latches) ∧
    ((N.createRi f r).latches = N.latches ++ [r] ∧ (N.createRi f r).numPis = N.numPis ∧
      (N.createRi f r).numPos = N.numPos) ∧
    ((N.createAnd a b).1.numPis = N.numPis ∧ (N.createAnd a b).1.numPos = N.numPos ∧
      (N.createAnd a b).1.latches = N.latches ∧ (N.createAnd a b).1.inputs = N.inputs ∧
      (N.createAnd a b).1.outputs = N.outputs) := by
  have s := createAnd_spec hN.wf ha hb
  refine ⟨⟨rfl, rfl, rfl⟩, ⟨rfl, rfl, rfl⟩, ⟨rfl, rfl, rfl, ?_⟩, ⟨rfl, rfl, rfl⟩, ⟨rfl, rfl, rfl⟩,
    s.numPis, s.numPos, s.latches, s.inputs, s.outputs⟩
  simp [createRo]

/-! ### C07 -/

theorem refCount_congr {N M : Aig} (hl : M.nodes.length = N.nodes.length)
    (hg : ∀ n a b, M.IsGate n a b ↔ N.IsGate n a b) (n : Nat) :
    M.refCount n + N.outputs.countP (fun s => s.index == n) =
      N.refCount n + M.outputs.countP (fun s => s.index == n) := by
  have hg' : M.IsGate = N.IsGate := by
    funext n a b; exact propext (hg n a b)
  unfold refCount
  rw [hl, hg']
  omega

theorem refCount_addCi {N : Aig} (h : WF N) (n : Nat) : N.addCi.refCount n = N.refCount n := by
  classical
  unfold refCount
  have hl : N.addCi.nodes.length = N.nodes.length + 1 := by simp [addCi]
  have ho : N.addCi.outputs = N.outputs := rfl
  rw [hl, ho, List.range_succ, List.map_append, List.sum_append]
  simp only [addCi_isGate]
  have : ∀ a b, ¬ N.IsGate N.nodes.length a b := by
    intro a b g
    have := h.isGate_lt g
    omega
  simp [this]

theorem refCount_pushAnd {N : Aig} (h : WF N) (a b : Sig) (ph : Bool) (n : Nat) :
    (N.pushAnd a b ph).refCount n =
      N.refCount n + (if a.index = n then 1 else 0) + (if b.index = n then 1 else 0) := by
  classical
  unfold refCount
  have hl : (N.pushAnd a b ph).nodes.length = N.nodes.length + 1 := by simp [pushAnd]
  have ho : (N.pushAnd a b ph).outputs = N.outputs := rfl
  rw [hl, ho, List.range_succ, List.map_append, List.sum_append]
  have hold : ∀ g ∈ List.range N.nodes.length, ∀ c d,
      ((N.pushAnd a b ph).IsGate g c d ↔ N.IsGate g c d) := by
    intro g hg c d
    rw [pushAnd_isGate h]
    have := List.mem_range.1 hg
    constructor
    · rintro (h | ⟨h, _⟩)
      · exact h
      · omega
    · exact Or.inl
  have e1 : ((List.range N.nodes.length).map fun g =>
      (if ∃ a_1 b_1, (N.pushAnd a b ph).IsGate g a_1 b_1 ∧ a_1.index = n then 1 else 0) +
      (if ∃ a_1 b_1, (N.pushAnd a b ph).IsGate g a_1 b_1 ∧ b_1.index = n then 1 else 0)) =
      ((List.range N.nodes.length).map fun g =>
      (if ∃ a_1 b_1, N.IsGate g a_1 b_1 ∧ a_1.index = n then 1 else 0) +
      (if ∃ a_1 b_1, N.IsGate g a_1 b_1 ∧ b_1.index = n then 1 else 0)) := by
    apply List.map_congr_left
    intro g hg
    simp only [hold g hg]
  have hnew : ∀ c d, (N.pushAnd a b ph).IsGate N.nodes.length c d ↔ c = a ∧ d = b := by
    intro c d
    rw [pushAnd_isGate h]
    constructor
    · rintro (g | ⟨_, h⟩)
      · have := h.isGate_lt g; omega
      · exact h
    · rintro ⟨rfl, rfl⟩; exact Or.inr ⟨rfl, rfl, rfl⟩
  rw [e1]
  simp only [List.map_cons, List.map_nil, List.sum_cons, List.sum_nil, hnew]
  have f1 : (∃ a_1 b_1, (a_1 = a ∧ b_1 = b) ∧ a_1.index = n) ↔ a.index = n := by
    constructor
    · rintro ⟨_, _, ⟨rfl, rfl⟩, h⟩; exact h
    · intro h; exact ⟨a, b, ⟨rfl, rfl⟩, h⟩
  have f2 : (∃ a_1 b_1, (a_1 = a ∧ b_1 = b) ∧ b_1.index = n) ↔ b.index = n := by
    constructor
    · rintro ⟨_, _, ⟨rfl, rfl⟩, h⟩; exact h
    · intro h; exact ⟨a, b, ⟨rfl, rfl⟩, h⟩
  simp only [f1, f2]
  omega

theorem refCount_out_of_range {N : Aig} (h : WF N) {n : Nat} (hn : N.nodes.length ≤ n) :
    N.refCount n = 0 := by
  classical
  unfold refCount
  have h1 : N.outputs.countP (fun s => s.index == n) = 0 := by
    rw [List.countP_eq_zero]
    intro s hs
    have : s.index < N.nodes.length := h.outputs s hs
    simp; omega
  rw [h1, Nat.add_zero]
  apply List.sum_eq_zero
  intro k hk
  obtain ⟨g, _, rfl⟩ := List.mem_map.1 hk
  have e1 : ¬ ∃ a b, N.IsGate g a b ∧ a.index = n := by
    rintro ⟨a, b, gg, e⟩; have := h.isGate_lt gg; omega
  have e2 : ¬ ∃ a b, N.IsGate g a b ∧ b.index = n := by
    rintro ⟨a, b, gg, e⟩; have := h.isGate_lt gg; omega
  rw [if_neg e1, if_neg e2]; rfl

theorem fanoutSize_incFo {N : Aig} (i n : Nat) (hn : n < N.nodes.length) :
    (N.incFo i).fanoutSize n = N.fanoutSize n + if i = n then 1 else 0 := by
  unfold fanoutSize
  rw [incFo_get, List.getElem?_eq_getElem hn]
  simp only [Option.map_some]
  split <;> simp_all

theorem fanoutSize_congr {N M : Aig} (h : M.nodes = N.nodes) (n : Nat) :
    M.fanoutSize n = N.fanoutSize n := by simp [fanoutSize, h]

/-- C07: the stored fan-out count of every node is the number of gate fanins and outputs that refer
to it. -/
theorem C07_fanout_exact (N : Aig) (hN : Built N) :
    ∀ n, n < N.size → N.fanoutSize n = N.refCount n := by
  induction hN with
  | empty =>
    intro n hn
    have : n = 0 := by simp [size, Aig.empty] at hn; exact hn
    subst this
    have h : (Aig.empty).refCount 0 = 0 := by
      classical
      have hg : ∀ a b, ¬ Aig.empty.IsGate 0 a b := fun a b g => g.1 rfl
      have : List.range Aig.empty.nodes.length = [0] := rfl
      simp only [refCount, this, List.map_cons, List.map_nil, List.sum_cons, List.sum_nil]
      have ho : Aig.empty.outputs = [] := rfl
      simp [hg, ho]
    rw [h]; rfl
  | @pi N hN ih =>
    intro n hn
    have hw := hN.wf
    have e1 : N.createPi.1.refCount n = N.refCount n := by
      rw [← refCount_addCi hw n]; rfl
    have e2 : N.createPi.1.fanoutSize n = N.addCi.fanoutSize n := rfl
    rw [e1, e2]
    by_cases hl : n < N.nodes.length
    · rw [← ih n hl]
      simp [fanoutSize, addCi, List.getElem?_append_left hl]
    · rw [refCount_out_of_range hw (by omega)]
      have : n = N.nodes.length := by
        have : N.createPi.1.size = N.nodes.length + 1 := by simp [createPi, size]
        omega
      subst this
      simp [fanoutSize, addCi]
  | @ro N hN ih =>
    intro n hn
    have hw := hN.wf
    have e1 : N.createRo.1.refCount n = N.refCount n := by
      rw [← refCount_addCi hw n]; rfl
    have e2 : N.createRo.1.fanoutSize n = N.addCi.fanoutSize n := rfl
    rw [e1, e2]
    by_cases hl : n < N.nodes.length
    · rw [← ih n hl]
      simp [fanoutSize, addCi, List.getElem?_append_left hl]
    · rw [refCount_out_of_range hw (by omega)]
      have : n = N.nodes.length := by
        have : N.createRo.1.size = N.nodes.length + 1 := by simp [createRo, size]
        omega
      subst this
      simp [fanoutSize, addCi]
  | @po N f hN hf ih =>
    intro n hn
    have hl : n < N.nodes.length := by simpa [createPo, size] using hn
    have e1 : (N.createPo f).fanoutSize n = (N.incFo f.index).fanoutSize n := rfl
    have hc := refCount_congr (N := N) (M := N.createPo f) (by simp [createPo])
      (fun n a b => incFo_isGate N f.index n a b) n
    have ho : (N.createPo f).outputs = N.outputs ++ [f] := rfl
    rw [ho, List.countP_append, List.countP_singleton] at hc
    rw [e1, fanoutSize_incFo _ _ hl, ih n hl]
    by_cases h : f.index = n <;> simp [h] at hc ⊢ <;> omega
  | @ri N f r hN hf ih =>
    intro n hn
    have hl : n < N.nodes.length := by simpa [createRi, size] using hn
    have e1 : (N.createRi f r).fanoutSize n = (N.incFo f.index).fanoutSize n := rfl
    have hc := refCount_congr (N := N) (M := N.createRi f r) (by simp [createRi])
      (fun n a b => incFo_isGate N f.index n a b) n
    have ho : (N.createRi f r).outputs = N.outputs ++ [f] := rfl
    rw [ho, List.countP_append, List.countP_singleton] at hc
    rw [e1, fanoutSize_incFo _ _ hl, ih n hl]
    by_cases h : f.index = n <;> simp [h] at hc ⊢ <;> omega
  | @and N a b hN ha hb ih =>
    intro n hn
    rcases createAnd_cases N a b with e | ⟨c, d, _, _, _, _, _, e⟩
    · rw [e] at hn ⊢; exact ih n hn
    rw [e] at hn ⊢
    obtain ⟨ph, e'⟩ := addAnd_eq N c d
    rw [e'] at hn ⊢
    have hw := hN.wf
    have hn' : n < N.nodes.length + 1 := by simpa [size, pushAnd] using hn
    have hpl : (N.pushAnd c d ph).nodes.length = N.nodes.length + 1 := by simp [pushAnd]
    have r1 : (((N.pushAnd c d ph).incFo c.index).incFo d.index).refCount n =
        (N.pushAnd c d ph).refCount n := by
      have h1 := refCount_congr (N := N.pushAnd c d ph)
        (M := ((N.pushAnd c d ph).incFo c.index).incFo d.index) (by simp)
        (fun n a b => (incFo_isGate _ _ n a b).trans (incFo_isGate _ _ n a b)) n
      simpa using h1
    rw [r1, refCount_pushAnd hw, fanoutSize_incFo _ _ (by simp [hpl]; omega),
      fanoutSize_incFo _ _ (by rw [hpl]; exact hn')]
    by_cases hl : n < N.nodes.length
    · rw [← ih n hl]
      have : (N.pushAnd c d ph).fanoutSize n = N.fanoutSize n := by
        simp [fanoutSize, pushAnd, List.getElem?_append_left hl]
      rw [this]
    · have : n = N.nodes.length := by omega
      subst this
      rw [refCount_out_of_range hw le_rfl]
      simp [fanoutSize, pushAnd]

example : demo.fanoutSize 1 = 1 ∧ demo.fanoutSize 3 = 1 := by decide

/-! ### C09 -/

theorem phaseOf_incFo (N : Aig) (i n : Nat) : (N.incFo i).phaseOf n = N.phaseOf n := by
  unfold phaseOf
  rw [incFo_get]
  cases N.nodes[n]? with
  | none => rfl
  | some nd => simp only [Option.map_some]; split <;> rfl

/-- C09: the phase bit of every node is its value when all combinational inputs are 0. -/
theorem C09_phase (N : Aig) (hN : Built N) (v : Nat → Bool) (hv : N.Consistent (fun _ => false) v) :
    ∀ n, n < N.size → N.phaseOf n = v n := by
  induction hN with
  | empty =>
    intro n hn
    have : n = 0 := by simp [size, Aig.empty] at hn; exact hn
    subst this
    rw [hv.models.const]; rfl
  | @pi N hN ih =>
    intro n hn
    have hc := (ext_createPi N).consistent hv
    by_cases hl : n < N.nodes.length
    · rw [← ih hc n hl]
      simp [phaseOf, createPi, List.getElem?_append_left hl]
    · have : n = N.nodes.length := by
        have : N.createPi.1.size = N.nodes.length + 1 := by simp [createPi, size]
        omega
      subst this
      rw [hv.input N.inputs.length N.nodes.length (by simp [createPi])]
      simp [phaseOf, createPi]
  | @ro N hN ih =>
    intro n hn
    have hc := (ext_createRo N).consistent hv
    by_cases hl : n < N.nodes.length
    · rw [← ih hc n hl]
      simp [phaseOf, createRo, List.getElem?_append_left hl]
    · have : n = N.nodes.length := by
        have : N.createRo.1.size = N.nodes.length + 1 := by simp [createRo, size]
        omega
      subst this
      rw [hv.input N.inputs.length N.nodes.length (by simp [createRo])]
      simp [phaseOf, createRo]
  | @po N f hN hf ih =>
    intro n hn
    have hl : n < N.nodes.length := by simpa [createPo, size] using hn
    rw [← ih ((ext_createPo N f).consistent hv) n hl]
    exact phaseOf_incFo N f.index n
  | @ri N f r hN hf ih =>
    intro n hn
    have hl : n < N.nodes.length := by simpa [createRi, size] using hn
    rw [← ih ((ext_createRi N f r).consistent hv) n hl]
    exact phaseOf_incFo N f.index n
  | @and N a b hN ha hb ih =>
    intro n hn
    have hc := (createAnd_spec hN.wf ha hb).ext.consistent hv
    rcases createAnd_cases N a b with e | ⟨c, d, ho, _, h2, h3, _, e⟩
    · rw [e] at hn ⊢; exact ih hc n hn
    rw [e] at hn hv ⊢
    have hcd : c.index < N.nodes.length ∧ d.index < N.nodes.length := by
      have ha' : a.index < N.nodes.length := ha
      have hb' : b.index < N.nodes.length := hb
      rcases order_cases a b with ⟨e, _⟩ | ⟨e, _⟩ <;> rw [e] at ho <;> cases ho <;>
        exact ⟨by assumption, by assumption⟩
    have hph : ∀ m, (N.addAnd c d).1.phaseOf m =
        (N.pushAnd c d ((Bool.xor (N.phaseOf c.index) c.compl) &&
          (Bool.xor (N.phaseOf d.index) d.compl))).phaseOf m := by
      intro m
      have : (N.addAnd c d).1 = ((N.pushAnd c d ((Bool.xor (N.phaseOf c.index) c.compl) &&
          (Bool.xor (N.phaseOf d.index) d.compl))).incFo c.index).incFo d.index := rfl
      rw [this, phaseOf_incFo, phaseOf_incFo]
    rw [hph]
    have hn' : n < N.nodes.length + 1 := by simpa [size] using hn
    by_cases hl : n < N.nodes.length
    · rw [← ih hc n hl]
      simp [phaseOf, pushAnd, List.getElem?_append_left hl]
    · have : n = N.nodes.length := by omega
      subst this
      rw [hv.models.gate N.nodes.length c d
        ((addAnd_isGate hN.wf c d _ _ _).2 (Or.inr ⟨rfl, rfl, rfl⟩))]
      rw [ih hc c.index hcd.1, ih hc d.index hcd.2]
      simp [phaseOf, pushAnd, Sig.val, Bool.xor_comm]

/-- The hypothesis of `C09_phase` is met, with a non-trivial phase: an inverted conjunction of inverted
inputs is used as fanin. -/
example : ∃ v, demo.Consistent (fun _ => false) v ∧ ∀ n, n < demo.size → demo.phaseOf n = v n :=
  ⟨_, demo_built.wf.consistent_value _, C09_phase demo demo_built _ (demo_built.wf.consistent_value _)⟩

end Verif.Aig
