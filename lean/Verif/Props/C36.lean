import Verif.Mapping.CoverProof
import Verif.Props.C34

set_option autoImplicit false

/-!
# C36: FPGA mapping yields a legal cover

The full claim — for every network, all parameters and whatever the heuristics pick, the mapping is a legal cover
with cells of at most `cut_size` leaves — is false: with a cut limit of two (`C36_violated_limit`), with choices
(`C36_violated_choice`) and with registers (`C36_violated_registers`).  `C36_partial` proves it for networks without
choices and registers and cut limits from 3 to 11.  The heuristics (costs, sorting, acceptance tests of each round)
are an arbitrary oracle, so the theorem holds for every one of them.
-/

namespace Verif.Mapper
open Cuts

variable {β : Type}

/-- The mapping covers the network and every cell has between two and `k` leaves. -/
def GoodCover (N : Aig) (k : Nat) (M : Mapping) : Prop :=
  Cover.Legal N M ∧ ∀ n cs, Cover.Root N M n → M.cellFanins n = some cs → 2 ≤ cs.length ∧ cs.length ≤ k

/-- what the mapper makes of any network with ordered and sound choices -/
theorem klutMap_cells (p : Ps) (C : Choice) (hN : C.net.Built) (hpo : C.net.numPos = C.net.outputs.length) (hO : C.Ordered)
    (hS : C.Sound) (hp : PsOk p.cut) (H : Nat → Nat → Heur β) (cost : β) (M : Mapping) (e : klutMap p C H cost = some M) :
    Cells p.cut C M := by
  obtain ⟨st, e0, i0, d0⟩ := start_spec p.cut hN cost
  obtain ⟨order, et, hff, hlt, hout⟩ := topologize_spec hN hO
  unfold klutMap at e
  rw [e0, et] at e
  dsimp only at e
  cases hr : mapRounds p.cut C H order 0 ((run p).map (·.first)) st with
  | none => rw [hr] at e; simp at e
  | some st' =>
    rw [hr] at e
    dsimp only at e
    obtain ⟨i1, d1⟩ := mapRounds_spec hp hN hO hS H hff hlt _ 0 st st' i0 d0 (Or.inl rfl) hr
    obtain ⟨M', e', hM⟩ := derive_cells hN hpo hff hlt hout i1 d1
    obtain rfl := Option.some.inj (e'.symm.trans e)
    exact hM

/-- the run is free of undefined behaviour if two cuts always fit into the leaf array -/
theorem klutMap_defined (p : Ps) (C : Choice) (hN : C.net.Built) (hpo : C.net.numPos = C.net.outputs.length) (hO : C.Ordered)
    (hS : C.Sound) (hp : PsOk p.cut) (hsize : p.cut.cutSize ≤ 3) (H : Nat → Nat → Heur β) (cost : β) :
    ∃ M, klutMap p C H cost = some M := by
  obtain ⟨st, e0, i0, d0⟩ := start_spec p.cut hN cost
  obtain ⟨order, et, hff, hlt, hout⟩ := topologize_spec hN hO
  obtain ⟨st', er⟩ := mapRounds_defined hp (by unfold maxCutSize; omega) hN hO hS H hff hlt
    ((run p).map (·.first)) 0 st i0 d0 (Or.inl rfl)
  obtain ⟨i1, d1⟩ := mapRounds_spec hp hN hO hS H hff hlt _ 0 st st' i0 d0 (Or.inl rfl) er
  obtain ⟨M, e', _⟩ := derive_cells hN hpo hff hlt hout i1 d1
  refine ⟨M, ?_⟩
  unfold klutMap
  rw [e0, et]
  dsimp only
  rw [er]
  exact e'

theorem klutMap_spec (p : Ps) (N : Aig) (hN : N.Built) (hpo : N.numPos = N.outputs.length) (hp : PsOk p.cut)
    (H : Nat → Nat → Heur β) (cost : β) (M : Mapping) (e : klutMap p (Choice.init N N.nodes.length) H cost = some M) :
    GoodCover N p.cut.cutSize M ∧ (M.hasMapping = true ↔ ∃ n, Cover.Root N M n) ∧
      ∀ n, Cover.Root N M n → ∃ o ∈ N.outputs, Topo.Tfi (RefDeref.aigKids N) o.index n := by
  have hC : NoChoice (Choice.init N N.nodes.length) := rfl
  have hM := klutMap_cells p (Choice.init N N.nodes.length) hN hpo hC.ordered hC.sound hp H cost M e
  obtain ⟨h1, h2, h3⟩ := hM.legal hC hN
  exact ⟨⟨h1, h2⟩, hM.has, h3⟩

/-- C36 for networks without choices and registers, cut sizes 2 to 7 and cut limits 3 to 11, for all heuristics: if
the run meets no undefined behaviour, the mapping is a legal cover, and every cell has between 2 and `cut_size` leaves.
Missing: choices (see `C59`), registers and the other cut limits, where it fails. -/
theorem C36_partial (p : Ps) (N : Aig) (hN : N.Built) (hpo : N.numPos = N.outputs.length) (hp : PsOk p.cut)
    (H : Nat → Nat → Heur β) (cost : β) (M : Mapping) (e : klutMap p (Choice.init N N.nodes.length) H cost = some M) :
    GoodCover N p.cut.cutSize M :=
  (klutMap_spec p N hN hpo hp H cost M e).1

/-- No LUT is made for a gate that no output depends on (same cases as `C36_partial`). -/
theorem C36_needed_partial (p : Ps) (N : Aig) (hN : N.Built) (hpo : N.numPos = N.outputs.length) (hp : PsOk p.cut)
    (H : Nat → Nat → Heur β) (cost : β) (M : Mapping) (e : klutMap p (Choice.init N N.nodes.length) H cost = some M) :
    ∀ n, Cover.Root N M n → ∃ o ∈ N.outputs, Topo.Tfi (RefDeref.aigKids N) o.index n :=
  (klutMap_spec p N hN hpo hp H cost M e).2.2

/-- The run is free of undefined behaviour for cut size 2 and 3 (for larger ones merging two cuts can overrun the
leaf array, see `C19`). -/
theorem C36_defined_partial (p : Ps) (N : Aig) (hN : N.Built) (hpo : N.numPos = N.outputs.length) (hp : PsOk p.cut)
    (hsize : p.cut.cutSize ≤ 3) (H : Nat → Nat → Heur β) (cost : β) :
    ∃ M, klutMap p (Choice.init N N.nodes.length) H cost = some M :=
  have hC : NoChoice (Choice.init N N.nodes.length) := rfl
  klutMap_defined p (Choice.init N N.nodes.length) hN hpo hC.ordered hC.sound hp hsize H cost

/-- The options accepted by the shell command with a priority size of at most 11. -/
theorem C36_shell_partial (o : Options) (p : Ps) (ho : o.params = some p) (hprio : o.prioritySize ≤ 11) (N : Aig)
    (hN : N.Built) (hpo : N.numPos = N.outputs.length) (H : Nat → Nat → Heur β) (cost : β) (M : Mapping)
    (e : klutMap p (Choice.init N N.nodes.length) H cost = some M) : GoodCover N o.cutSize M := by
  unfold Options.params at ho
  split at ho
  · simp at ho
  split at ho
  · simp at ho
  split at ho
  · simp at ho
  split at ho
  · simp at ho
  split at ho
  · simp at ho
  rename_i h1 h2 _ _ _
  obtain rfl := Option.some.inj ho
  have hp : PsOk { cutSize := o.cutSize, cutLimit := o.prioritySize } :=
    ⟨by dsimp; omega, by dsimp; unfold maxCutSize; omega, by dsimp; omega, by dsimp; unfold maxCutNum; omega, rfl⟩
  exact C36_partial _ N hN hpo hp H cost M e

/-! ### Examples and counterexamples -/

/-- heuristics for the examples: every cut costs one -/
def H1 : Nat → Nat → Heur Nat := fun _ _ =>
  { lt := fun c d => c.data.cost < d.data.cost, cost := fun _ => 1, accept := fun _ => true
    acceptChoice := fun _ => true, skip := fun _ _ => false }

/-- output `(x₁ ∧ x₂) ∧ x₃` -/
def and3 : Aig :=
  let n1 := Aig.empty.createPi.1.createPi.1.createPi.1
  let r2 := n1.createAnd (.mk 1 false) (.mk 2 false)
  let r3 := r2.1.createAnd r2.2 (.mk 3 false)
  r3.1.createPo r3.2

theorem and3_built : and3.Built := by
  have h1 : Aig.Built Aig.empty.createPi.1.createPi.1.createPi.1 := .pi (.pi (.pi .empty))
  have h2 := Aig.Built.and (a := .mk 1 false) (b := .mk 2 false) h1 (by decide) (by decide)
  have h3 := Aig.Built.and (a := .mk 4 false) (b := .mk 3 false) h2 (by decide) (by decide)
  exact .po h3 (by decide)

/-- the mapping of `and3`: one cell at node 5 with the leaves 1, 2 and 3 -/
theorem and3_map : (klutMap {} (Choice.init and3 6) H1 0).map (fun M => (M.cellFanins 5, M.hasMapping)) = some (some [1, 2, 3], true) := by
  decide +kernel

/-- the default parameters on `and3` meet the hypotheses of `C36_partial`, and the cover has a cell with three leaves -/
example : ∃ M, klutMap {} (Choice.init and3 6) H1 0 = some M ∧ GoodCover and3 6 M ∧ M.cellFanins 5 = some [1, 2, 3] := by
  have h := and3_map
  cases e : klutMap {} (Choice.init and3 6) H1 0 with
  | none => rw [e] at h; simp at h
  | some M =>
    rw [e] at h
    simp only [Option.map_some, Option.some.injEq, Prod.mk.injEq] at h
    exact ⟨M, rfl, C36_partial {} and3 and3_built (by decide) ⟨by decide, by decide, by decide, by decide, rfl⟩ H1 0 M e, h.1⟩

/-- `C36_defined_partial` for the same network -/
example : ∃ M, klutMap { cut := { cutSize := 3, cutLimit := 10 } } (Choice.init and3 6) H1 0 = some M :=
  C36_defined_partial { cut := { cutSize := 3, cutLimit := 10 } } and3 and3_built (by decide)
    ⟨by decide, by decide, by decide, by decide, rfl⟩ (by decide) H1 0

/-- a cell with itself as leaf is not legal -/
theorem not_legal_self {N : Aig} {M : Mapping} {n : Nat} {cs : List Nat} (hg : ∃ a b, N.IsGate n a b)
    (hr : M.isCellRoot n = some true) (hf : M.cellFanins n = some cs) (hmem : n ∈ cs) : ¬ Cover.Legal N M := by
  intro h
  obtain ⟨cs', f, e, _, _, _, hl, _⟩ := h.cell n ⟨hg, hr⟩
  rw [hf] at e
  obtain rfl := Option.some.inj e
  exact (hl n hmem).2.1 rfl

/-- With a cut limit of two only the unit cut of each node survives, and the mapper chooses it: the only cell has
itself as its only leaf. -/
theorem C36_violated_limit : ∃ M, klutMap { cut := { cutSize := 6, cutLimit := 2 } } (Choice.init and3 6) H1 0 = some M ∧
    M.cellFanins 5 = some [5] ∧ ¬ Cover.Legal and3 M := by
  have h : (klutMap { cut := { cutSize := 6, cutLimit := 2 } } (Choice.init and3 6) H1 0).map
      (fun M => (M.cellFanins 5, M.isCellRoot 5)) = some (some [5], some true) := by decide +kernel
  cases e : klutMap { cut := { cutSize := 6, cutLimit := 2 } } (Choice.init and3 6) H1 0 with
  | none => rw [e] at h; simp at h
  | some M =>
    rw [e] at h
    simp only [Option.map_some, Option.some.injEq, Prod.mk.injEq] at h
    refine ⟨M, rfl, h.1, not_legal_self ⟨.mk 3 false, .mk 4 false, by decide, by decide, ?_⟩ h.2 h.1 (by simp)⟩
    exact ⟨_, rfl, by decide, by decide⟩

/-- node 3 is `x₁ ∧ x₂`, node 5 is `x₁ ∧ ¬(x₁ ∧ ¬x₂)`, which is the same function -/
def choiceAig : Aig :=
  let n1 := Aig.empty.createPi.1.createPi.1
  let r2 := n1.createAnd (.mk 1 false) (.mk 2 false)
  let r3 := r2.1.createAnd (.mk 1 false) (.mk 2 true)
  let r4 := r3.1.createAnd (.mk 1 false) (.mk 4 true)
  r4.1.createPo (.mk 3 false)

theorem choiceAig_built : choiceAig.Built := by
  have h1 : Aig.Built Aig.empty.createPi.1.createPi.1 := .pi (.pi .empty)
  have h2 := Aig.Built.and (a := .mk 1 false) (b := .mk 2 false) h1 (by decide) (by decide)
  have h3 := Aig.Built.and (a := .mk 1 false) (b := .mk 2 true) h2 (by decide) (by decide)
  have h4 := Aig.Built.and (a := .mk 1 false) (b := .mk 4 true) h3 (by decide) (by decide)
  exact .po h4 (by decide)

/-- `choiceAig` with node 5 declared a choice of node 3 -/
def choiceNet : Option Choice := ((Choice.init choiceAig 6).setChoice 5 3).map (·.1)

/-- With choices, the unit cut of the representative is offered as a cut of its class and chosen: the cell of node 3
has node 3 as its only leaf, a combinational loop. -/
theorem C36_violated_choice : ∃ C M, choiceNet = some C ∧ klutMap {} C H1 0 = some M ∧
    M.cellFanins 3 = some [3] ∧ ¬ Cover.Legal choiceAig M := by
  have h : choiceNet.bind (fun C => (klutMap {} C H1 0).map (fun M => (M.cellFanins 3, M.isCellRoot 3))) =
      some (some [3], some true) := by decide +kernel
  cases ec : choiceNet with
  | none => rw [ec] at h; simp at h
  | some C =>
    rw [ec, Option.bind_some] at h
    cases e : klutMap {} C H1 0 with
    | none => rw [e] at h; simp at h
    | some M =>
      rw [e] at h
      simp only [Option.map_some, Option.some.injEq, Prod.mk.injEq] at h
      refine ⟨C, M, rfl, e, h.1, not_legal_self ⟨.mk 1 false, .mk 2 false, by decide, by decide, ?_⟩ h.2 h.1 (by simp)⟩
      exact ⟨_, rfl, by decide, by decide⟩

/-- a register whose next state is `x₁ ∧ x₂` -/
def regGate : Aig :=
  let n1 := Aig.empty.createPi.1.createPi.1.createRo.1
  let r2 := n1.createAnd (.mk 1 false) (.mk 2 false)
  (r2.1.createPo (.mk 3 false)).createRi r2.2 0

theorem regGate_built : regGate.Built := by
  have h1 : Aig.Built Aig.empty.createPi.1.createPi.1.createRo.1 := .ro (.pi (.pi .empty))
  have h2 := Aig.Built.and (a := .mk 1 false) (b := .mk 2 false) h1 (by decide) (by decide)
  exact .ri (.po h2 (by decide)) (by decide)

/-- Only primary outputs are followed: the gate that drives the register input is in no cell. -/
theorem C36_violated_registers : ∃ M, klutMap {} (Choice.init regGate 5) H1 0 = some M ∧
    M.isCellRoot 4 = some false ∧ ¬ Cover.Legal regGate M := by
  have h : (klutMap {} (Choice.init regGate 5) H1 0).map (fun M => M.isCellRoot 4) = some (some false) := by decide +kernel
  cases e : klutMap {} (Choice.init regGate 5) H1 0 with
  | none => rw [e] at h; simp at h
  | some M =>
    rw [e] at h
    simp only [Option.map_some, Option.some.injEq] at h
    refine ⟨M, rfl, h, fun hl => ?_⟩
    rcases hl.output (.mk 4 false) (by decide) with h0 | h0 | ⟨_, h0⟩
    · exact absurd h0 (by decide)
    · exact absurd h0 (by decide)
    · have : M.isCellRoot 4 = some true := h0
      rw [h] at this
      exact absurd this (by decide)

end Verif.Mapper
