import Verif.Props.C36

set_option autoImplicit false

/-!
# C59: FPGA mapping of a network with choices

Full statement: for every AIG with choices whose classes are ordered (each link goes to a smaller index) and sound (the
members of a class have the same function up to their phases), and for every outcome of the heuristics, `klut_mapping`
followed by `choice_to_klut` yields a LUT network with the same output functions.

It is false (`C59_violated_self`): the cut made of the node itself can become the best cut of a representative, and the
LUT network is then wrong.  Proved:

* `C59_cells_partial`: every cell computes the function of its root from available nodes, and has either at least two
  and at most `cut_size` leaves, all smaller than the root, or is the node itself, and the node has choices.
* `C59_klut_partial`: if no cell is of the second kind, the LUT network is equivalent to the AIG, and its LUTs have at most
  `cut_size` inputs.
* `C59_defined_partial`: no undefined behaviour for cut sizes two and three.
-/

namespace Verif.Mapper
open Cuts

variable {β : Type}

/-- a cell that has itself as its only leaf -/
def SelfCell (N : Aig) (M : Mapping) (n : Nat) : Prop := Cover.Root N M n ∧ M.cellFanins n = some [n]

/-- C59 for the cells, for all heuristics and all ordered and sound choices. The leaves are in the cone of the root
through fanins and choices, and no cell is made that no output depends on in this sense. Missing: registers; cut limits other than 3 to 11. -/
theorem C59_cells_partial (p : Ps) (C : Choice) (hN : C.net.Built) (hpo : C.net.numPos = C.net.outputs.length) (hO : C.Ordered)
    (hS : C.Sound) (hp : PsOk p.cut) (H : Nat → Nat → Heur β) (cost : β) (M : Mapping) (e : klutMap p C H cost = some M) :
    Cover.Right C.net M ∧
      (∀ n cs, Cover.Root C.net M n → M.cellFanins n = some cs →
        (∀ l ∈ cs, Topo.Tfi C.deps n l) ∧ (∃ o ∈ C.net.outputs, Topo.Tfi C.deps o.index n) ∧
          ((cs = [n] ∧ ∃ m, C.equivs[n]? = some (some m)) ∨
          2 ≤ cs.length ∧ cs.length ≤ p.cut.cutSize ∧ ∀ l ∈ cs, l < n)) := by
  have h := klutMap_cells p C hN hpo hO hS hp H cost M e
  constructor
  · refine ⟨h.marked, h.output, fun n hr => ?_⟩
    obtain ⟨cs, f, h1, h2, h3, h4, h5, _, h6⟩ := h.cell n hr
    exact ⟨cs, f, h1, h2, h3, h4, fun l hl => (h5 l hl).1, h6⟩
  · intro n cs hr hcs
    obtain ⟨cs', f, h1, h2, h3, h4, h5, h6, _⟩ := h.cell n hr
    obtain rfl := Option.some.inj (hcs.symm.trans h1)
    refine ⟨fun l hl => (h5 l hl).2, h.needed n hr, h6.imp_left fun hk => ⟨hk.1, ?_⟩⟩
    obtain ⟨⟨a, b, hg⟩, _⟩ := hr
    have hn := Nat.lt_of_lt_of_le (hN.wf.isGate_lt hg).2.2.2 hO.len
    cases he : C.equivs[n]? with
    | none => rw [List.getElem?_eq_getElem hn] at he; cases he
    | some o =>
      cases o with
      | none => exact absurd he hk.2
      | some m => exact ⟨m, rfl⟩

/-- C59 for the LUT network. Missing: the runs that make a cell of the node itself, where it fails; registers; cut
limits other than 3 to 11. -/
theorem C59_klut_partial (p : Ps) (C : Choice) (hN : C.net.Built) (hpi : C.net.inputs.length = C.net.numPis)
    (hpo : C.net.outputs.length = C.net.numPos) (hO : C.Ordered)
    (hS : C.Sound) (hp : PsOk p.cut) (H : Nat → Nat → Heur β) (cost : β) (M : Mapping) (e : klutMap p C H cost = some M)
    (hself : ∀ n, ¬ SelfCell C.net M n) :
    ∃ r, Collapse.choiceToKlut C.net M = some r ∧ (r = none ↔ M.hasMapping = false ∧ 0 < C.net.numGates) ∧
      ∀ K, r = some K → Collapse.Equiv C.net K ∧ ∀ (n : Nat) nd, K.nodes[n]? = some nd → nd.children.length ≤ p.cut.cutSize := by
  obtain ⟨h1, h2⟩ := C59_cells_partial p C hN hpo.symm hO hS hp H cost M e
  have hk : ∀ n cs, Cover.Root C.net M n → M.cellFanins n = some cs → cs.length ≤ p.cut.cutSize ∧ ∀ l ∈ cs, l < n := by
    intro n cs hr hcs
    obtain ⟨_, _, ⟨rfl, _⟩ | ⟨_, h3, h4⟩⟩ := h2 n cs hr hcs
    · exact absurd ⟨hr, hcs⟩ (hself n)
    · exact ⟨h3, h4⟩
  obtain ⟨r, er, hr, hK⟩ := Collapse.C34_choice_to_klut_rising_partial C.net M hN h1 (fun n cs hr hcs => (hk n cs hr hcs).2) hpi hpo
  refine ⟨r, er, hr, fun K e' => ⟨hK K e', ?_⟩⟩
  subst e'
  exact Collapse.C34_lut_size_partial C.net M hN h1 hpi _ (by have := hp.size2; omega) (fun n cs hr hcs => (hk n cs hr hcs).1) K (Or.inl er)

/-- The run is free of undefined behaviour for cut sizes 2 and 3. -/
theorem C59_defined_partial (p : Ps) (C : Choice) (hN : C.net.Built) (hpo : C.net.numPos = C.net.outputs.length) (hO : C.Ordered)
    (hS : C.Sound) (hp : PsOk p.cut) (hsize : p.cut.cutSize ≤ 3) (H : Nat → Nat → Heur β) (cost : β) :
    ∃ M, klutMap p C H cost = some M :=
  klutMap_defined p C hN hpo hO hS hp hsize H cost

/-! ### An example and a counterexample -/

/-- inputs 1 and 2; node 5 is `x₁ ∧ x₂`, the output, and node 4 is `x₁ ∧ ¬(x₁ ∧ ¬x₂)`, the same function -/
def selfAig : Aig :=
  let n1 := Aig.empty.createPi.1.createPi.1
  let r3 := n1.createAnd (.mk 1 false) (.mk 2 true)
  let r4 := r3.1.createAnd (.mk 1 false) (.mk 3 true)
  let r5 := r4.1.createAnd (.mk 1 false) (.mk 2 false)
  r5.1.createPo (.mk 5 false)

theorem selfAig_built : selfAig.Built := by
  have h1 : Aig.Built Aig.empty.createPi.1.createPi.1 := .pi (.pi .empty)
  have h3 := Aig.Built.and (a := .mk 1 false) (b := .mk 2 true) h1 (by decide) (by decide)
  have h4 := Aig.Built.and (a := .mk 1 false) (b := .mk 3 true) h3 (by decide) (by decide)
  have h5 := Aig.Built.and (a := .mk 1 false) (b := .mk 2 false) h4 (by decide) (by decide)
  exact .po h5 (by decide)

/-- `selfAig` with node 4 as the choice of node 5 -/
def selfNet : Choice := { net := selfAig, equivs := [none, none, none, none, none, some 4], reprs := [0, 1, 2, 3, 5, 5] }

theorem selfNet_eq {n m : Nat} (h : selfNet.equivs[n]? = some (some m)) : n = 5 ∧ m = 4 := by
  match n, h with
  | 0, h | 1, h | 2, h | 3, h | 4, h => simp [selfNet] at h
  | 5, h => simpa [selfNet] using h.symm
  | n + 6, h => simp [selfNet] at h

theorem selfNet_ordered : selfNet.Ordered := by
  refine ⟨by decide, fun n m h => ?_⟩
  obtain ⟨rfl, rfl⟩ := selfNet_eq h
  decide

theorem selfNet_sound : selfNet.Sound := by
  intro n m h v hv
  obtain ⟨rfl, rfl⟩ := selfNet_eq h
  have h5 := hv.gate 5 (.mk 1 false) (.mk 2 false) ⟨by decide, by decide, _, rfl, by decide, by decide⟩
  have h4 := hv.gate 4 (.mk 1 false) (.mk 3 true) ⟨by decide, by decide, _, rfl, by decide, by decide⟩
  have h3 := hv.gate 3 (.mk 1 false) (.mk 2 true) ⟨by decide, by decide, _, rfl, by decide, by decide⟩
  have p5 : selfNet.net.phaseOf 5 = false := by decide
  have p4 : selfNet.net.phaseOf 4 = false := by decide
  rw [p5, p4]
  simp only [Sig.val] at h3 h4 h5
  rw [h5, h4, h3]
  cases v 1 <;> cases v 2 <;> rfl

/-- inputs 1 to 3; node 7 is `x₁ ∧ (x₂ ∧ x₃)`, the output, and node 5 is `(x₁ ∧ x₂) ∧ x₃`, its choice -/
def assocAig : Aig :=
  let n1 := Aig.empty.createPi.1.createPi.1.createPi.1
  let r4 := n1.createAnd (.mk 1 false) (.mk 2 false)
  let r5 := r4.1.createAnd (.mk 4 false) (.mk 3 false)
  let r6 := r5.1.createAnd (.mk 2 false) (.mk 3 false)
  let r7 := r6.1.createAnd (.mk 1 false) (.mk 6 false)
  (r7.1.createPo (.mk 7 false)).createPo (.mk 4 false)

def assocNet : Choice :=
  { net := assocAig, equivs := [none, none, none, none, none, none, none, some 5], reprs := [0, 1, 2, 3, 4, 7, 6, 7] }

theorem assocAig_built : assocAig.Built := by
  have h1 : Aig.Built Aig.empty.createPi.1.createPi.1.createPi.1 := .pi (.pi (.pi .empty))
  have h4 := Aig.Built.and (a := .mk 1 false) (b := .mk 2 false) h1 (by decide) (by decide)
  have h5 := Aig.Built.and (a := .mk 4 false) (b := .mk 3 false) h4 (by decide) (by decide)
  have h6 := Aig.Built.and (a := .mk 2 false) (b := .mk 3 false) h5 (by decide) (by decide)
  have h7 := Aig.Built.and (a := .mk 1 false) (b := .mk 6 false) h6 (by decide) (by decide)
  exact .po (.po h7 (by decide)) (by decide)

theorem assocNet_eq {n m : Nat} (h : assocNet.equivs[n]? = some (some m)) : n = 7 ∧ m = 5 := by
  match n, h with
  | 0, h | 1, h | 2, h | 3, h | 4, h | 5, h | 6, h => simp [assocNet] at h
  | 7, h => simpa [assocNet] using h.symm
  | n + 8, h => simp [assocNet] at h

theorem assocNet_ordered : assocNet.Ordered := by
  refine ⟨by decide, fun n m h => ?_⟩
  obtain ⟨rfl, rfl⟩ := assocNet_eq h
  decide

theorem assocNet_sound : assocNet.Sound := by
  intro n m h v hv
  obtain ⟨rfl, rfl⟩ := assocNet_eq h
  have h4 := hv.gate 4 (.mk 1 false) (.mk 2 false) ⟨by decide, by decide, _, rfl, by decide, by decide⟩
  have h5 := hv.gate 5 (.mk 3 false) (.mk 4 false) ⟨by decide, by decide, _, rfl, by decide, by decide⟩
  have h6 := hv.gate 6 (.mk 2 false) (.mk 3 false) ⟨by decide, by decide, _, rfl, by decide, by decide⟩
  have h7 := hv.gate 7 (.mk 1 false) (.mk 6 false) ⟨by decide, by decide, _, rfl, by decide, by decide⟩
  have p7 : assocNet.net.phaseOf 7 = false := by decide
  have p5 : assocNet.net.phaseOf 5 = false := by decide
  rw [p7, p5]
  simp only [Sig.val] at h4 h5 h6 h7
  rw [h7, h6, h5, h4]
  cases v 1 <;> cases v 2 <;> cases v 3 <;> rfl

/-- heuristics for the example: a cut that contains node 4, which is needed anyway, is cheap -/
def H4 : Nat → Nat → Heur Nat := fun _ _ =>
  { lt := fun c d => c.data.cost < d.data.cost, cost := fun c => if 4 ∈ c.leaves then 1 else 2, accept := fun _ => true
    acceptChoice := fun _ => true, skip := fun _ _ => false }

/-- Cut size two: the cell of node 7 is the cut of its choice, whose leaf 4 is outside the cone of node 7. The
hypotheses of `C59_klut_partial` are met. -/
example : ∃ M K, klutMap { cut := { cutSize := 2, cutLimit := 10 } } assocNet H4 5 = some M ∧ M.cellFanins 7 = some [3, 4] ∧
    Collapse.choiceToKlut assocNet.net M = some (some K) ∧ Collapse.Equiv assocNet.net K := by
  have h : (klutMap { cut := { cutSize := 2, cutLimit := 10 } } assocNet H4 5).map
      (fun M => (M.cellFanins 7, M.cellFanins 4, M.hasMapping, (List.range 8).map M.isCellRoot)) =
      some (some [3, 4], some [1, 2], true, (List.range 8).map fun n => some (n == 4 || n == 7)) := by decide +kernel
  cases e : klutMap { cut := { cutSize := 2, cutLimit := 10 } } assocNet H4 5 with
  | none => rw [e] at h; simp at h
  | some M =>
    rw [e] at h
    simp only [Option.map_some, Option.some.injEq, Prod.mk.injEq] at h
    obtain ⟨r, er, hr, hK⟩ := C59_klut_partial _ assocNet assocAig_built (by decide) (by decide) assocNet_ordered assocNet_sound
      ⟨by decide, by decide, by decide, by decide, rfl⟩ H4 5 M e (by
        rintro n ⟨⟨⟨a, b, hg⟩, hr⟩, hc⟩
        have hn : n < 8 := (assocAig_built.wf.isGate_lt hg).2.2.2
        have hn' : some true = some (n == 4 || n == 7) := by
          have := congrArg (fun l => l[n]?) h.2.2.2
          simp only [List.getElem?_map, List.getElem?_range hn, Option.map_some, Option.some.injEq] at this
          exact hr.symm.trans this
        simp only [Option.some.injEq, eq_comm (a := true), Bool.or_eq_true, beq_iff_eq] at hn'
        rcases hn' with rfl | rfl
        · rw [h.2.1] at hc; simp at hc
        · rw [h.1] at hc; simp at hc)
    cases r with
    | none => have := (hr.1 rfl).1; rw [h.2.2.1] at this; cases this
    | some K => exact ⟨M, K, rfl, h.1, er, (hK K rfl).1⟩

/-- With ordered and sound choices the cell of a representative can be the node itself. The LUT network made of it has
the constant 0 at an output that should be `x₁ ∧ x₂`. -/
theorem C59_violated_self : selfNet.net.Built ∧ selfNet.Ordered ∧ selfNet.Sound ∧
    ∃ M K, klutMap {} selfNet H1 0 = some M ∧ SelfCell selfNet.net M 5 ∧
    Collapse.choiceToKlut selfNet.net M = some (some K) ∧ (∀ x v, K.Consistent x v → K.outputs.map v = [false]) ∧
    ∀ v, selfNet.net.Consistent (fun _ => true) v → selfNet.net.outputs.map (·.val v) = [true] := by
  refine ⟨selfAig_built, selfNet_ordered, selfNet_sound, ?_⟩
  have h : (klutMap {} selfNet H1 0).map (fun M => (M.cellFanins 5, M.isCellRoot 5, Collapse.choiceToKlut selfNet.net M)) =
      some (some [5], some true,
        some (some ((Klut.empty.createPi.1.createPi.1.createNode [0] ⟨1, [false, true]⟩).1.createPo 4))) := by decide +kernel
  cases e : klutMap {} selfNet H1 0 with
  | none => rw [e] at h; simp at h
  | some M =>
    rw [e] at h
    simp only [Option.map_some, Option.some.injEq, Prod.mk.injEq] at h
    refine ⟨M, _, rfl, ⟨⟨⟨.mk 1 false, .mk 2 false, by decide, by decide, _, rfl, by decide, by decide⟩, h.2.1⟩, h.1⟩, h.2.2, ?_, ?_⟩
    · intro x v hv
      have h4 := hv.lut 4 [0] ⟨1, [false, true]⟩ ⟨by decide, by decide, _, rfl, by decide, by decide +kernel⟩
      show [v 4] = [false]
      rw [h4]
      have : Klut.args v [0] 0 = false := hv.const0
      simp [TT.eval, TT.pos, this, TT.get]
    · intro v hv
      have h5 := hv.models.gate 5 (.mk 1 false) (.mk 2 false) ⟨by decide, by decide, _, rfl, by decide, by decide⟩
      have h1 := hv.input 0 1 (by decide)
      have h2 := hv.input 1 2 (by decide)
      simp only [Sig.val] at h5
      show [Bool.xor false (v 5)] = [true]
      rw [h5, h1, h2]
      rfl

end Verif.Mapper
