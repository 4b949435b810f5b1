import Verif.Klut.ToAigProof
import Verif.Klut.Cover
import Verif.Props.C30
import Verif.Props.C33
import Verif.Props.C14

set_option autoImplicit false

/-!
# C35: conversion of LUT networks and mapped networks to AIGs preserves behaviour
-/

namespace Verif.ToAig
open Aig (SigMap)
open Klut (args)

/-- a sorted list up to one of its elements contains all smaller elements -/
theorem before_of_lt {l pre post : List Nat} {a b : Nat} (hs : l.Pairwise (· < ·)) (e : l = pre ++ a :: post)
    (hb : b ∈ l) (hlt : b < a) : b ∈ pre := by
  subst e
  rw [List.mem_append, List.mem_cons] at hb
  rcases hb with hb | rfl | hb
  · exact hb
  · omega
  · rw [List.pairwise_append, List.pairwise_cons] at hs
    have := hs.2.1.1 b hb
    omega

theorem ordered_of_roots {base : Nat → Prop} {cells : List Cell} (hs : (cells.map Cell.root).Pairwise (· < ·))
    (hl : ∀ c ∈ cells, ∀ l ∈ c.leaves, base l ∨ (l < c.root ∧ l ∈ cells.map Cell.root)) : Ordered base cells := by
  intro pre c post e l hlc
  rcases hl c (by rw [e]; simp) l hlc with h | ⟨h1, h2⟩
  · exact Or.inl h
  · right
    have := before_of_lt (pre := pre.map Cell.root) (post := post.map Cell.root) (a := c.root) hs (by rw [e]; simp) h2 h1
    obtain ⟨d, hd, e'⟩ := List.mem_map.1 this
    exact ⟨d, hd, e'⟩

theorem range_sorted (n : Nat) : (List.range n).Pairwise (· < ·) := List.pairwise_lt_range

/-! ### LUT networks -/

theorem klutCells_spec {K : Klut} (hK : Klut.Built K) : ∀ (ns : List Nat), (∀ n ∈ ns, n ∈ K.gates) →
    ∃ cells, klutCells K ns = some cells ∧ cells.map Cell.root = ns ∧ ∀ c ∈ cells, K.IsLut c.root c.leaves c.fn := by
  intro ns
  induction ns with
  | nil => intro _; exact ⟨[], rfl, rfl, by simp⟩
  | cons n ns ih =>
    intro h
    obtain ⟨cells, e, h1, h2⟩ := ih fun k hk => h k (by simp [hk])
    obtain ⟨_, g1, _, g2, _⟩ := Klut.C51_bookkeeping hK
    obtain ⟨cs, f, hl⟩ := (g1 n).1 (h n (by simp))
    obtain ⟨_, _, a3, a4⟩ := g2 n cs f hl
    refine ⟨⟨n, cs, f⟩ :: cells, by rw [klutCells, a3, a4, e], by rw [List.map_cons, h1], ?_⟩
    intro c hc
    rcases List.mem_cons.1 hc with rfl | hc
    · exact hl
    · exact h2 c hc

/-- C35 for constructed LUT networks without registers (LUTs of at most 32 inputs, the width of a cube): the
conversion is defined, has the same inputs and outputs, and every output has the same function. Missing: networks
with registers, for which the claim is false (`C35_violated_registers`). -/
theorem C35_klut_partial (K : Klut) (hK : Klut.Built K) (hpi : K.inputs.length = K.numPis)
    (hpo : K.outputs.length = K.numPos) (h32 : ∀ n cs f, K.IsLut n cs f → cs.length ≤ 32) :
    ∃ D, convertKlut K = some D ∧ Aig.Built D ∧ D.numPis = K.numPis ∧ D.inputs.length = K.inputs.length ∧
      D.numPos = K.numPos ∧ D.outputs.length = K.outputs.length ∧
      ∀ x v v', K.Consistent x v → D.Consistent x v' → D.outputs.map (·.val v') = K.outputs.map v := by
  have h := hK.wf
  obtain ⟨_, g1, _, g2, g3⟩ := Klut.C51_bookkeeping hK
  obtain ⟨cells, ec, c1, c2⟩ := klutCells_spec hK K.gates (fun _ h => h)
  have hins : K.inputs.take K.numPis = K.inputs := List.take_of_length_le (by omega)
  have houts : K.outputs.take K.numPos = K.outputs := List.take_of_length_le (by omega)
  obtain ⟨m, D, m', e1, e2, hB, n1, n2, n3, n4, hval, hv⟩ := convert_spec K.numPis (K.inputs.take K.numPis) (by rw [hins]; exact h.inputsNodup)
    (by rw [hins, hpi]) (SigMap.set (fun _ => ⟨0, false⟩) 1 ⟨0, true⟩) (by intro n; unfold SigMap.set; split <;> rfl) cells
    (by
      intro c hc
      obtain ⟨_, a2, _⟩ := g2 _ _ _ (c2 c hc)
      obtain ⟨_, _, _, a4, a5⟩ := h.lut (c2 c hc)
      exact ⟨by assumption, a2, h32 _ _ _ (c2 c hc)⟩)
    (fun n => n = 0 ∨ n = 1) (by
      apply ordered_of_roots
      · rw [c1]; exact (range_sorted _).filter _
      · intro c hc l hl
        obtain ⟨a1, _⟩ := g2 _ _ _ (c2 c hc)
        have hlt := a1 l hl
        have hlen := (h.lut (c2 c hc)).1
        rw [c1, hins]
        by_cases h2 : l < 2
        · left; left; omega
        · by_cases hi : l ∈ K.inputs
          · exact Or.inl (Or.inr hi)
          · right
            refine ⟨hlt, ?_⟩
            rw [Klut.gates, List.mem_filter, List.mem_range, Bool.and_eq_true, decide_eq_true_iff, Bool.not_eq_true']
            refine ⟨by omega, by omega, ?_⟩
            rw [← Bool.not_eq_true]
            exact fun hc => hi ((g3 l (by omega)).1 hc))
    (by
      rw [hins]
      intro n hn hi
      have := (h.inputs n hi).1; omega)
  have hvalid : ∀ s ∈ K.outputs.map m', D.Valid s := by
    intro s hs
    obtain ⟨o, _, rfl⟩ := List.mem_map.1 hs
    exact hval o
  obtain ⟨o1, o2, o3, o4, o5, _, o6, _⟩ := Aig.cloneOutputs_spec (K.outputs.map m') D hB hvalid
  refine ⟨Aig.cloneOutputs D (K.outputs.map m'), ?_, o1, by rw [o5, n1], by rw [o4, n2, hpi], by rw [o3, n4, List.length_map]; omega,
    by rw [o2, n3, List.nil_append, List.length_map], ?_⟩
  · simp only [convertKlut, e1, ec, e2, houts]
  · intro x v v' hv1 hv2
    rw [o2, n3, List.nil_append, List.map_map]
    apply List.map_congr_left
    intro o ho
    apply hv x v v' _ _ _ _ o
    · by_cases h2 : o < 2
      · left; omega
      · by_cases hi : o ∈ K.inputs
        · right; left; rw [hins]; exact hi
        · right; right
          have hol := h.outputs o ho
          have : o ∈ K.gates := by
            rw [Klut.gates, List.mem_filter, List.mem_range, Bool.and_eq_true, decide_eq_true_iff, Bool.not_eq_true']
            refine ⟨by omega, by omega, ?_⟩
            rw [← Bool.not_eq_true]
            exact fun hc => hi ((g3 o hol).1 hc)
          rw [← c1] at this
          obtain ⟨d, hd, e'⟩ := List.mem_map.1 this
          exact ⟨d, hd, e'⟩
    · rintro n (rfl | rfl)
      · rw [hv1.const0]; rfl
      · rw [hv1.const1]; rfl
    · rw [hins]; exact hv1.input
    · intro c hc; exact hv1.lut _ _ _ (c2 c hc)
    · exact ⟨o6.models hv2.models, fun k n hk => hv2.input k n (by rw [o4]; exact hk)⟩

/-- the sample LUT network meets the hypotheses -/
example : ∃ D, convertKlut Klut.sample = some D ∧ Aig.Built D ∧ D.numPis = 2 ∧ D.numPos = 1 := by
  obtain ⟨D, e, h1, h2, _, h3, _⟩ := C35_klut_partial Klut.sample Klut.sample_built (by decide +kernel) (by decide +kernel) (by
    rintro n cs f ⟨_, _, nd, hnd, rfl, _⟩
    have : ∀ nd ∈ Klut.sample.nodes, nd.children.length ≤ 32 := by decide +kernel
    exact this nd (List.mem_of_getElem? hnd))
  exact ⟨D, e, h1, h2, h3⟩

/-- a LUT network with a register whose output is used directly as a primary output -/
def regKlut : Klut :=
  let r1 := Klut.empty.createPi
  let r2 := r1.1.createRo
  let r3 := r2.1.createPo r2.2
  r3.createRi r1.2 0

theorem regKlut_built : Klut.Built regKlut := .ri (.po (.ro (.pi .empty)) (by decide)) (by decide)

/-- the conversion of networks with registers drops the register and reads its output as constant 0: the primary
output, which is the register output, becomes constant -/
theorem C35_violated_registers : ∃ D, convertKlut regKlut = some D ∧ D.inputs.length ≠ regKlut.inputs.length ∧
    D.outputs.length ≠ regKlut.outputs.length ∧ (∀ v, D.Models v → ∀ s, D.outputs[0]? = some s → s.val v = false) ∧
    ∀ x v, x 1 = true → regKlut.Consistent x v → ∀ o, regKlut.outputs[0]? = some o → v o = true := by
  have hd : ∃ D, convertKlut regKlut = some D ∧ D.inputs = [1] ∧ D.outputs = [⟨0, false⟩] := by
    refine ⟨Aig.empty.createPi.1.createPo ⟨0, false⟩, by decide +kernel, by decide, by decide⟩
  obtain ⟨D, e, h1, h2⟩ := hd
  refine ⟨D, e, ?_, ?_, ?_, ?_⟩
  · rw [h1]; decide
  · rw [h2]; decide
  · intro v hv s hs
    rw [h2] at hs
    simp only [List.getElem?_cons_zero, Option.some.injEq] at hs
    subst hs
    simp [Sig.val, hv.const]
  · intro x v hx hv o ho
    have : regKlut.outputs[0]? = some 3 := by decide
    rw [this] at ho
    injection ho with ho
    subst ho
    rw [hv.input 1 3 (by decide), hx]

/-! ### mapped AIGs -/

theorem mappedCells_spec {N : Aig} {M : Mapping} (hN : Aig.Built N) (hM : Cover.Legal N M) :
    ∀ (ns : List Nat), (∀ n ∈ ns, n ∈ N.gates) → ∃ cells, mappedCells M ns = some cells ∧
      cells.map Cell.root = ns.filter (fun n => M.isCellRoot n == some true) ∧
      ∀ c ∈ cells, Cover.Root N M c.root ∧ M.cellFanins c.root = some c.leaves ∧ M.cellFunction c.root = some c.fn := by
  intro ns
  induction ns with
  | nil => intro _; exact ⟨[], rfl, rfl, by simp⟩
  | cons n ns ih =>
    intro h
    obtain ⟨cells, e, h1, h2⟩ := ih fun k hk => h k (by simp [hk])
    have hg := (hN.wf.mem_gates n).1 (h n (by simp))
    obtain ⟨a, b, hg⟩ := hg
    obtain ⟨_, _, nd, hnd, _⟩ := id hg
    obtain ⟨b', hb⟩ := hM.marked n (Aig.lt_of_getElem? hnd)
    cases b' with
    | false =>
      refine ⟨cells, by rw [mappedCells, hb]; exact e, ?_, h2⟩
      rw [h1, List.filter_cons, hb]; simp
    | true =>
      have hr : Cover.Root N M n := ⟨⟨a, b, hg⟩, hb⟩
      obtain ⟨cs, f, k1, k2, _⟩ := hM.cell n hr
      refine ⟨⟨n, cs, f⟩ :: cells, by rw [mappedCells, hb]; dsimp only; rw [k1, k2, e], ?_, ?_⟩
      · rw [List.map_cons, h1, List.filter_cons, hb]; simp
      · intro c hc
        rcases List.mem_cons.1 hc with rfl | hc
        · exact ⟨hr, k1, k2⟩
        · exact h2 c hc

/-- `(1 & 2) & !3` with the complemented output, and the cell over all three inputs -/
def coverAig : Aig :=
  let r1 := Aig.empty.createPi
  let r2 := r1.1.createPi
  let r3 := r2.1.createPi
  let r4 := r3.1.createAnd r1.2 r2.2
  let r5 := r4.1.createAnd r4.2 r3.2.not
  r5.1.createPo r5.2.not

/-- the cell `5 = f(1, 2, 3)` -/
def coverMap : Option Mapping :=
  (Mapping.init 6).run [.add 5 [1, 2, 3], .setFunction 5 ⟨3, [false, false, false, true, false, false, false, false]⟩]

theorem coverAig_built : Aig.Built coverAig :=
  .po (.and (.and (.pi (.pi (.pi .empty))) (by decide) (by decide)) (by decide) (by decide)) (by decide)

theorem cover_legal : ∃ M, coverMap = some M ∧ Cover.Legal coverAig M ∧ (∀ n cs, M.cellFanins n = some cs → cs.length ≤ 32) := by
  obtain ⟨M, e, h1, h2, h3⟩ := Mapping.C33_mapping 6
    [.add 5 [1, 2, 3], .setFunction 5 ⟨3, [false, false, false, true, false, false, false, false]⟩]
    (by simp [Mapping.OpOk, TT.WF])
  have e' : M.mappings = [0, 0, 0, 0, 0, 6, 3, 1, 2, 3] := by
    have : coverMap.map (·.mappings) = some [0, 0, 0, 0, 0, 6, 3, 1, 2, 3] := by decide +kernel
    rw [coverMap, e] at this; simpa using this
  have g4 : coverAig.IsGate 4 ⟨1, false⟩ ⟨2, false⟩ := ⟨by decide, by decide, _, rfl, rfl, rfl, rfl⟩
  have g5 : coverAig.IsGate 5 ⟨3, true⟩ ⟨4, false⟩ ∨ coverAig.IsGate 5 ⟨4, false⟩ ⟨3, true⟩ :=
    Or.inl ⟨by decide, by decide, _, rfl, rfl, rfl, rfl⟩
  have hroot : ∀ n, Cover.Root coverAig M n → n = 5 := by
    rintro n ⟨⟨a, b, _, _, nd, hnd, _⟩, hr⟩
    have hn : n < 6 := Aig.lt_of_getElem? hnd
    rw [(h3 n hn).1] at hr
    by_contra hne
    have : (Mapping.leavesOf n [Mapping.Op.add 5 [1, 2, 3], .setFunction 5 ⟨3, [false, false, false, true, false, false, false, false]⟩].reverse) = none := by
      simp [Mapping.leavesOf, Ne.symm hne]
    rw [this] at hr
    simp at hr
  refine ⟨M, e, ⟨?_, ?_, ?_⟩, ?_⟩
  · intro n hn
    exact ⟨_, (h3 n hn).1⟩
  · intro o ho
    have : o ∈ [(⟨5, true⟩ : Sig)] := ho
    rw [List.mem_singleton] at this
    subst this
    right; right
    refine ⟨?_, (h3 5 (by decide)).1⟩
    rcases g5 with g | g <;> exact ⟨_, _, g⟩
  · intro n hn
    have := hroot n hn
    subst this
    refine ⟨[1, 2, 3], _, (h3 5 (by decide)).2.1 _ rfl, (h3 5 (by decide)).2.2, rfl, rfl, ?_, ?_⟩
    · intro l hl
      have hk : RefDeref.aigKids coverAig 5 = [4, 3] ∨ RefDeref.aigKids coverAig 5 = [3, 4] := by decide
      have hk4 : RefDeref.aigKids coverAig 4 = [1, 2] := by decide
      simp only [List.mem_cons, List.not_mem_nil, or_false] at hl
      refine ⟨Or.inr (Or.inl ?_), by omega, ?_⟩
      · rcases hl with rfl | rfl | rfl <;> decide
      · rcases hl with rfl | rfl | rfl
        · exact .step (k := 4) (by rcases hk with h | h <;> rw [h] <;> simp) (.step (k := 1) (by rw [hk4]; simp) (.refl _))
        · exact .step (k := 4) (by rcases hk with h | h <;> rw [h] <;> simp) (.step (k := 2) (by rw [hk4]; simp) (.refl _))
        · exact .step (k := 3) (by rcases hk with h | h <;> rw [h] <;> simp) (.refl _)
    · intro v hv
      have e4 := hv.gate 4 _ _ g4
      have e5 : v 5 = (v 1 && v 2 && !v 3) := by
        rcases g5 with g | g
        · rw [hv.gate 5 _ _ g]; simp [Sig.val, e4, Bool.and_comm]
        · rw [hv.gate 5 _ _ g]; simp [Sig.val, e4]
      rw [e5]
      simp only [Mapping.functionOf, List.reverse_cons, List.reverse_nil, List.nil_append, List.cons_append, if_true]
      have ha : ∀ b1 b2 b3 : Bool, (b1 && b2 && !b3) = TT.eval ⟨3, [false, false, false, true, false, false, false, false]⟩
          (fun j => match j with | 0 => b1 | 1 => b2 | 2 => b3 | _ => false) := by decide
      rw [ha]
      apply TT.eval_congr
      intro i hi
      have : i < 3 := hi
      match i, this with
      | 0, _ => rfl
      | 1, _ => rfl
      | 2, _ => rfl
  · intro n cs hc
    rw [Mapping.cellFanins] at hc
    split at hc
    · cases hc
    · split at hc
      · cases hc
      · split at hc
        · injection hc with hc
          rw [← hc, List.length_take, List.length_drop, e']
          simp only [List.length_cons, List.length_nil]
          omega
        · cases hc

/-- C35 for mapped AIGs (`convert_mapped_graph_to_aig`): for every constructed AIG without registers with a legal
cover by cells of at most 32 leaves, the conversion is defined, has the same inputs and outputs, and every output
has the same function. -/
theorem C35_mapped_partial (N : Aig) (M : Mapping) (hN : Aig.Built N) (hM : Cover.Legal N M) (hpi : N.inputs.length = N.numPis)
    (hpo : N.outputs.length = N.numPos) (h32 : ∀ n cs, M.cellFanins n = some cs → cs.length ≤ 32) :
    ∃ D, convertMapped N M = some D ∧ Aig.Built D ∧ D.numPis = N.numPis ∧ D.inputs.length = N.inputs.length ∧
      D.numPos = N.numPos ∧ D.outputs.length = N.outputs.length ∧
      ∀ x v v', N.Consistent x v → D.Consistent x v' → D.outputs.map (·.val v') = N.outputs.map (·.val v) := by
  have h := hN.wf
  obtain ⟨cells, ec, c1, c2⟩ := mappedCells_spec hN hM N.gates (fun _ h => h)
  have hins : N.inputs.take N.numPis = N.inputs := List.take_of_length_le (by omega)
  have houts : N.outputs.take N.numPos = N.outputs := List.take_of_length_le (by omega)
  have hroot : ∀ n, Cover.Root N M n → n ∈ cells.map Cell.root := by
    intro n hn
    rw [c1, List.mem_filter, hn.2]
    exact ⟨(h.mem_gates n).2 hn.1, by simp⟩
  have hspec : ∀ c ∈ cells, CellWF c ∧ (∀ l ∈ c.leaves, Cover.Avail N M l ∧ l ≠ c.root ∧ Topo.Tfi (RefDeref.aigKids N) c.root l) ∧
      ∀ v, N.Models v → v c.root = c.fn.eval (args v c.leaves) := by
    intro c hc
    obtain ⟨k1, k2, k3⟩ := c2 c hc
    obtain ⟨cs, f, e1, e2, w, a, hl, hf⟩ := hM.cell c.root k1
    rw [k2] at e1; rw [k3] at e2
    injection e1 with e1; injection e2 with e2
    subst e1 e2
    exact ⟨⟨w, a, h32 _ _ k2⟩, hl, hf⟩
  have hrank := (Topo.C15_built N hN).ranked
  obtain ⟨m, D, m', e1, e2, hB, n1, n2, n3, n4, hval, hv⟩ := convert_spec N.numPis (N.inputs.take N.numPis)
    (by rw [hins]; exact (Topo.C15_built N hN).inputsNodup)
    (by rw [hins, hpi]) (fun _ => ⟨0, false⟩) (fun _ => rfl) cells (fun c hc => (hspec c hc).1)
    (fun n => n = 0) (by
      apply ordered_of_roots
      · rw [c1]; exact ((range_sorted _).filter _).filter _
      · intro c hc l hl
        obtain ⟨hav, hne, ht⟩ := (hspec c hc).2.1 l hl
        rw [hins]
        rcases hav with h0 | hi | hr
        · exact Or.inl (Or.inl h0)
        · exact Or.inl (Or.inr hi)
        · right
          have := ht.rank hrank
          simp only [id] at this
          exact ⟨by omega, hroot l hr⟩)
    (by
      rw [hins]
      rintro n rfl hi
      exact ((Topo.C15_built N hN).inputs 0 hi).1 rfl)
  have hvalid : ∀ s ∈ N.outputs.map m'.img, D.Valid s := by
    intro s hs
    obtain ⟨o, _, rfl⟩ := List.mem_map.1 hs
    exact Aig.img_valid (hval _)
  obtain ⟨o1, o2, o3, o4, o5, _, o6, _⟩ := Aig.cloneOutputs_spec (N.outputs.map m'.img) D hB hvalid
  refine ⟨Aig.cloneOutputs D (N.outputs.map m'.img), ?_, o1, by rw [o5, n1], by rw [o4, n2, hpi], by rw [o3, n4, List.length_map]; omega,
    by rw [o2, n3, List.nil_append, List.length_map], ?_⟩
  · simp only [convertMapped, e1, ec, e2, houts]
  · intro x v v' hv1 hv2
    rw [o2, n3, List.nil_append, List.map_map]
    apply List.map_congr_left
    intro o ho
    show (m'.img o).val v' = o.val v
    rw [Aig.img_val, hv x v v' _ _ _ _ o.index]
    · simp only [Sig.val, Bool.xor_comm]
    · rw [hins]
      rcases hM.output o ho with h0 | hi | hr
      · exact Or.inl h0
      · exact Or.inr (Or.inl hi)
      · obtain ⟨d, hd, e'⟩ := List.mem_map.1 (hroot _ hr)
        exact Or.inr (Or.inr ⟨d, hd, e'⟩)
    · rintro n rfl
      exact hv1.models.const
    · rw [hins]; exact hv1.input
    · intro c hc; exact (hspec c hc).2.2 v hv1.models
    · exact ⟨o6.models hv2.models, fun k n hk => hv2.input k n (by rw [o4]; exact hk)⟩

/-- the conversion of the covered AIG above -/
example : ∃ M D, coverMap = some M ∧ convertMapped coverAig M = some D ∧
    ∀ x v v', coverAig.Consistent x v → D.Consistent x v' → D.outputs.map (·.val v') = coverAig.outputs.map (·.val v) := by
  obtain ⟨M, e, h1, h2⟩ := cover_legal
  obtain ⟨D, e', _, _, _, _, _, h⟩ := C35_mapped_partial coverAig M coverAig_built h1 (by decide) (by decide) h2
  exact ⟨M, D, e, e', h⟩

end Verif.ToAig
