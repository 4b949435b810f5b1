import Verif.Io.DotProof
import Verif.Props.C79

set_option autoImplicit false

/-!
# C80: the drawing that `write_dot` writes shows the network

Full statement: the file can be read as a drawing; it has one box for every constant, one triangle for every input, one ellipse for every gate (LUT) and one
inverted triangle for every output; the edges into a gate are its fanins in their order, dashed exactly when complemented, and the same for outputs; every name
is on exactly one level; and every edge goes up, from a lower to a higher level.

For networks without registers the names and edges are right (`C80_aig_partial`, `C80_lut_partial`), and edges go up as long as they lead to a gate that some output
uses (`C80_up_partial`). A gate that no output uses is put on the lowest level, so edges go down (`C80_violated`). Register outputs are drawn as gates without fanins
(`C80_violated_register`). After `print_stats` a LUT network is drawn with a gate that it does not have (`C80_violated_session`).
-/

namespace Verif.Io.Dot

open Cli.Stats (AndEdge LutEdge IsDepth Chain Counts withMarks withMarks_get withMarks_fanins withMarks_isPi withMarks_length)

/-! ### specification -/

/-- how a signal is drawn -/
def lineOf (f : Sig) : Mark × Text := (.node f.index, if f.compl = true then "dashed".toList else "solid".toList)

/-- The drawing has the names and edges of a network with the nodes `0 … size - 1`: constants, inputs, gates with their fanins, and outputs. -/
structure Shows (size : Nat) (const input : Nat → Prop) (reads : Nat → List Sig → Prop) (outs : List Sig) (S : List Stmt) : Prop where
  all : ∀ n, n < size ↔ const n ∨ input n ∨ ∃ fs, reads n fs
  const : ∀ n, const n → looks (.node n) S = [(some n, "box".toList, "snow2".toList)] ∧ into (.node n) S = []
  input : ∀ n, input n → looks (.node n) S = [(some n, "triangle".toList, "snow2".toList)] ∧ into (.node n) S = []
  gate : ∀ n fs, reads n fs → looks (.node n) S = [(some n, "ellipse".toList, "white".toList)] ∧ into (.node n) S = fs.map lineOf
  none : ∀ n, size ≤ n → looks (.node n) S = [] ∧ into (.node n) S = []
  out : ∀ i f, outs[i]? = some f → looks (.out i) S = [(Option.none, "invtriangle".toList, "snow2".toList)] ∧ into (.out i) S = [lineOf f]
  noOut : ∀ i, outs.length ≤ i → looks (.out i) S = [] ∧ into (.out i) S = []

/-- some root reads `n`, directly or through other gates, or is `n` -/
def Used (E : Nat → Nat → Prop) (roots : List Nat) (n : Nat) : Prop := ∃ o ∈ roots, Relation.ReflTransGen E o n

/-- The last level has the outputs in their order. Level `j` below has every node that outputs use and from which the longest chain has `j` edges; the lowest has
the unused nodes as well. -/
def Leveled (E : Nat → Nat → Prop) (size : Nat) (outs : List Sig) (S : List Stmt) : Prop :=
  ∃ rs, ranks S = rs ++ [(List.range outs.length).map .out] ∧
    (∀ (j : Nat) (r : List Mark), rs[j]? = some r → r.Nodup ∧ ∀ m, m ∈ r ↔
      ∃ n, m = .node n ∧ n < size ∧ ((Used E (outs.map (·.index)) n ∧ IsDepth E [n] j) ∨ (¬ Used E (outs.map (·.index)) n ∧ j = 0))) ∧
    ∀ n, n < size → ∃ (j : Nat) (r : List Mark), rs[j]? = some r ∧ .node n ∈ r

/-- `n` is a gate with these fanins -/
def AndReads (N : Aig) (n : Nat) (fs : List Sig) : Prop := ∃ a b, N.IsGate n a b ∧ fs = [a, b]

/-- `n` is a LUT with these fanins -/
def LutReads (N : Klut) (n : Nat) (fs : List Sig) : Prop := ∃ cs f, N.IsLut n cs f ∧ fs = cs.map fun c => ⟨c, false⟩

/-! ### levels -/

theorem used_of_tfi {p : Topo.DepthParam} {E : Nat → Nat → Prop} {P : Nat → Prop} (h : Counts p E P) {o n : Nat} (ht : Topo.Tfi (Topo.below p) o n)
    (ho : P o) : Relation.ReflTransGen E o n := by
  induction ht with
  | refl n => exact .refl
  | @step n k m hk _ ih =>
    unfold Topo.below at hk
    split at hk
    · cases hk
    · rename_i hterm
      have hterm : p.term n = false := by simpa using hterm
      obtain ⟨f, hf, rfl⟩ := List.mem_map.1 hk
      have he : E n f.index := (h.edge n ho hterm _).2 ⟨f, hf, rfl⟩
      exact .head he (ih (h.closed _ _ ho he))

theorem tfi_of_used {p : Topo.DepthParam} {E : Nat → Nat → Prop} {P : Nat → Prop} (h : Counts p E P) {o n : Nat} (ht : Relation.ReflTransGen E o n)
    (ho : P o) : Topo.Tfi (Topo.below p) o n := by
  induction ht using Relation.ReflTransGen.head_induction_on with
  | refl => exact .refl _
  | @head a c he _ ih =>
    have hterm : p.term a = false := by
      cases ht : p.term a with
      | false => rfl
      | true => exact absurd he (h.term a ho ht c)
    refine .step ?_ (ih (h.closed _ _ ho he))
    obtain ⟨f, hf, rfl⟩ := (h.edge a ho hterm c).1 he
    unfold Topo.below
    rw [hterm]
    exact List.mem_map_of_mem hf

theorem used_closed {E : Nat → Nat → Prop} {P : Nat → Prop} (hP : ∀ n c, P n → E n c → P c) {o n : Nat} (h : Relation.ReflTransGen E o n) (ho : P o) : P n := by
  induction h with
  | refl => exact ho
  | tail _ he ih => exact hP _ _ ih he

theorem view_levels {p : Topo.DepthParam} {E : Nat → Nat → Prop} {P : Nat → Prop} (h : Counts p E P) (pos : List Sig) (hP : ∀ f ∈ pos, P f.index)
    (vis : Nat → Nat) (trav fuel : Nat) (hv : ∀ n, vis n ≤ trav) (hf : ∀ f ∈ pos, f.index < fuel) :
    ∃ s d, Topo.updateLevels p pos vis trav fuel = some (s, d) ∧ (∀ n, Used E (pos.map (·.index)) n → IsDepth E [n] (s.lev n)) ∧
      ∀ n, ¬ Used E (pos.map (·.index)) n → s.lev n = 0 := by
  obtain ⟨s, d, e, h1, h2, _⟩ := Topo.C16_levels p id (fun n hn f hf => h.ranked n f hn hf) pos vis trav fuel hv hf
  refine ⟨s, d, e, ?_, ?_⟩
  · rintro n ⟨o, ho, hr⟩
    obtain ⟨f, hf', rfl⟩ := List.mem_map.1 ho
    have hn : P n := used_closed h.closed hr (hP f hf')
    have hl := h1 n ⟨f, hf', tfi_of_used h hr (hP f hf')⟩
    refine ⟨?_, Or.inr ⟨n, by simp, h.chain hl.1 hn⟩⟩
    intro o ho k hk
    rw [List.mem_singleton] at ho
    subst ho
    obtain ⟨l, hl1, hl2⟩ := h.path hk hn
    have := hl.2 l hl2
    omega
  · intro n hn
    refine h2 n ?_
    rintro ⟨f, hf', ht⟩
    exact hn ⟨f.index, List.mem_map_of_mem hf', used_of_tfi h ht (hP f hf')⟩

theorem leveled {E : Nat → Nat → Prop} {size : Nat} (V : View) (hV : V.nodes.Nodup) (hsize : ∀ n, n ∈ V.nodes ↔ n < size)
    (h1 : ∀ n, Used E (V.pos.map (·.index)) n → IsDepth E [n] (V.level n)) (h2 : ∀ n, ¬ Used E (V.pos.map (·.index)) n → V.level n = 0) :
    Leveled E size V.pos (stmts V) := by
  obtain ⟨l1, l2⟩ := levels_spec V
  refine ⟨_, ranks_stmts V, ?_, ?_⟩
  · intro j r hr
    rw [List.getElem?_map, Option.map_eq_some_iff] at hr
    obtain ⟨q, hq, rfl⟩ := hr
    rw [l1 j q hq]
    refine ⟨(hV.filter _).map (fun a b h => by cases h; rfl), fun m => ?_⟩
    rw [List.mem_map]
    constructor
    · rintro ⟨n, hn, rfl⟩
      rw [List.mem_filter, hsize, beq_iff_eq] at hn
      refine ⟨n, rfl, hn.1, ?_⟩
      by_cases hu : Used E (V.pos.map (·.index)) n
      · exact Or.inl ⟨hu, hn.2 ▸ h1 n hu⟩
      · exact Or.inr ⟨hu, hn.2 ▸ h2 n hu⟩
    · rintro ⟨n, rfl, hn, h⟩
      refine ⟨n, ?_, rfl⟩
      rw [List.mem_filter, hsize, beq_iff_eq]
      refine ⟨hn, ?_⟩
      rcases h with ⟨hu, hd⟩ | ⟨hu, rfl⟩
      · exact Cli.Stats.depth_unique (h1 n hu) hd
      · exact h2 n hu
  · intro n hn
    have hl := l2 n ((hsize n).2 hn)
    obtain ⟨q, hq⟩ : ∃ q, (levels V)[V.level n]? = some q := ⟨_, List.getElem?_eq_getElem hl⟩
    refine ⟨V.level n, q.map .node, by rw [List.getElem?_map, hq]; rfl, List.mem_map_of_mem ?_⟩
    rw [l1 _ q hq, List.mem_filter, hsize]
    exact ⟨hn, by simp⟩

theorem shows {size : Nat} {const input : Nat → Prop} {reads : Nat → List Sig → Prop} (V : View) (hV : V.nodes.Nodup) (hsize : ∀ n, n ∈ V.nodes ↔ n < size)
    (hall : ∀ n, n < size ↔ const n ∨ input n ∨ ∃ fs, reads n fs) (hc : ∀ n, const n → V.isConst n = true)
    (hi : ∀ n, input n → V.isConst n = false ∧ V.isPi n = true) (hg : ∀ n fs, reads n fs → V.isConst n = false ∧ V.isPi n = false ∧ V.fanins n = fs) :
    Shows size const input reads V.pos (stmts V) := by
  refine ⟨hall, ?_, ?_, ?_, ?_, ?_, ?_⟩
  · intro n hn
    have hm := (hsize n).2 ((hall n).2 (Or.inl hn))
    rw [looks_node V hV, into_node V hV, if_pos hm, if_neg (by rw [hc n hn]; simp)]
    unfold shape color
    rw [hc n hn]
    exact ⟨rfl, rfl⟩
  · intro n hn
    have hm := (hsize n).2 ((hall n).2 (Or.inr (Or.inl hn)))
    rw [looks_node V hV, into_node V hV, if_pos hm, if_neg (by rw [(hi n hn).2]; simp)]
    unfold shape color
    rw [(hi n hn).1, (hi n hn).2]
    exact ⟨rfl, rfl⟩
  · intro n fs hn
    have hm := (hsize n).2 ((hall n).2 (Or.inr (Or.inr ⟨fs, hn⟩)))
    obtain ⟨g1, g2, g3⟩ := hg n fs hn
    rw [looks_node V hV, into_node V hV, if_pos hm, if_pos ⟨hm, g1, g2⟩, g3]
    unfold shape color
    rw [g1, g2]
    exact ⟨rfl, rfl⟩
  · intro n hn
    have hm : n ∉ V.nodes := by rw [hsize]; omega
    rw [looks_node V hV, into_node V hV, if_neg hm, if_neg (fun h => hm h.1)]
    exact ⟨rfl, rfl⟩
  · intro i f hf
    rw [looks_out, into_out, hf, if_pos (Aig.lt_of_getElem? hf)]
    exact ⟨rfl, rfl⟩
  · intro i hi
    rw [looks_out, into_out, List.getElem?_eq_none hi, if_neg (by omega)]
    exact ⟨rfl, rfl⟩

theorem writeAig_marks (N : Aig) (vis : Nat → Nat) (trav fuel : Nat) : writeAig (withMarks N vis trav) fuel =
    match Topo.updateLevels ⟨Topo.aigFanins N, fun n => n == 0 || N.isPi n, fun _ => 1, false⟩ (N.outputs.take N.numPos)
      (Topo.visOf (withMarks N vis trav)) trav fuel with
    | none => none
    | some (s, _) => some (write (aigView N s.lev)) := by
  have hf : Topo.aigFanins (withMarks N vis trav) = Topo.aigFanins N := funext fun n => withMarks_fanins ..
  have hp : (withMarks N vis trav).isPi = N.isPi := funext fun n => withMarks_isPi ..
  have hn : aigNodes (withMarks N vis trav) = aigNodes N := by
    unfold aigNodes
    rw [withMarks_length]
    refine List.filter_congr fun n _ => ?_
    unfold Aig.isDead
    rw [withMarks_get]
    cases N.nodes[n]? <;> rfl
  have hv : ∀ lev, aigView (withMarks N vis trav) lev = aigView N lev := by
    intro lev
    unfold aigView
    rw [hf, hp, hn]
    rfl
  unfold writeAig Topo.depthView
  rw [hf, hp]
  simp only [hv]
  rfl

theorem mem_into {S : List Stmt} {a b : Mark} {w : Text} (h : Stmt.edge a b w ∈ S) : (a, w) ∈ into b S := by
  unfold into
  rw [List.mem_filterMap]
  exact ⟨_, h, if_pos rfl⟩

theorem Shows.edge {size : Nat} {const input : Nat → Prop} {reads : Nat → List Sig → Prop} {outs : List Sig} {S : List Stmt}
    (h : Shows size const input reads outs S) {a : Mark} {n : Nat} {w : Text} (he : Stmt.edge a (.node n) w ∈ S) :
    n < size ∧ ∃ fs, reads n fs ∧ ∃ f ∈ fs, a = .node f.index := by
  have hm := mem_into he
  by_cases hn : n < size
  · refine ⟨hn, ?_⟩
    rcases (h.all n).1 hn with hc | hc | ⟨fs, hc⟩
    · rw [(h.const n hc).2] at hm; cases hm
    · rw [(h.input n hc).2] at hm; cases hm
    · rw [(h.gate n fs hc).2] at hm
      obtain ⟨f, hf, e⟩ := List.mem_map.1 hm
      exact ⟨fs, hc, f, hf, (congrArg Prod.fst e).symm⟩
  · rw [(h.none n (by omega)).2] at hm
    cases hm

/-! ### theorems -/

/-- AIGs without registers, with any marks of earlier traversals: the file can be read, it shows the network, and the levels are those of the longest chains for all nodes that
outputs use. Missing from the full statement: registers (`C80_violated_register`), and the level of gates that no output uses (`C80_violated`). -/
theorem C80_aig_partial (N : Aig) (hN : Aig.Built N) (hpi : N.inputs.length = N.numPis) (hpo : N.outputs.length = N.numPos)
    (vis : Nat → Nat) (trav fuel : Nat) (hv : ∀ n, vis n ≤ trav) (hf : N.nodes.length ≤ fuel) :
    ∃ t S, writeAig (withMarks N vis trav) fuel = some t ∧ readDot t = some S ∧
      Shows N.nodes.length (fun n => n = 0) (fun n => n ∈ N.inputs) (AndReads N) N.outputs S ∧ Leveled (AndEdge N) N.nodes.length N.outputs S := by
  have hW := hN.wf
  have hpos : ∀ f ∈ N.outputs.take N.numPos, f.index < N.nodes.length := fun f hf => hW.outputs f (List.mem_of_mem_take hf)
  have hvis : ∀ n, Topo.visOf (withMarks N vis trav) n ≤ trav := by
    intro n
    unfold Topo.visOf
    rw [withMarks_get]
    cases N.nodes[n]? with
    | none => exact Nat.zero_le _
    | some nd => exact hv n
  obtain ⟨s, d, e, h1, h2⟩ := view_levels (Cli.Stats.aig_counts hN hpi) (N.outputs.take N.numPos) hpos (Topo.visOf (withMarks N vis trav)) trav fuel
    hvis (fun f hf' => lt_of_lt_of_le (hpos f hf') hf)
  have htake : N.outputs.take N.numPos = N.outputs := by rw [← hpo, List.take_length]
  have hgate : ∀ n nd, N.nodes[n]? = some nd → n ≠ 0 → n ∉ N.inputs → N.IsGate n nd.c0 nd.c1 := fun n nd hnd h0 hi =>
    ⟨h0, hi, nd, hnd, (hW.gate n nd hnd h0 hi).2.2.2, rfl, rfl⟩
  have hdead : ∀ n, n < N.nodes.length → N.isDead n = false := by
    intro n hn
    obtain ⟨nd, hnd⟩ : ∃ nd, N.nodes[n]? = some nd := ⟨_, List.getElem?_eq_getElem hn⟩
    unfold Aig.isDead
    rw [hnd]
    dsimp only
    by_cases h0 : n = 0
    · subst h0
      exact (hW.node0 nd hnd).2
    · by_cases hi : n ∈ N.inputs
      · obtain ⟨k, hk⟩ := List.mem_iff_getElem?.1 hi
        obtain ⟨_, nd', h3, _, _, h4⟩ := hW.input k n hk
        rw [hnd] at h3
        cases h3
        exact h4
      · exact (hW.gate n nd hnd h0 hi).2.2.2
  have hnodes : ∀ n, n ∈ aigNodes N ↔ n < N.nodes.length := by
    intro n
    unfold aigNodes
    rw [List.mem_filter, List.mem_range]
    exact ⟨fun h => h.1, fun h => ⟨h, by rw [hdead n h]; rfl⟩⟩
  have hnodup : (aigNodes N).Nodup := List.nodup_range.filter _
  have hlt : ∀ n ∈ N.inputs, n ≠ 0 ∧ n < N.nodes.length := by
    intro n hi
    obtain ⟨k, hk⟩ := List.mem_iff_getElem?.1 hi
    obtain ⟨h0, nd', h3, _⟩ := hW.input k n hk
    exact ⟨by omega, Aig.lt_of_getElem? h3⟩
  refine ⟨_, _, ?_, read_write (aigView N s.lev), ?_, ?_⟩
  · rw [writeAig_marks, e]
  · have := shows (size := N.nodes.length) (const := fun n => n = 0) (input := fun n => n ∈ N.inputs) (reads := AndReads N) (aigView N s.lev) hnodup hnodes
      ?_ ?_ ?_ ?_
    · have hp : (aigView N s.lev).pos = N.outputs := htake
      rw [hp] at this
      exact this
    · intro n
      constructor
      · intro hn
        by_cases h0 : n = 0
        · exact Or.inl h0
        · by_cases hi : n ∈ N.inputs
          · exact Or.inr (Or.inl hi)
          · obtain ⟨nd, hnd⟩ : ∃ nd, N.nodes[n]? = some nd := ⟨_, List.getElem?_eq_getElem hn⟩
            exact Or.inr (Or.inr ⟨_, _, _, hgate n nd hnd h0 hi, rfl⟩)
      · rintro (rfl | h | ⟨_, a, b, ⟨_, _, nd, hnd, _⟩, _⟩)
        · exact hW.pos
        · exact (hlt n h).2
        · exact Aig.lt_of_getElem? hnd
    · rintro n rfl
      rfl
    · intro n hn
      refine ⟨?_, (Io.isPi_iff hW hpi (hlt n hn).1).2 hn⟩
      show (n == 0) = false
      simpa using (hlt n hn).1
    · rintro n fs ⟨a, b, hg, rfl⟩
      have hm := (hW.mem_gates n).2 ⟨_, _, hg⟩
      simp only [Aig.gates, List.mem_filter, Bool.and_eq_true, Bool.not_eq_true'] at hm
      obtain ⟨h0, hi, nd, hnd, _, rfl, rfl⟩ := hg
      refine ⟨?_, ?_, ?_⟩
      · show (n == 0) = false
        simpa using h0
      · show N.isPi n = false
        rw [Bool.eq_false_iff]
        exact fun h => hi ((Io.isPi_iff hW hpi h0).1 h)
      · show Topo.aigFanins N n = _
        unfold Topo.aigFanins
        rw [if_neg (by rintro (h | h); · exact h0 h
                       · rw [hm.2.1.2] at h; cases h), hnd]
  · have := leveled (E := AndEdge N) (size := N.nodes.length) (aigView N s.lev) hnodup hnodes h1 h2
    have hp : (aigView N s.lev).pos = N.outputs := htake
    rw [hp] at this
    exact this

/-- LUT networks without registers, with any marks of earlier traversals: as for AIGs. Missing from the full statement: registers, networks that `print_stats` has
changed (`C80_violated_session`), and the level of LUTs that no output uses. -/
theorem C80_lut_partial (N : Klut) (hN : Klut.Built N) (hpi : N.inputs.length = N.numPis) (hpo : N.outputs.length = N.numPos)
    (vis : Nat → Nat) (trav fuel : Nat) (hv : ∀ n, vis n ≤ trav) (hf : N.nodes.length ≤ fuel) :
    ∃ t S, writeLutNet ⟨N, vis, trav⟩ fuel = some t ∧ readDot t = some S ∧
      Shows N.nodes.length (fun n => n < 2) (fun n => n ∈ N.inputs) (LutReads N) (N.outputs.map fun o => ⟨o, false⟩) S ∧
      Leveled (LutEdge N) N.nodes.length (N.outputs.map fun o => ⟨o, false⟩) S := by
  have hW := hN.wf
  have hcnt := Cli.Stats.lut_counts hN hpi 0
  rw [Cli.Stats.grow_zero] at hcnt
  have htake : N.outputs.take N.numPos = N.outputs := by rw [← hpo, List.take_length]
  have hpos : ∀ f ∈ (N.outputs.take N.numPos).map (fun o => (⟨o, false⟩ : Sig)), f.index < N.nodes.length := by
    intro f hf'
    obtain ⟨o, ho, rfl⟩ := List.mem_map.1 hf'
    exact hW.outputs o (List.mem_of_mem_take ho)
  obtain ⟨s, d, e, h1, h2⟩ := view_levels hcnt _ hpos vis trav fuel hv (fun f hf' => lt_of_lt_of_le (hpos f hf') hf)
  have hnodes : ∀ n, n ∈ List.range N.nodes.length ↔ n < N.nodes.length := fun n => List.mem_range
  have hlen := hW.len
  have hin := hW.inputs
  have hp : (lutView N s.lev).pos = N.outputs.map fun o => (⟨o, false⟩ : Sig) := by
    show (N.outputs.take N.numPos).map _ = _
    rw [htake]
  refine ⟨_, _, ?_, read_write (lutView N s.lev), ?_, ?_⟩
  · unfold writeLutNet Cli.Stats.lutDepth
    dsimp only
    rw [e]
  · have := shows (size := N.nodes.length) (const := fun n => n < 2) (input := fun n => n ∈ N.inputs) (reads := LutReads N) (lutView N s.lev)
      List.nodup_range hnodes ?_ ?_ ?_ ?_
    · rw [hp] at this
      exact this
    · intro n
      constructor
      · intro hn
        by_cases h0 : n < 2
        · exact Or.inl h0
        · by_cases hi : n ∈ N.inputs
          · exact Or.inr (Or.inl hi)
          · obtain ⟨nd, hnd⟩ : ∃ nd, N.nodes[n]? = some nd := ⟨_, List.getElem?_eq_getElem hn⟩
            obtain ⟨_, _, f, g3, _⟩ := hW.gate n nd hnd (by omega) hi
            exact Or.inr (Or.inr ⟨_, nd.children, f, ⟨by omega, hi, nd, hnd, rfl, g3⟩, rfl⟩)
      · rintro (h | h | ⟨_, cs, f, ⟨_, _, nd, hnd, _⟩, _⟩)
        · omega
        · exact (hin n h).2
        · exact Aig.lt_of_getElem? hnd
    · intro n hn
      exact decide_eq_true (by omega)
    · intro n hn
      exact ⟨decide_eq_false (by have := (hin n hn).1; omega), (Io.isPi_of_numPis hN).2 hpi n hn⟩
    · rintro n fs ⟨cs, f, ⟨h0, hi, nd, hnd, rfl, _⟩, rfl⟩
      refine ⟨decide_eq_false (by omega), ?_, ?_⟩
      · show N.isPi n = false
        rw [Bool.eq_false_iff]
        exact fun h => hi (Io.isPi_mem hN h)
      · show Cli.Stats.lutFanins N n = _
        unfold Cli.Stats.lutFanins Klut.fanins
        rw [hnd, if_neg]
        · rfl
        · rintro (h | h)
          · omega
          · exact hi (Io.isCi_mem hN h)
  · have := leveled (E := LutEdge N) (size := N.nodes.length) (lutView N s.lev) List.nodup_range hnodes h1 h2
    rw [hp] at this
    exact this

theorem Leveled.up {E : Nat → Nat → Prop} {size : Nat} {outs : List Sig} {S : List Stmt} (h : Leveled E size outs S) (n c : Nat)
    (hn : Used E (outs.map (·.index)) n) (he : E n c) (hlt : n < size) (hclt : c < size) :
    ∃ (i j : Nat) (r q : List Mark), i < j ∧ j + 1 < (ranks S).length ∧ (ranks S)[i]? = some r ∧ .node c ∈ r ∧ (ranks S)[j]? = some q ∧ .node n ∈ q := by
  obtain ⟨rs, e, h1, h2⟩ := h
  obtain ⟨j, q, hq, hnq⟩ := h2 n hlt
  obtain ⟨i, r, hr, hcr⟩ := h2 c hclt
  have hcu : Used E (outs.map (·.index)) c := by
    obtain ⟨o, ho, hr⟩ := hn
    exact ⟨o, ho, hr.tail he⟩
  have hj : j < rs.length := Aig.lt_of_getElem? hq
  have hi : i < rs.length := Aig.lt_of_getElem? hr
  obtain ⟨n', e1, _, h3⟩ := ((h1 j q hq).2 _).1 hnq
  cases e1
  obtain ⟨c', e2, _, h4⟩ := ((h1 i r hr).2 _).1 hcr
  cases e2
  have hdn : IsDepth E [n] j := by
    rcases h3 with h3 | h3
    · exact h3.2
    · exact absurd hn h3.1
  have hdc : IsDepth E [c] i := by
    rcases h4 with h4 | h4
    · exact h4.2
    · exact absurd hcu h4.1
  have hchain : Chain E c i := by
    rcases hdc.2 with rfl | ⟨o, ho, hch⟩
    · exact .nil c
    · rw [List.mem_singleton] at ho
      subst ho
      exact hch
  have := hdn.1 n (by simp) _ (.cons he hchain)
  refine ⟨i, j, r, q, by omega, ?_, ?_, hcr, ?_, hnq⟩
  · rw [e, List.length_append, List.length_singleton]
    omega
  · rw [e, List.getElem?_append_left hi]
    exact hr
  · rw [e, List.getElem?_append_left hj]
    exact hq

/-- In the drawing of an AIG without registers, every edge to a gate that some output uses goes up. Missing from the full statement: edges to other gates, see
`C80_violated`. -/
theorem C80_up_partial (N : Aig) (hN : Aig.Built N) (hpi : N.inputs.length = N.numPis) (hpo : N.outputs.length = N.numPos)
    (vis : Nat → Nat) (trav fuel : Nat) (hv : ∀ n, vis n ≤ trav) (hf : N.nodes.length ≤ fuel) (t : Text) (S : List Stmt)
    (ht : writeAig (withMarks N vis trav) fuel = some t) (hS : readDot t = some S) (a : Mark) (n : Nat) (w : Text) (he : Stmt.edge a (.node n) w ∈ S)
    (hn : Used (AndEdge N) (N.outputs.map (·.index)) n) :
    ∃ (i j : Nat) (r q : List Mark), i < j ∧ j + 1 < (ranks S).length ∧ (ranks S)[i]? = some r ∧ a ∈ r ∧ (ranks S)[j]? = some q ∧ .node n ∈ q := by
  obtain ⟨t', S', e1, e2, h1, h2⟩ := C80_aig_partial N hN hpi hpo vis trav fuel hv hf
  rw [ht] at e1
  cases e1
  rw [hS] at e2
  cases e2
  obtain ⟨hlt, fs, ⟨x, y, hg, rfl⟩, f, hf', rfl⟩ := h1.edge he
  have hE : AndEdge N n f.index := by
    refine ⟨x, y, hg, ?_⟩
    simp only [List.mem_cons, List.not_mem_nil, or_false] at hf'
    rcases hf' with rfl | rfl
    · exact Or.inl rfl
    · exact Or.inr rfl
  have := hN.wf.isGate_lt hg
  refine h2.up n f.index hn hE hlt ?_
  obtain ⟨_, _, _, hc⟩ := hE
  simp only [List.mem_cons, List.not_mem_nil, or_false] at hf'
  rcases hf' with rfl | rfl <;> omega

/-- The same for LUT networks. -/
theorem C80_lut_up_partial (N : Klut) (hN : Klut.Built N) (hpi : N.inputs.length = N.numPis) (hpo : N.outputs.length = N.numPos)
    (vis : Nat → Nat) (trav fuel : Nat) (hv : ∀ n, vis n ≤ trav) (hf : N.nodes.length ≤ fuel) (t : Text) (S : List Stmt)
    (ht : writeLutNet ⟨N, vis, trav⟩ fuel = some t) (hS : readDot t = some S) (a : Mark) (n : Nat) (w : Text) (he : Stmt.edge a (.node n) w ∈ S)
    (hn : Used (LutEdge N) N.outputs n) :
    ∃ (i j : Nat) (r q : List Mark), i < j ∧ j + 1 < (ranks S).length ∧ (ranks S)[i]? = some r ∧ a ∈ r ∧ (ranks S)[j]? = some q ∧ .node n ∈ q := by
  obtain ⟨t', S', e1, e2, h1, h2⟩ := C80_lut_partial N hN hpi hpo vis trav fuel hv hf
  rw [ht] at e1
  cases e1
  rw [hS] at e2
  cases e2
  obtain ⟨hlt, fs, ⟨cs, g, hl, rfl⟩, f, hf', rfl⟩ := h1.edge he
  obtain ⟨c, hc, rfl⟩ := List.mem_map.1 hf'
  refine h2.up n c ?_ ⟨cs, g, hl, hc⟩ hlt ?_
  · rw [List.map_map]
    simpa [Function.comp_def] using hn
  · obtain ⟨h1, h2, nd, h3, rfl, _⟩ := hl
    have := (hN.wf.gate n nd h3 h1 h2).2.1 c hc
    omega

/-! ### cases -/

/-- the statements of a drawing of an AIG -/
def drawn (N : Aig) (fuel : Nat) : Option (List Stmt) := (writeAig N fuel).bind readDot

/-- The hypotheses of the theorems on AIGs hold: two gates, a complemented fanin, a complemented output; the drawing has three levels and the outputs. -/
example : Aig.Built Cli.Stats.aPair ∧ Cli.Stats.aPair.inputs.length = Cli.Stats.aPair.numPis ∧ Cli.Stats.aPair.outputs.length = Cli.Stats.aPair.numPos ∧
    Cli.Stats.aPair.nodes.length ≤ 5 ∧ (drawn Cli.Stats.aPair 5).map ranks =
      some [[.node 0, .node 1, .node 2], [.node 3], [.node 4], [.out 0, .out 1]] ∧
    (drawn Cli.Stats.aPair 5).map (into (.node 4)) = some [(.node 1, "solid".toList), (.node 3, "dashed".toList)] ∧
    (drawn Cli.Stats.aPair 5).map (into (.out 0)) = some [(.node 4, "dashed".toList)] ∧
    Used (AndEdge Cli.Stats.aPair) (Cli.Stats.aPair.outputs.map (·.index)) 4 :=
  ⟨Cli.Stats.aPair_built, by decide, by decide, by decide, by decide +kernel, by decide +kernel, by decide +kernel,
    ⟨4, by decide, .refl⟩⟩

/-- The hypotheses of the theorems on LUT networks hold. -/
example : Klut.Built Cli.Stats.lPair ∧ Cli.Stats.lPair.inputs.length = Cli.Stats.lPair.numPis ∧
    Cli.Stats.lPair.outputs.length = Cli.Stats.lPair.numPos ∧ Cli.Stats.lPair.nodes.length ≤ 6 ∧
    ((writeLutNet ⟨Cli.Stats.lPair, fun _ => 0, 0⟩ 6).bind readDot).map ranks =
      some [[.node 0, .node 1, .node 2, .node 3], [.node 4], [.node 5], [.out 0, .out 1]] ∧
    ((writeLutNet ⟨Cli.Stats.lPair, fun _ => 0, 0⟩ 6).bind readDot).map (into (.node 4)) =
      some [(.node 2, "solid".toList), (.node 3, "solid".toList)] :=
  ⟨Cli.Stats.lPair_built, by decide +kernel, by decide +kernel, by decide +kernel, by decide +kernel, by decide +kernel⟩

/-- two gates, of which the output uses only the first -/
def aLoose : Aig := ((Aig.empty.createPi.1.createPi.1.createAnd ⟨1, false⟩ ⟨2, false⟩).1.createAnd ⟨3, true⟩ ⟨1, false⟩).1.createPo ⟨3, false⟩

theorem aLoose_built : Aig.Built aLoose :=
  .po (.and (.and (.pi (.pi .empty)) (by decide) (by decide)) (by decide) (by decide)) (by decide)

/-- The full statement is violated: the edge from gate 3 to gate 4 leads from level 1 down to level 0, since no output uses gate 4. -/
theorem C80_violated : ∃ (N : Aig) (S : List Stmt), Aig.Built N ∧ N.inputs.length = N.numPis ∧ N.outputs.length = N.numPos ∧ drawn N 5 = some S ∧
    Stmt.edge (.node 3) (.node 4) "dashed".toList ∈ S ∧ ranks S = [[.node 0, .node 1, .node 2, .node 4], [.node 3], [.out 0]] := by
  obtain ⟨S, hS⟩ : ∃ S, drawn aLoose 5 = some S := Option.isSome_iff_exists.1 (by decide +kernel)
  have h1 : (drawn aLoose 5).map (fun S => decide (Stmt.edge (.node 3) (.node 4) "dashed".toList ∈ S)) = some true := by decide +kernel
  have h2 : (drawn aLoose 5).map ranks = some [[.node 0, .node 1, .node 2, .node 4], [.node 3], [.out 0]] := by decide +kernel
  rw [hS] at h1 h2
  exact ⟨aLoose, S, aLoose_built, by decide, by decide, hS, of_decide_eq_true (Option.some.inj h1), Option.some.inj h2⟩

/-- Register outputs are drawn like gates, on the level above the inputs, without edges; register inputs are not drawn. -/
theorem C80_violated_register : ∃ (N : Aig) (S : List Stmt), Aig.Built N ∧ N.inputs = [1, 2] ∧ N.outputs.length = 2 ∧ drawn N 4 = some S ∧
    looks (.node 2) S = [(some 2, "ellipse".toList, "white".toList)] ∧ into (.node 2) S = [] ∧
    ranks S = [[.node 0, .node 1], [.node 2], [.node 3], [.out 0]] := by
  obtain ⟨S, hS⟩ : ∃ S, drawn Cli.Stats.aReg 4 = some S := Option.isSome_iff_exists.1 (by decide +kernel)
  have h1 : (drawn Cli.Stats.aReg 4).map (looks (.node 2)) = some [(some 2, "ellipse".toList, "white".toList)] := by decide +kernel
  have h2 : (drawn Cli.Stats.aReg 4).map (into (.node 2)) = some [] := by decide +kernel
  have h3 : (drawn Cli.Stats.aReg 4).map ranks = some [[.node 0, .node 1], [.node 2], [.node 3], [.out 0]] := by decide +kernel
  rw [hS] at h1 h2 h3
  refine ⟨Cli.Stats.aReg, S, ?_, by decide, by decide, hS, Option.some.inj h1, Option.some.inj h2, Option.some.inj h3⟩
  exact .ri (.po (.and (.ro (.pi .empty)) (by decide) (by decide)) (by decide)) (by decide)

/-- After one call of `print_stats` the drawing of the same LUT network has one more gate, without fanins. -/
theorem C80_violated_session : ∃ (N : Klut) (l : Cli.Stats.Line) (s : Cli.Stats.Lut) (S : List Stmt), Klut.Built N ∧ N.nodes.length = 6 ∧
    Cli.Stats.lutStats ⟨N, fun _ => 0, 0⟩ 7 = some (l, s) ∧ (writeLutNet s 7).bind readDot = some S ∧
    looks (.node 6) S = [(some 6, "ellipse".toList, "white".toList)] ∧ into (.node 6) S = [] := by
  obtain ⟨⟨l, s⟩, hs⟩ : ∃ q, Cli.Stats.lutStats ⟨Cli.Stats.lPair, fun _ => 0, 0⟩ 7 = some q := Option.isSome_iff_exists.1 (by decide +kernel)
  have h0 : ((Cli.Stats.lutStats ⟨Cli.Stats.lPair, fun _ => 0, 0⟩ 7).bind fun q => (writeLutNet q.2 7).bind readDot).isSome = true := by decide +kernel
  have h1 : ((Cli.Stats.lutStats ⟨Cli.Stats.lPair, fun _ => 0, 0⟩ 7).bind fun q => (writeLutNet q.2 7).bind readDot).map (looks (.node 6)) =
      some [(some 6, "ellipse".toList, "white".toList)] := by decide +kernel
  have h2 : ((Cli.Stats.lutStats ⟨Cli.Stats.lPair, fun _ => 0, 0⟩ 7).bind fun q => (writeLutNet q.2 7).bind readDot).map (into (.node 6)) = some [] := by
    decide +kernel
  rw [hs, Option.bind_some] at h0 h1 h2
  obtain ⟨S, hS⟩ := Option.isSome_iff_exists.1 h0
  rw [hS] at h1 h2
  exact ⟨_, l, s, S, Cli.Stats.lPair_built, by decide +kernel, hs, hS, Option.some.inj h1, Option.some.inj h2⟩

end Verif.Io.Dot
