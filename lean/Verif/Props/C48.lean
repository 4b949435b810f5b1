import Verif.Io.VerilogProof
import Mathlib.Data.List.Nodup
import Mathlib.Tactic.FinCases

set_option autoImplicit false

/-!
# C48: the identifiers of a written Verilog file are distinct, and the file denotes the network

The claim — `write_verilog` gives every port and every gate its own identifier, and the file it writes computes the
functions of the network — holds for combinational networks written with default names (`C48_default_partial`), and with
the names the reader passes on whenever these do not collide with the generated ones (`C48_distinct_partial`,
`C48_denotes_partial`). It fails in general: the writer does not look for collisions (`C48_violated`, an input called
`n3`), reads outside a vector when there are fewer names than ports (`C48_violated_short`) and writes no assignment that a
Verilog reader accepts for registers (`C48_violated_registers`).
-/

namespace Verif.Io
open Aig (IsGate Built WF Consistent)
open RefDeref (aigKids)
open Topo (Tfi)

/-- The names are those the reader hands over: none at all, or one for each port, escaped by `to_escaped_identifier`, and
without blanks before escaping (a blank ends an escaped identifier). -/
structure FromReader (ps : Params) (N : Aig) : Prop where
  inputs : ps.inputNames = [] ∨ ps.inputNames.length = N.numPis
  outputs : ps.outputNames = [] ∨ ps.outputNames.length = N.numPos
  names : ∀ t ∈ ps.inputNames ++ ps.outputNames, ∃ name : Text, ' ' ∉ name ∧ t = toEscaped name

/-- no registers -/
def Combinational (N : Aig) : Prop := N.inputs.length = N.numPis ∧ N.outputs.length = N.numPos

theorem inputTexts_length {ps : Params} {N : Aig} (h : FromReader ps N) : (inputTexts ps N).length = N.numPis := by
  unfold inputTexts
  split
  · simp
  · rename_i hne
    exact h.inputs.resolve_left hne

theorem outputTexts_length {ps : Params} {N : Aig} (h : FromReader ps N) : (outputTexts ps N).length = N.numPos := by
  unfold outputTexts
  split
  · simp
  · rename_i hne
    exact h.outputs.resolve_left hne

theorem readAtom_of_name {ps : Params} {N : Aig} (h : FromReader ps N) {t : Text} (ht : t ∈ ps.inputNames ++ ps.outputNames) :
    readAtom t = .id (ident t) := by
  obtain ⟨name, hb, rfl⟩ := h.names t ht
  rw [readAtom_toEscaped hb, ident_toEscaped hb]

theorem readAtom_input {ps : Params} {N : Aig} (h : FromReader ps N) {t : Text} (ht : t ∈ inputTexts ps N) :
    readAtom t = .id (ident t) := by
  unfold inputTexts at ht
  split at ht
  · obtain ⟨i, _, rfl⟩ := List.mem_map.1 ht
    rw [readAtom_numbered (by decide) (by decide), ident_numbered (by decide)]
  · exact readAtom_of_name h (List.mem_append_left _ ht)

theorem readAtom_output {ps : Params} {N : Aig} (h : FromReader ps N) {t : Text} (ht : t ∈ outputTexts ps N) :
    readAtom t = .id (ident t) := by
  unfold outputTexts at ht
  split at ht
  · obtain ⟨i, _, rfl⟩ := List.mem_map.1 ht
    rw [readAtom_numbered (by decide) (by decide), ident_numbered (by decide)]
  · exact readAtom_of_name h (List.mem_append_right _ ht)

/-- The writer finishes. -/
theorem C48_defined_partial (N : Aig) (hN : Built N) (hc : Combinational N) (ps : Params) (h : FromReader ps N) (fuel : Nat)
    (hf : N.nodes.length ≤ fuel) : ∃ M, writeVerilog ps N fuel = some M := by
  obtain ⟨M, e, _⟩ := writeVerilog_spec hN hc.1 hc.2 ps (inputTexts_length h) (outputTexts_length h) fuel hf
  exact ⟨M, e⟩

theorem written {N : Aig} (hN : Built N) (hc : Combinational N) {ps : Params} (h : FromReader ps N) {fuel : Nat}
    (hf : N.nodes.length ≤ fuel) {M : VModule} (e : writeVerilog ps N fuel = some M) :
    Written N (inputTexts ps N) (outputTexts ps N) M := by
  obtain ⟨M', e', w⟩ := writeVerilog_spec hN hc.1 hc.2 ps (inputTexts_length h) (outputTexts_length h) fuel hf
  rw [e] at e'
  cases e'
  exact w

/-- The identifiers the given names stand for are distinct and not of the forms the writer makes up: `n` and the number of a
gate, and, when names of inputs (outputs) are missing, `x` (`y`) and the number of one. -/
structure NoClash (ps : Params) (N : Aig) : Prop where
  nodup : ((ps.inputNames ++ ps.outputNames).map ident).Nodup
  gates : ∀ t ∈ ps.inputNames ++ ps.outputNames, ∀ n, (∃ a b, N.IsGate n a b) → ident t ≠ numbered 'n' n
  inputs : ps.inputNames = [] → ∀ t ∈ ps.outputNames, ∀ i < N.numPis, ident t ≠ numbered 'x' i
  outputs : ps.outputNames = [] → ∀ t ∈ ps.inputNames, ∀ i < N.numPos, ident t ≠ numbered 'y' i

theorem numbered_nodup {c : Char} (hc : c ≠ '\\') {l : List Nat} (hl : l.Nodup) : ((l.map (numbered c)).map ident).Nodup := by
  rw [List.map_map]
  apply List.Nodup.map _ hl
  intro a b hab
  simp only [Function.comp, ident_numbered hc] at hab
  exact numbered_inj hab

/-- Every port and every gate gets its own identifier if the given names do not collide. -/
theorem C48_distinct_partial (N : Aig) (hN : Built N) (hc : Combinational N) (ps : Params) (h : FromReader ps N) (hcl : NoClash ps N)
    (fuel : Nat) (hf : N.nodes.length ≤ fuel) (M : VModule) (e : writeVerilog ps N fuel = some M) :
    M.declared.Nodup ∧ M.inputs.length = N.numPis ∧ M.outputs.length = N.numPos ∧
      ∀ n, (∃ a b, N.IsGate n a b) → numbered 'n' n ∈ M.wires := by
  have w := written hN hc h hf e
  refine ⟨?_, by rw [w.inputs, inputTexts_length h], by rw [w.outputs, outputTexts_length h], ?_⟩
  · unfold VModule.declared
    rw [w.inputs, w.outputs, w.wires, List.map_append, List.nodup_append]
    have hn := hcl.nodup
    rw [List.map_append, List.nodup_append] at hn
    obtain ⟨n1, n2, n3⟩ := hn
    refine ⟨?_, numbered_nodup (by decide) (List.Nodup.filter _ List.nodup_range), ?_⟩
    · rw [List.map_append, List.nodup_append]
      refine ⟨?_, ?_, ?_⟩
      · unfold inputTexts
        split
        · exact numbered_nodup (by decide) List.nodup_range
        · exact n1
      · unfold outputTexts
        split
        · exact numbered_nodup (by decide) List.nodup_range
        · exact n2
      · intro a ha b hb
        obtain ⟨s, hs, rfl⟩ := List.mem_map.1 ha
        obtain ⟨t, ht, rfl⟩ := List.mem_map.1 hb
        unfold inputTexts at hs
        unfold outputTexts at ht
        split at hs
        · rename_i hx
          obtain ⟨i, hi, rfl⟩ := List.mem_map.1 hs
          rw [List.mem_range] at hi
          rw [ident_numbered (by decide)]
          split at ht
          · obtain ⟨j, hj, rfl⟩ := List.mem_map.1 ht
            rw [ident_numbered (by decide)]
            exact numbered_ne (by decide) _ _
          · exact (hcl.inputs hx t ht i hi).symm
        · split at ht
          · rename_i hy
            obtain ⟨j, hj, rfl⟩ := List.mem_map.1 ht
            rw [List.mem_range] at hj
            rw [ident_numbered (by decide)]
            exact hcl.outputs hy s hs j hj
          · exact n3 _ (List.mem_map.2 ⟨s, hs, rfl⟩) _ (List.mem_map.2 ⟨t, ht, rfl⟩)
    · intro a ha b hb
      obtain ⟨s, hs, rfl⟩ := List.mem_map.1 ha
      obtain ⟨t, ht, rfl⟩ := List.mem_map.1 hb
      obtain ⟨n, hn, rfl⟩ := List.mem_map.1 ht
      rw [hN.wf.mem_gates] at hn
      rw [ident_numbered (by decide)]
      rcases List.mem_append.1 hs with hs | hs
      · unfold inputTexts at hs
        split at hs
        · obtain ⟨i, _, rfl⟩ := List.mem_map.1 hs
          rw [ident_numbered (by decide)]
          exact numbered_ne (by decide) _ _
        · exact hcl.gates s (List.mem_append_left _ hs) n hn
      · unfold outputTexts at hs
        split at hs
        · obtain ⟨i, _, rfl⟩ := List.mem_map.1 hs
          rw [ident_numbered (by decide)]
          exact numbered_ne (by decide) _ _
        · exact hcl.gates s (List.mem_append_right _ hs) n hn
  · intro n hn
    rw [w.wires]
    exact List.mem_map.2 ⟨n, (hN.wf.mem_gates n).2 hn, rfl⟩

theorem readAtom_const : readAtom "1'b0".toList = .const false := by decide

/-- text of a node under values that agree with the network on the ports and on this gate -/
theorem val_nameOf {N : Aig} (hc : Combinational N) {ps : Params} (h : FromReader ps N) {x : Nat → Bool} {v : Nat → Bool}
    (hv : N.Consistent x v) {e : Text → Bool} (hx : ∀ (i : Nat) t, (inputTexts ps N)[i]? = some t → e (ident t) = x i) (n : Nat)
    (hg : n ≠ 0 → n ∉ N.inputs → e (numbered 'n' n) = v n) : (readAtom (nameOf N (inputTexts ps N) n)).val e = v n := by
  unfold nameOf
  by_cases h0 : n = 0
  · rw [if_pos h0, readAtom_const, h0, hv.models.const]
    rfl
  · rw [if_neg h0]
    by_cases hi : n ∈ N.inputs
    · rw [if_pos hi]
      have hk := List.getElem?_idxOf hi
      have hlt : N.inputs.idxOf n < (inputTexts ps N).length := by
        rw [inputTexts_length h, ← hc.1]
        exact List.idxOf_lt_length_of_mem hi
      have ht := List.getElem?_eq_getElem hlt
      rw [ht, Option.getD_some, readAtom_input h (List.getElem_mem hlt), Atom.val, hx _ _ ht, hv.input _ n hk]
    · rw [if_neg hi, readAtom_numbered (by decide) (by decide), Atom.val, hg h0 hi]

/-- The written file denotes the network: if the declared identifiers are distinct, then for all values `x` of the inputs there
are values of the identifiers that agree with all assignments, and whatever these are, output `j` has the value the network
computes. -/
theorem C48_denotes_partial (N : Aig) (hN : Built N) (hc : Combinational N) (ps : Params) (h : FromReader ps N)
    (fuel : Nat) (hf : N.nodes.length ≤ fuel) (M : VModule) (e : writeVerilog ps N fuel = some M) (x : Nat → Bool) (v : Nat → Bool)
    (hv : N.Consistent x v) :
    (∀ env, M.Run x env → ∀ (j : Nat) o, N.outputs[j]? = some o → ∃ t, M.outputs[j]? = some t ∧ env (ident t) = o.val v) ∧
    (M.declared.Nodup → ∃ env, M.Run x env) := by
  have w := written hN hc h hf e
  constructor
  · intro env hrun j o ho
    have hx : ∀ (i : Nat) t, (inputTexts ps N)[i]? = some t → env (ident t) = x i := by
      intro i t ht
      exact hrun.inputs i t (by rw [w.inputs]; exact ht)
    have hgate : ∀ n, Tfi (aigKids N) o.index n → n ≠ 0 → n ∉ N.inputs → env (numbered 'n' n) = v n := by
      intro n
      induction n using Nat.strong_induction_on with
      | _ n ih =>
        intro ht h0 hi
        have hlt := Aig.Tfi_lt hN.wf ht (hN.wf.outputs o (List.mem_of_getElem? ho))
        have hnd : N.nodes[n]? = some N.nodes[n] := List.getElem?_eq_getElem hlt
        have g := hN.wf.isGate_of h0 hi hnd
        have hl := hN.wf.isGate_lt g
        have hci : N.isCi n = false := IsGate.not_ci hN.wf g
        have hk := Aig.aigKids_gate h0 hci hnd
        obtain ⟨t, h1, h2⟩ := hrun.holds _ (w.gate o (List.mem_of_getElem? ho) n _ ht h0 hi hnd)
        rw [gateAssign] at h1 h2
        dsimp only at h1 h2
        rw [readAtom_numbered (by decide) (by decide)] at h1
        cases h1
        have t0 : Tfi (aigKids N) o.index (N.nodes[n]).c0.index := ht.trans (.step (by rw [hk]; simp) (.refl _))
        have t1 : Tfi (aigKids N) o.index (N.nodes[n]).c1.index := ht.trans (.step (by rw [hk]; simp) (.refl _))
        simp only [List.all_cons, List.all_nil, Bool.and_true] at h2
        rw [val_nameOf hc h hv hx _ (ih _ (by omega) t0), val_nameOf hc h hv hx _ (ih _ (by omega) t1)] at h2
        rw [h2, hv.models.gate n _ _ g]
        rfl
    have hj : j < (outputTexts ps N).length := by
      rw [outputTexts_length h, ← hc.2]
      exact Aig.lt_of_getElem? ho
    have hy := List.getElem?_eq_getElem hj
    refine ⟨_, by rw [w.outputs]; exact hy, ?_⟩
    obtain ⟨t, h1, h2⟩ := hrun.holds _ (w.output j o _ ho hy)
    dsimp only at h1 h2
    rw [readAtom_output h (List.getElem_mem hj)] at h1
    cases h1
    simp only [List.all_cons, List.all_nil, Bool.and_true] at h2
    rw [h2, val_nameOf hc h hv hx _ (hgate _ (.refl _))]
    rfl
  · intro hd
    let V : List Bool := N.inputs.map v ++ N.outputs.map (fun o => o.val v) ++ N.gates.map v
    have hD : M.declared = (inputTexts ps N).map ident ++ (outputTexts ps N).map ident ++ N.gates.map (numbered 'n') := by
      unfold VModule.declared
      rw [w.inputs, w.outputs, w.wires, List.map_append, List.map_append, List.map_map]
      congr 1
    have lx : ((inputTexts ps N).map ident).length = (N.inputs.map v).length := by
      rw [List.length_map, List.length_map, inputTexts_length h, hc.1]
    have ly : ((outputTexts ps N).map ident).length = (N.outputs.map (fun o => o.val v)).length := by
      rw [List.length_map, List.length_map, outputTexts_length h, hc.2]
    have hl : M.declared.length = V.length := by
      rw [hD]
      simp only [V, List.length_append, lx, ly, List.length_map]
    refine ⟨fun t => ((M.declared.zip V).lookup t).getD false, ?_⟩
    have key := lookup_zip M.declared V hd hl
    have hx : ∀ (i : Nat) t, (inputTexts ps N)[i]? = some t → ((M.declared.zip V).lookup (ident t)).getD false = x i := by
      intro i t ht
      have hi : i < N.inputs.length := by
        rw [hc.1, ← inputTexts_length h]
        exact Aig.lt_of_getElem? ht
      have hn : N.inputs[i]? = some N.inputs[i] := List.getElem?_eq_getElem hi
      rw [← hv.input i _ hn]
      have hi' : i < ((inputTexts ps N).map ident).length := by rw [lx, List.length_map]; exact hi
      apply key i
      · rw [hD, List.append_assoc, List.getElem?_append_left hi', List.getElem?_map, ht]
        rfl
      · simp only [V, List.append_assoc]
        rw [List.getElem?_append_left (by rw [List.length_map]; exact hi), List.getElem?_map, hn]
        rfl
    have hy : ∀ (j : Nat) o t, N.outputs[j]? = some o → (outputTexts ps N)[j]? = some t →
        ((M.declared.zip V).lookup (ident t)).getD false = o.val v := by
      intro j o t ho ht
      have hj : j < N.outputs.length := Aig.lt_of_getElem? ho
      have hj' : j < ((outputTexts ps N).map ident).length := by rw [ly, List.length_map]; exact hj
      apply key (((inputTexts ps N).map ident).length + j)
      · rw [hD, List.append_assoc, List.getElem?_append_right (by omega), Nat.add_sub_cancel_left, List.getElem?_append_left hj',
          List.getElem?_map, ht]
        rfl
      · simp only [V, List.append_assoc]
        rw [lx, List.getElem?_append_right (by omega), Nat.add_sub_cancel_left,
          List.getElem?_append_left (by rw [List.length_map]; exact hj), List.getElem?_map, ho]
        rfl
    have hg : ∀ n ∈ N.gates, ((M.declared.zip V).lookup (numbered 'n' n)).getD false = v n := by
      intro n hn
      obtain ⟨k, hk⟩ := List.getElem?_of_mem hn
      apply key (((inputTexts ps N).map ident ++ (outputTexts ps N).map ident).length + k)
      · rw [hD, List.getElem?_append_right (by omega), Nat.add_sub_cancel_left, List.getElem?_map, hk]
        rfl
      · simp only [V]
        rw [List.length_append, lx, ly, ← List.length_append, List.getElem?_append_right (by omega), Nat.add_sub_cancel_left,
          List.getElem?_map, hk]
        rfl
    have hnode : ∀ n, n < N.nodes.length →
        (readAtom (nameOf N (inputTexts ps N) n)).val (fun t => ((M.declared.zip V).lookup t).getD false) = v n := by
      intro n hn
      apply val_nameOf hc h hv hx
      intro h0 hi
      exact hg n ((hN.wf.mem_gates n).2 ⟨_, _, hN.wf.isGate_of h0 hi (List.getElem?_eq_getElem hn)⟩)
    refine ⟨?_, ?_⟩
    · intro i t ht
      rw [w.inputs] at ht
      exact hx i t ht
    · intro a ha
      rcases w.assigns a ha with ⟨n, nd, h0, hi, hnd, rfl⟩ | ⟨j, o, t, ho, ht, rfl⟩
      · have g := hN.wf.isGate_of h0 hi hnd
        have hlt := hN.wf.isGate_lt g
        refine ⟨numbered 'n' n, readAtom_numbered (by decide) (by decide) n, ?_⟩
        refine (hg n ((hN.wf.mem_gates n).2 ⟨_, _, g⟩)).trans ?_
        simp only [gateAssign, List.all_cons, List.all_nil, Bool.and_true]
        rw [hnode _ (by omega), hnode _ (by omega), hv.models.gate n _ _ g]
        rfl
      · refine ⟨ident t, readAtom_output h (List.mem_of_getElem? ht), ?_⟩
        refine (hy j o t ho ht).trans ?_
        simp only [List.all_cons, List.all_nil, Bool.and_true]
        rw [hnode _ (hN.wf.outputs o (List.mem_of_getElem? ho))]
        rfl

/-- With default names nothing can collide: the file is written, its identifiers are distinct and it denotes the network. -/
theorem C48_default_partial (N : Aig) (hN : Built N) (hc : Combinational N) (fuel : Nat) (hf : N.nodes.length ≤ fuel) :
    ∃ M, writeVerilog ⟨[], []⟩ N fuel = some M ∧ M.declared.Nodup ∧ ∀ x v, N.Consistent x v → (∃ env, M.Run x env) ∧
      ∀ env, M.Run x env → ∀ (j : Nat) o, N.outputs[j]? = some o → ∃ t, M.outputs[j]? = some t ∧ env (ident t) = o.val v := by
  have h : FromReader ⟨[], []⟩ N := ⟨Or.inl rfl, Or.inl rfl, by simp⟩
  have hcl : NoClash ⟨[], []⟩ N := ⟨by simp, by simp, by simp, by simp⟩
  obtain ⟨M, e⟩ := C48_defined_partial N hN hc _ h fuel hf
  have hd := (C48_distinct_partial N hN hc _ h hcl fuel hf M e).1
  refine ⟨M, e, hd, fun x v hv => ?_⟩
  have := C48_denotes_partial N hN hc _ h fuel hf M e x v hv
  exact ⟨this.2 hd, this.1⟩

/-! ### Examples and counterexamples -/

/-- `a & !b` as output 0, its complement as output 1 -/
def vN : Aig := ((((Aig.empty.createPi.1).createPi.1).createAnd ⟨1, false⟩ ⟨2, true⟩).1.createPo ⟨3, false⟩).createPo ⟨3, true⟩

theorem vN_built : Built vN := .po (.po (.and (.pi (.pi .empty)) (by decide) (by decide)) (by decide)) (by decide)

/-- names `a`, `b[0]` and `o1`, `o2` -/
def vPs : Params := ⟨["a".toList, "\\b[0] ".toList], ["\\o1 ".toList, "\\o2 ".toList]⟩

example : FromReader vPs vN := ⟨by decide, by decide, by
  intro t ht
  fin_cases ht
  · exact ⟨"a".toList, by decide, by decide⟩
  · exact ⟨"b[0]".toList, by decide, by decide⟩
  · exact ⟨"o1".toList, by decide, by decide⟩
  · exact ⟨"o2".toList, by decide, by decide⟩⟩

example : Combinational vN := ⟨by decide, by decide⟩

example : writeVerilog vPs vN 10 = some ⟨vPs.inputNames, vPs.outputNames, ["n3".toList],
    [⟨"n3".toList, [(false, "a".toList), (true, "\\b[0] ".toList)]⟩, ⟨"\\o1 ".toList, [(false, "n3".toList)]⟩,
     ⟨"\\o2 ".toList, [(true, "n3".toList)]⟩]⟩ := by decide +kernel

example : NoClash vPs vN := by
  refine ⟨by decide, ?_, ?_, ?_⟩
  · intro t ht n _ he
    have : ∀ s ∈ vPs.inputNames ++ vPs.outputNames, (ident s).head? ≠ some 'n' := by decide
    exact this t ht (by rw [he]; rfl)
  · intro h; exact absurd h (by decide)
  · intro h; exact absurd h (by decide)

/-- the same network with inputs called `n3` and `b` -/
def clashPs : Params := ⟨[toEscaped "n3".toList, toEscaped "b".toList], []⟩

/-- The claim fails: an input called `n3` gets the same identifier as the gate 3. For `n3 = 1`, `b = 1` no values of the
identifiers agree with the assignments, so the file does not denote the network. -/
theorem C48_violated : ∃ (N : Aig) (ps : Params) (M : VModule) (x : Nat → Bool), Built N ∧ Combinational N ∧ FromReader ps N ∧
    writeVerilog ps N N.nodes.length = some M ∧ ¬ M.declared.Nodup ∧ ¬ ∃ env, M.Run x env := by
  refine ⟨vN, clashPs, (writeVerilog clashPs vN 4).getD ⟨[], [], [], []⟩, fun _ => true, vN_built, ⟨by decide, by decide⟩,
    ⟨by decide, by decide, ?_⟩, by decide +kernel, by decide +kernel, ?_⟩
  · intro t ht
    fin_cases ht
    · exact ⟨"n3".toList, by decide, rfl⟩
    · exact ⟨"b".toList, by decide, rfl⟩
  · rintro ⟨env, h1, h2⟩
    have hM : (writeVerilog clashPs vN 4).getD ⟨[], [], [], []⟩ = ⟨["\\n3 ".toList, "b".toList], ["y0".toList, "y1".toList], ["n3".toList],
      [⟨"n3".toList, [(false, "\\n3 ".toList), (true, "b".toList)]⟩, ⟨"y0".toList, [(false, "n3".toList)]⟩,
        ⟨"y1".toList, [(true, "n3".toList)]⟩]⟩ := by decide +kernel
    rw [hM] at h1 h2
    have e0 := h1 0 _ rfl
    have e1 := h1 1 _ rfl
    obtain ⟨t, g1, g2⟩ := h2 _ (List.mem_cons_self ..)
    have i0 : ident "\\n3 ".toList = "n3".toList := by decide
    have r1 : readAtom "n3".toList = .id "n3".toList := by decide
    have r2 : readAtom "\\n3 ".toList = .id "n3".toList := by decide
    have r3 : readAtom "b".toList = .id "b".toList := by decide
    have i1 : ident "b".toList = "b".toList := by decide
    rw [i0] at e0
    rw [i1] at e1
    rw [r1] at g1
    cases g1
    simp only [List.all_cons, List.all_nil, r2, r3, Atom.val, e0, e1] at g2
    exact absurd g2 (by decide)

/-- With fewer names than inputs the writer reads outside the vector of names. -/
theorem C48_violated_short : ∃ (N : Aig) (ps : Params), Built N ∧ Combinational N ∧
    (∀ t ∈ ps.inputNames ++ ps.outputNames, ∃ name : Text, ' ' ∉ name ∧ t = toEscaped name) ∧ ∀ fuel, writeVerilog ps N fuel = none := by
  refine ⟨vN, ⟨["a".toList], []⟩, vN_built, ⟨by decide, by decide⟩, ?_, fun fuel => ?_⟩
  · intro t ht
    fin_cases ht
    exact ⟨"a".toList, by decide, by decide⟩
  · rfl

/-- a register whose output drives an AND gate with the input -/
def vReg : Aig := ((((Aig.empty.createPi.1).createRo.1).createAnd ⟨1, false⟩ ⟨2, false⟩).1.createPo ⟨3, false⟩).createRi ⟨3, false⟩ 0

/-- For a register output the text `unknown gate` is written, which no Verilog reader accepts. -/
theorem C48_violated_registers : ∃ N : Aig, Built N ∧ writeVerilog ⟨[], []⟩ N N.nodes.length = none :=
  ⟨vReg, .ri (.po (.and (.ro (.pi .empty)) (by decide) (by decide)) (by decide)) (by decide), by decide +kernel⟩

end Verif.Io
