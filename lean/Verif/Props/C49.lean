import Verif.Io.LutProof
import Mathlib.Data.List.Nodup
import Mathlib.Tactic.FinCases

set_option autoImplicit false

/-!
# C49: the LUT netlist writer denotes the LUT network

The claim — interpreting the written netlist gives the output functions of the LUT network — holds for networks without
registers and without constant fanins of LUTs (`C49_denotes_partial`), when the identifiers do not collide
(`C49_distinct_partial`, `C49_default_partial`). `C49_init` is the part about the `INIT` words and has no such condition.
The claim fails in general: a constant fanin leaves a pin open (`C49_violated_constant`), a register output is written as a
constant (`C49_violated_registers`), an input called `_w4_` or `name0` collides (`C49_violated_clash`), and the port list of a
network without inputs begins with a comma (`C49_violated_header`).
-/

namespace Verif.Io
open Klut (IsLut Built Consistent)

/-- For every table the digits stand for the number whose bit `p` is entry `p` of the table, and this number fits into as many
bits as the table has. -/
theorem C49_init (f : TT) (h : f.WF) : ∃ w, readHex (toHex f) = some w ∧ w < 2 ^ 2 ^ f.n ∧ ∀ p, p < 2 ^ f.n → w.testBit p = f.get p := by
  refine ⟨_, readHex_toHex f h, ?_, fun p _ => testBit_bitsNat _ _⟩
  have := bitsNat_lt f.bits
  unfold TT.WF at h
  rwa [h] at this

example : toHex (TT.ofFn 3 fun p => (0xe8 : Nat).testBit p) = "e8".toList ∧ toHex (TT.ofFn 1 fun p => p == 1) = "2".toList := by
  decide +kernel

/-- the names the reader hands over, as in `FromReader` -/
structure LutNames (ps : Params) (N : Klut) : Prop where
  inputs : ps.inputNames = [] ∨ ps.inputNames.length = N.numPis
  outputs : ps.outputNames = [] ∨ ps.outputNames.length = N.numPos
  names : ∀ t ∈ ps.inputNames ++ ps.outputNames, ∃ name : Text, ' ' ∉ name ∧ t = toEscaped name

/-- no registers, and no LUT with a constant fanin -/
structure Writable (N : Klut) : Prop where
  inputs : N.inputs.length = N.numPis
  outputs : N.outputs.length = N.numPos
  fanins : ∀ n cs f, N.IsLut n cs f → ∀ c ∈ cs, 2 ≤ c

theorem lutInputTexts_length {ps : Params} {N : Klut} (h : LutNames ps N) (hw : Writable N) : (lutInputTexts ps N).length = N.numPis := by
  unfold lutInputTexts
  split
  · rw [List.length_map, List.length_take, hw.inputs, Nat.min_self]
  · rename_i hne
    exact h.inputs.resolve_left hne

theorem lutOutputTexts_length {ps : Params} {N : Klut} (h : LutNames ps N) : (lutOutputTexts ps N).length = N.numPos := by
  unfold lutOutputTexts
  split
  · simp
  · rename_i hne
    exact h.outputs.resolve_left hne

theorem lut_name {ps : Params} {N : Klut} (h : LutNames ps N) {t : Text} (ht : t ∈ ps.inputNames ++ ps.outputNames) :
    readAtom t = .id (ident t) ∧ t ≠ [] := by
  obtain ⟨name, hb, rfl⟩ := h.names t ht
  exact ⟨by rw [readAtom_toEscaped hb, ident_toEscaped hb], toEscaped_ne_nil name⟩

theorem lut_input {ps : Params} {N : Klut} (h : LutNames ps N) {t : Text} (ht : t ∈ lutInputTexts ps N) :
    readAtom t = .id (ident t) ∧ t ≠ [] := by
  unfold lutInputTexts at ht
  split at ht
  · obtain ⟨i, _, rfl⟩ := List.mem_map.1 ht
    exact ⟨by rw [readAtom_wrapped, ident_wrapped], wrapped_ne_nil _ _⟩
  · exact lut_name h (List.mem_append_left _ ht)

theorem lut_output {ps : Params} {N : Klut} (h : LutNames ps N) {t : Text} (ht : t ∈ lutOutputTexts ps N) :
    readAtom t = .id (ident t) ∧ t ≠ [] := by
  unfold lutOutputTexts at ht
  split at ht
  · obtain ⟨i, _, rfl⟩ := List.mem_map.1 ht
    exact ⟨by rw [readAtom_wrapped, ident_wrapped], wrapped_ne_nil _ _⟩
  · exact lut_name h (List.mem_append_right _ ht)

/-- The writer finishes. -/
theorem C49_defined_partial (N : Klut) (hN : Built N) (hw : Writable N) (ps : Params) (h : LutNames ps N) :
    ∃ M, writeLut ps N = some M := by
  obtain ⟨M, e, _⟩ := writeLut_spec hN hw.inputs hw.outputs hw.fanins ps (lutInputTexts_length h hw) (lutOutputTexts_length h)
  exact ⟨M, e⟩

theorem lutWritten {N : Klut} (hN : Built N) (hw : Writable N) {ps : Params} (h : LutNames ps N) {M : LutModule}
    (e : writeLut ps N = some M) : LutWritten N (lutInputTexts ps N) (lutOutputTexts ps N) M := by
  obtain ⟨M', e', w⟩ := writeLut_spec hN hw.inputs hw.outputs hw.fanins ps (lutInputTexts_length h hw) (lutOutputTexts_length h)
  rw [e] at e'
  cases e'
  exact w

/-- The given names are distinct identifiers and not of the forms the writer makes up. -/
structure LutNoClash (ps : Params) (N : Klut) : Prop where
  nodup : ((ps.inputNames ++ ps.outputNames).map ident).Nodup
  wires : ∀ t ∈ ps.inputNames ++ ps.outputNames, ∀ n < N.nodes.length, ident t ≠ wrapped 'w' n
  instances : ∀ t ∈ ps.inputNames ++ ps.outputNames, ∀ n < N.nodes.length, ident t ≠ instName n
  inputs : ps.inputNames = [] → ∀ t ∈ ps.outputNames, ∀ n ∈ N.inputs, ident t ≠ wrapped 'i' n
  outputs : ps.outputNames = [] → ∀ t ∈ ps.inputNames, ∀ i < N.numPos, ident t ≠ wrapped 'o' i

theorem wrapped_nodup (c : Char) {l : List Nat} (hl : l.Nodup) : ((l.map (wrapped c)).map ident).Nodup := by
  rw [List.map_map]
  apply List.Nodup.map _ hl
  intro a b hab
  simp only [Function.comp, ident_wrapped] at hab
  exact wrapped_inj hab

theorem luts_length {N : Klut} (m : Nat → Option Text) : ∀ (l : List Nat) (ws : List Nat) (k : Nat) (r : List LutInst) (ws' : List Nat),
    writeLuts N m l ws k = some (r, ws') → r.length ≤ l.length := by
  intro l
  induction l with
  | nil => intro ws k r ws' h; rw [writeLuts] at h; cases h; simp
  | cons n l ih =>
    intro ws k r ws' h
    rw [writeLuts] at h
    split at h
    · have := ih _ _ _ _ h
      simp only [List.length_cons]
      omega
    · split at h
      · split at h
        · cases h
        · rename_i e
          cases h
          have := ih _ _ _ _ e
          simp only [List.length_cons]
          omega
      · cases h

theorem writeLut_length {N : Klut} {ps : Params} {M : LutModule} (e : writeLut ps N = some M) : M.luts.length ≤ N.nodes.length := by
  unfold writeLut at e
  dsimp only at e
  split at e
  · cases e
  · split at e
    · cases e
    · rename_i h
      split at e
      · cases e
      · cases e
        have := luts_length _ _ _ _ _ _ h
        rwa [List.length_range] at this

/-- Every port, every LUT output and every LUT instance gets its own identifier if the given names do not collide. -/
theorem C49_distinct_partial (N : Klut) (hN : Built N) (hw : Writable N) (ps : Params) (h : LutNames ps N) (hcl : LutNoClash ps N)
    (M : LutModule) (e : writeLut ps N = some M) : M.declared.Nodup := by
  have w := lutWritten hN hw h e
  have hlen := writeLut_length e
  unfold LutModule.declared
  have hn := hcl.nodup
  rw [List.map_append, List.nodup_append] at hn
  obtain ⟨n1, n2, n3⟩ := hn
  have hin : ∀ s ∈ lutInputTexts ps N, (∀ n < N.nodes.length, ident s ≠ wrapped 'w' n) ∧ ∀ k < N.nodes.length, ident s ≠ instName k := by
    intro s hs
    unfold lutInputTexts at hs
    split at hs
    · obtain ⟨i, _, rfl⟩ := List.mem_map.1 hs
      rw [ident_wrapped]
      exact ⟨fun n _ => wrapped_ne (by decide) _ _, fun k _ => wrapped_ne_inst _ _ _⟩
    · exact ⟨hcl.wires s (List.mem_append_left _ hs), hcl.instances s (List.mem_append_left _ hs)⟩
  have hout : ∀ s ∈ lutOutputTexts ps N, (∀ n < N.nodes.length, ident s ≠ wrapped 'w' n) ∧ ∀ k < N.nodes.length, ident s ≠ instName k := by
    intro s hs
    unfold lutOutputTexts at hs
    split at hs
    · obtain ⟨i, _, rfl⟩ := List.mem_map.1 hs
      rw [ident_wrapped]
      exact ⟨fun n _ => wrapped_ne (by decide) _ _, fun k _ => wrapped_ne_inst _ _ _⟩
    · exact ⟨hcl.wires s (List.mem_append_right _ hs), hcl.instances s (List.mem_append_right _ hs)⟩
  rw [w.inputs, w.outputs, w.wires, w.names, List.nodup_append]
  refine ⟨?_, List.Nodup.map (fun a b hab => instName_inj hab) List.nodup_range, ?_⟩
  · rw [List.map_append, List.nodup_append]
    refine ⟨?_, wrapped_nodup _ (List.Nodup.filter _ List.nodup_range), ?_⟩
    · rw [List.map_append, List.nodup_append]
      refine ⟨?_, ?_, ?_⟩
      · unfold lutInputTexts
        split
        · exact wrapped_nodup _ (List.Nodup.sublist (List.take_sublist _ _) hN.wf.inputsNodup)
        · exact n1
      · unfold lutOutputTexts
        split
        · exact wrapped_nodup _ List.nodup_range
        · exact n2
      · intro a ha b hb
        obtain ⟨s, hs, rfl⟩ := List.mem_map.1 ha
        obtain ⟨t, ht, rfl⟩ := List.mem_map.1 hb
        unfold lutInputTexts at hs
        unfold lutOutputTexts at ht
        split at hs
        · rename_i hx
          obtain ⟨i, hi, rfl⟩ := List.mem_map.1 hs
          rw [ident_wrapped]
          split at ht
          · obtain ⟨j, hj, rfl⟩ := List.mem_map.1 ht
            rw [ident_wrapped]
            exact wrapped_ne (by decide) _ _
          · exact (hcl.inputs hx t ht i (List.mem_of_mem_take hi)).symm
        · split at ht
          · rename_i hy
            obtain ⟨j, hj, rfl⟩ := List.mem_map.1 ht
            rw [List.mem_range] at hj
            rw [ident_wrapped]
            exact hcl.outputs hy s hs j hj
          · exact n3 _ (List.mem_map.2 ⟨s, hs, rfl⟩) _ (List.mem_map.2 ⟨t, ht, rfl⟩)
    · intro a ha b hb
      obtain ⟨s, hs, rfl⟩ := List.mem_map.1 ha
      obtain ⟨t, ht, rfl⟩ := List.mem_map.1 hb
      obtain ⟨n, hn, rfl⟩ := List.mem_map.1 ht
      have hn := List.mem_range.1 (List.mem_of_mem_filter hn)
      rw [ident_wrapped]
      rcases List.mem_append.1 hs with hs | hs
      · exact (hin s hs).1 n hn
      · exact (hout s hs).1 n hn
  · intro a ha b hb
    obtain ⟨s, hs, rfl⟩ := List.mem_map.1 ha
    obtain ⟨k, hk, rfl⟩ := List.mem_map.1 hb
    have hk := List.mem_range.1 hk
    rcases List.mem_append.1 hs with hs | hs
    · rcases List.mem_append.1 hs with hs | hs
      · exact (hin s hs).2 k (by omega)
      · exact (hout s hs).2 k (by omega)
    · obtain ⟨n, _, rfl⟩ := List.mem_map.1 hs
      rw [ident_wrapped]
      exact wrapped_ne_inst _ _ _

/-- text of a node under values that agree with the network on the ports and on this LUT -/
theorem val_textOf {N : Klut} (hw : Writable N) {ps : Params} (h : LutNames ps N) {x v : Nat → Bool} (hv : N.Consistent x v)
    {env : Text → Bool} (hx : ∀ (i : Nat) t, (lutInputTexts ps N)[i]? = some t → env (ident t) = x i) (n : Nat)
    (hg : n ∉ N.inputs → env (wrapped 'w' n) = v n) :
    (readAtom (textOf N (lutInputTexts ps N) n)).val env = v n ∧ textOf N (lutInputTexts ps N) n ≠ [] := by
  unfold textOf
  by_cases hi : n ∈ N.inputs
  · rw [if_pos hi]
    have hk := List.getElem?_idxOf hi
    have hlt : N.inputs.idxOf n < (lutInputTexts ps N).length := by
      rw [lutInputTexts_length h hw, ← hw.inputs]
      exact List.idxOf_lt_length_of_mem hi
    have ht := List.getElem?_eq_getElem hlt
    have hr := lut_input h (List.getElem_mem hlt)
    rw [ht, Option.getD_some, hr.1, Atom.val, hx _ _ ht, hv.input _ n hk]
    exact ⟨rfl, hr.2⟩
  · rw [if_neg hi, readAtom_wrapped, Atom.val, hg hi]
    exact ⟨rfl, wrapped_ne_nil _ _⟩

theorem val_outText {N : Klut} {xs : List Text} {x v : Nat → Bool} (hv : N.Consistent x v) {env : Text → Bool} (s : Nat)
    (hg : 2 ≤ s → (readAtom (textOf N xs s)).val env = v s ∧ textOf N xs s ≠ []) :
    (readAtom (outText N xs s)).val env = v s ∧ outText N xs s ≠ [] := by
  unfold outText
  by_cases h2 : s < 2
  · rw [if_pos h2]
    rcases (by omega : s = 0 ∨ s = 1) with rfl | rfl
    · rw [show readAtom ("1'b".toList ++ dec 0) = .const false by decide, hv.const0]
      exact ⟨rfl, by decide⟩
    · rw [show readAtom ("1'b".toList ++ dec 1) = .const true by decide, hv.const1]
      exact ⟨rfl, by decide⟩
  · rw [if_neg h2]
    exact hg (by omega)

/-- The netlist denotes the network: if the declared identifiers are distinct, then for all values `x` of the inputs there are
values of the identifiers that agree with all LUTs and assignments, and whatever these are, output `j` has the value the network
computes. -/
theorem C49_denotes_partial (N : Klut) (hN : Built N) (hw : Writable N) (ps : Params) (h : LutNames ps N) (M : LutModule)
    (e : writeLut ps N = some M) (x v : Nat → Bool) (hv : N.Consistent x v) :
    (∀ env, M.Run x env → ∀ (j : Nat) o, N.outputs[j]? = some o → ∃ t, M.outputs[j]? = some t ∧ env (ident t) = v o) ∧
    (M.declared.Nodup → ∃ env, M.Run x env) := by
  have w := lutWritten hN hw h e
  constructor
  · intro env hrun j o ho
    have hx : ∀ (i : Nat) t, (lutInputTexts ps N)[i]? = some t → env (ident t) = x i := by
      intro i t ht
      exact hrun.inputs i t (by rw [w.inputs]; exact ht)
    have hgate : ∀ n, n < N.nodes.length → 2 ≤ n → n ∉ N.inputs → env (wrapped 'w' n) = v n := by
      intro n
      induction n using Nat.strong_induction_on with
      | _ n ih =>
        intro hlt h2 hi
        have hnd : N.nodes[n]? = some N.nodes[n] := List.getElem?_eq_getElem hlt
        obtain ⟨_, _, f, hf, _, _⟩ := hN.wf.gate n _ hnd h2 hi
        have hlut : N.IsLut n (N.nodes[n]).children f := ⟨h2, hi, _, hnd, rfl, hf⟩
        have hlow := (hN.wf.lut hlut).2.2.1
        obtain ⟨k, hk⟩ := w.lut _ _ _ hlut
        have hpin : ∀ c ∈ (N.nodes[n]).children, (readAtom (textOf N (lutInputTexts ps N) c)).val env = v c ∧ textOf N (lutInputTexts ps N) c ≠ [] := by
          intro c hc
          have := hlow c hc
          exact val_textOf hw h hv hx c (ih c this (by omega) (hw.fanins _ _ _ hlut c hc))
        rw [(instOf_holds hN _ k n _ f hlut v env (fun c hc => (hpin c hc).2) (fun c hc => (hpin c hc).1)).1 (hrun.luts _ hk),
          hv.lut _ _ _ hlut]
    have hj : j < (lutOutputTexts ps N).length := by
      rw [lutOutputTexts_length h, ← hw.outputs]
      exact Klut.lt_of_get ho
    have hy := List.getElem?_eq_getElem hj
    refine ⟨_, by rw [w.outputs]; exact hy, ?_⟩
    obtain ⟨t, h1, h2⟩ := hrun.assigns _ ((w.assigns _).2 ⟨j, o, _, ho, hy, rfl⟩)
    dsimp only at h1 h2
    rw [(lut_output h (List.getElem_mem hj)).1] at h1
    cases h1
    have hval := val_outText (xs := lutInputTexts ps N) hv (env := env) o (fun h2 => val_textOf hw h hv hx o (hgate o (hN.wf.outputs o (List.mem_of_getElem? ho)) h2))
    rw [← h2 hval.2, hval.1]
  · intro hd
    replace hd : ((M.inputs ++ M.outputs ++ M.wires).map ident).Nodup := (List.nodup_append.1 hd).1
    let gs := (List.range N.nodes.length).filter (isWire N)
    let D := (M.inputs ++ M.outputs ++ M.wires).map ident
    let V : List Bool := N.inputs.map v ++ N.outputs.map v ++ gs.map v
    have hD : D = (lutInputTexts ps N).map ident ++ (lutOutputTexts ps N).map ident ++ gs.map (wrapped 'w') := by
      simp only [D]
      rw [w.inputs, w.outputs, w.wires, List.map_append, List.map_append, List.map_map]
      congr 1
    have lx : ((lutInputTexts ps N).map ident).length = (N.inputs.map v).length := by
      rw [List.length_map, List.length_map, lutInputTexts_length h hw, hw.inputs]
    have ly : ((lutOutputTexts ps N).map ident).length = (N.outputs.map v).length := by
      rw [List.length_map, List.length_map, lutOutputTexts_length h, hw.outputs]
    have hl : D.length = V.length := by
      rw [hD]
      simp only [V, List.length_append, lx, ly, List.length_map]
    refine ⟨fun t => ((D.zip V).lookup t).getD false, ?_⟩
    have key := lookup_zip D V hd hl
    have hx : ∀ (i : Nat) t, (lutInputTexts ps N)[i]? = some t → ((D.zip V).lookup (ident t)).getD false = x i := by
      intro i t ht
      have hi : i < N.inputs.length := by
        rw [hw.inputs, ← lutInputTexts_length h hw]
        exact Klut.lt_of_get ht
      have hn : N.inputs[i]? = some N.inputs[i] := List.getElem?_eq_getElem hi
      rw [← hv.input i _ hn]
      have hi' : i < ((lutInputTexts ps N).map ident).length := by rw [lx, List.length_map]; exact hi
      apply key i
      · rw [hD, List.append_assoc, List.getElem?_append_left hi', List.getElem?_map, ht]
        rfl
      · simp only [V, List.append_assoc]
        rw [List.getElem?_append_left (by rw [List.length_map]; exact hi), List.getElem?_map, hn]
        rfl
    have hy : ∀ (j : Nat) o t, N.outputs[j]? = some o → (lutOutputTexts ps N)[j]? = some t →
        ((D.zip V).lookup (ident t)).getD false = v o := by
      intro j o t ho ht
      have hj : j < N.outputs.length := Klut.lt_of_get ho
      have hj' : j < ((lutOutputTexts ps N).map ident).length := by rw [ly, List.length_map]; exact hj
      apply key (((lutInputTexts ps N).map ident).length + j)
      · rw [hD, List.append_assoc, List.getElem?_append_right (by omega), Nat.add_sub_cancel_left, List.getElem?_append_left hj',
          List.getElem?_map, ht]
        rfl
      · simp only [V, List.append_assoc]
        rw [lx, List.getElem?_append_right (by omega), Nat.add_sub_cancel_left,
          List.getElem?_append_left (by rw [List.length_map]; exact hj), List.getElem?_map, ho]
        rfl
    have hg : ∀ n ∈ gs, ((D.zip V).lookup (wrapped 'w' n)).getD false = v n := by
      intro n hn
      obtain ⟨k, hk⟩ := List.getElem?_of_mem hn
      apply key (((lutInputTexts ps N).map ident ++ (lutOutputTexts ps N).map ident).length + k)
      · rw [hD, List.getElem?_append_right (by omega), Nat.add_sub_cancel_left, List.getElem?_map, hk]
        rfl
      · simp only [V]
        rw [List.length_append, lx, ly, ← List.length_append, List.getElem?_append_right (by omega), Nat.add_sub_cancel_left,
          List.getElem?_map, hk]
        rfl
    have hnode : ∀ n, n < N.nodes.length → 2 ≤ n →
        (readAtom (textOf N (lutInputTexts ps N) n)).val (fun t => ((D.zip V).lookup t).getD false) = v n ∧
          textOf N (lutInputTexts ps N) n ≠ [] := by
      intro n hn h2
      apply val_textOf hw h hv hx
      intro hi
      exact hg n (List.mem_filter.2 ⟨List.mem_range.2 hn, isWire_iff.2 ⟨h2, hi⟩⟩)
    refine ⟨?_, ?_, ?_⟩
    · intro i t ht
      rw [w.inputs] at ht
      exact hx i t ht
    · intro l hlm
      obtain ⟨k, n, cs, f, hlut, rfl⟩ := w.luts l hlm
      have hlt := hN.wf.lut hlut
      have hpin : ∀ c ∈ cs, _ := fun c hc => hnode c (Nat.lt_trans (hlt.2.2.1 c hc) hlt.1) (hw.fanins _ _ _ hlut c hc)
      rw [instOf_holds hN _ k n cs f hlut v _ (fun c hc => (hpin c hc).2) (fun c hc => (hpin c hc).1), ← hv.lut _ _ _ hlut]
      exact hg n (List.mem_filter.2 ⟨List.mem_range.2 hlt.1, isWire_iff.2 ⟨hlut.1, hlut.2.1⟩⟩)
    · intro a ha
      obtain ⟨j, s, t, ho, ht, rfl⟩ := (w.assigns a).1 ha
      refine ⟨ident t, (lut_output h (List.mem_of_getElem? ht)).1, fun _ => ?_⟩
      rw [hy j s t ho ht]
      exact (val_outText hv s (hnode s (hN.wf.outputs s (List.mem_of_getElem? ho)))).1

/-- With default names nothing can collide. If there is an input, the port list is the list of all ports, separated by commas. -/
theorem C49_default_partial (N : Klut) (hN : Built N) (hw : Writable N) :
    ∃ M, writeLut ⟨[], []⟩ N = some M ∧ M.declared.Nodup ∧ (∀ x v, N.Consistent x v → (∃ env, M.Run x env) ∧
      ∀ env, M.Run x env → ∀ (j : Nat) o, N.outputs[j]? = some o → ∃ t, M.outputs[j]? = some t ∧ env (ident t) = v o) ∧
      (0 < N.numPis → M.header = List.intercalate ", ".toList (M.inputs ++ M.outputs)) := by
  have h : LutNames ⟨[], []⟩ N := ⟨Or.inl rfl, Or.inl rfl, by simp⟩
  have hcl : LutNoClash ⟨[], []⟩ N := ⟨by simp, by simp, by simp, by simp, by simp⟩
  obtain ⟨M, e⟩ := C49_defined_partial N hN hw _ h
  have hd := C49_distinct_partial N hN hw _ h hcl M e
  refine ⟨M, e, hd, fun x v hv => ?_, fun h0 => ?_⟩
  · have := C49_denotes_partial N hN hw _ h M e x v hv
    exact ⟨this.2 hd, this.1⟩
  · have w := lutWritten hN hw h e
    rw [w.header, w.inputs, w.outputs]
    have hlen := lutInputTexts_length h hw
    generalize lutInputTexts ⟨[], []⟩ N = xs at hlen
    generalize lutOutputTexts ⟨[], []⟩ N = ys
    cases xs with
    | nil => simp only [List.length_nil] at hlen; omega
    | cons t l =>
      unfold header
      rw [List.append_assoc, ← List.flatMap_append, List.cons_append]
      generalize l ++ ys = r
      clear hlen
      induction r generalizing t with
      | nil => simp [List.intercalate]
      | cons u r ih =>
        rw [List.intercalate, List.intersperse_cons_cons, List.flatten_cons, List.flatten_cons, List.flatMap_cons]
        have := ih u
        rw [List.intercalate] at this
        rw [← this]
        rfl

/-! ### Examples and counterexamples -/

/-- two inputs, a LUT `a & b`, a LUT `!(a & b) | b` and both as outputs -/
def lN : Klut := (((((Klut.empty.createPi.1).createPi.1).createAnd 2 3).1.createLe 4 3).1.createPo 4).createPo 5

theorem lN_built : Built lN :=
  .po (.po (.le (.and (.pi (.pi .empty)) (by decide +kernel) (by decide +kernel)) (by decide +kernel) (by decide +kernel)) (by decide +kernel)) (by decide +kernel)

theorem writable_of {N : Klut} (h1 : N.inputs.length = N.numPis) (h2 : N.outputs.length = N.numPos)
    (h3 : (List.range N.nodes.length).all (fun n => match N.nodes[n]? with
      | some nd => nd.children.all fun c => decide (2 ≤ c)
      | none => true) = true) : Writable N := by
  refine ⟨h1, h2, ?_⟩
  rintro n cs f ⟨_, _, nd, hnd, rfl, _⟩ c hc
  have := List.all_eq_true.1 h3 n (List.mem_range.2 (Klut.lt_of_get hnd))
  rw [hnd] at this
  have := List.all_eq_true.1 this c hc
  simpa using this

example : Writable lN := writable_of (by decide +kernel) (by decide +kernel) (by decide +kernel)

example : writeLut ⟨[], []⟩ lN = some ⟨"_i2_, _i3_, _o0_, _o1_".toList, ["_i2_".toList, "_i3_".toList], ["_o0_".toList, "_o1_".toList],
    ["_w4_".toList, "_w5_".toList], [⟨"name0".toList, 4, "8".toList, ["_i2_".toList, "_i3_".toList], "_w4_".toList⟩,
      ⟨"name1".toList, 4, "d".toList, ["_w4_".toList, "_i3_".toList], "_w5_".toList⟩],
    [("_o0_".toList, "_w4_".toList), ("_o1_".toList, "_w5_".toList)]⟩ := by decide +kernel

/-- one input and the LUT `a & 1` -/
def lConst : Klut := ((Klut.empty.createPi.1).createAnd 2 1).1.createPo 3

theorem lConst_built : Built lConst := .po (.and (.pi .empty) (by decide +kernel) (by decide +kernel)) (by decide +kernel)

/-- The claim fails for a LUT with a constant fanin: its pin is left open, so with `a = 1` the output may be 0. -/
theorem C49_violated_constant : ∃ (N : Klut) (M : LutModule) (x v : Nat → Bool) (env : Text → Bool), Built N ∧
    N.inputs.length = N.numPis ∧ N.outputs.length = N.numPos ∧ writeLut ⟨[], []⟩ N = some M ∧ M.declared.Nodup ∧ N.Consistent x v ∧
    M.Run x env ∧ ∃ o t, N.outputs[0]? = some o ∧ M.outputs[0]? = some t ∧ env (ident t) ≠ v o := by
  obtain ⟨v, hv⟩ := lConst_built.wf.exists (fun _ => true)
  have hM : writeLut ⟨[], []⟩ lConst = some ⟨"_i2_, _o0_".toList, ["_i2_".toList], ["_o0_".toList], ["_w3_".toList],
    [⟨"name0".toList, 4, "8".toList, ["_i2_".toList, []], "_w3_".toList⟩], [("_o0_".toList, "_w3_".toList)]⟩ := by decide +kernel
  have hl : lConst.IsLut 3 [2, 1] (Klut.ofWord 2 0x8) :=
    ⟨by decide +kernel, by decide +kernel, (lConst.nodes[3]?).getD { children := [], fn := 0 }, by decide +kernel, by decide +kernel, by decide +kernel⟩
  have hv3 : v 3 = true := by
    rw [hv.lut _ _ _ hl]
    have h2 : v 2 = true := hv.input 0 2 (by decide +kernel)
    have : Klut.args v [2, 1] = fun j => decide (j < 2) := by
      funext j
      match j with
      | 0 => exact h2
      | 1 => exact hv.const1
      | _ + 2 => rfl
    rw [this]
    decide +kernel
  refine ⟨lConst, _, fun _ => true, v, fun t => t == "_i2_".toList, lConst_built, by decide +kernel, by decide +kernel, hM, by decide +kernel,
    hv, ⟨?_, ?_, ?_⟩, 3, "_o0_".toList, by decide +kernel, by decide +kernel, by rw [hv3]; decide +kernel⟩
  · intro i t ht
    match i with
    | 0 => cases ht; decide +kernel
    | _ + 1 => simp at ht
  · intro l hm
    simp only [List.mem_singleton] at hm
    subst hm
    refine ⟨8, [true, false], "_w3_".toList, by decide +kernel, rfl, rfl, ?_, by decide +kernel, by decide +kernel⟩
    intro j p b hp hb
    match j with
    | 0 => cases hp; cases hb; intro _; decide +kernel
    | 1 => cases hp; exact fun h => absurd rfl h
    | _ + 2 => simp at hp
  · intro a ha
    simp only [List.mem_singleton] at ha
    subst ha
    exact ⟨"_o0_".toList, by decide +kernel, fun _ => by decide +kernel⟩

/-- a register output as output of the network -/
def lReg : Klut := ((Klut.empty.createPi.1).createRo.1).createPo 3

/-- The claim fails for registers: a register output is written as a LUT without pins, which is constant. -/
theorem C49_violated_registers : ∃ (N : Klut) (M : LutModule) (x v : Nat → Bool), Built N ∧ writeLut ⟨[], []⟩ N = some M ∧
    N.Consistent x v ∧ ∀ env, M.Run x env → ∃ o t, N.outputs[0]? = some o ∧ M.outputs[0]? = some t ∧ env (ident t) ≠ v o := by
  have hb : Built lReg := .po (.ro (.pi .empty)) (by decide +kernel)
  obtain ⟨v, hv⟩ := hb.wf.exists (fun _ => true)
  have hM : writeLut ⟨[], []⟩ lReg = some ⟨"_i2_, _o0_".toList, ["_i2_".toList], ["_o0_".toList], ["_w3_".toList],
    [⟨"name0".toList, 1, "2".toList, [], "_w3_".toList⟩], [("_o0_".toList, "_w3_".toList)]⟩ := by decide +kernel
  refine ⟨lReg, _, fun _ => true, v, hb, hM, hv, fun env hr => ⟨3, "_o0_".toList, by decide +kernel, by decide +kernel, ?_⟩⟩
  have hv3 : v 3 = true := hv.input 1 3 (by decide +kernel)
  obtain ⟨w, bs, t, h1, _, h3, _, h5, h6⟩ := hr.luts _ (List.mem_cons_self ..)
  obtain ⟨t', g1, g2⟩ := hr.assigns _ (List.mem_cons_self ..)
  have r1 : readHex "2".toList = some 2 := by decide +kernel
  have r2 : readAtom "_w3_".toList = .id "_w3_".toList := by decide +kernel
  have r3 : readAtom "_o0_".toList = .id "_o0_".toList := by decide +kernel
  have r4 : ident "_o0_".toList = "_o0_".toList := by decide +kernel
  rw [r1] at h1
  cases h1
  rw [List.length_nil, List.length_eq_zero_iff] at h3
  subst h3
  rw [r2] at h5
  cases h5
  rw [r3] at g1
  cases g1
  have := g2 (by decide +kernel)
  dsimp only at this
  rw [r2, Atom.val, h6] at this
  rw [r4, hv3, ← this]
  decide +kernel

/-- An input called `_w4_` collides with the wire of LUT 4, one called `name0` with an instance. -/
theorem C49_violated_clash : ∃ (N : Klut) (ps : Params), Built N ∧ Writable N ∧ LutNames ps N ∧ ps.inputNames.Nodup ∧
    ∃ M, writeLut ps N = some M ∧ ¬ M.declared.Nodup ∧ ¬ (M.wires.map ident).Disjoint (M.inputs.map ident) ∧
      ¬ (M.luts.map (·.name)).Disjoint (M.inputs.map ident) := by
  refine ⟨lN, ⟨[toEscaped "_w4_".toList, toEscaped "name0".toList], []⟩, lN_built,
    writable_of (by decide +kernel) (by decide +kernel) (by decide +kernel), ⟨by decide +kernel, by decide +kernel, ?_⟩, by decide +kernel,
    (writeLut ⟨[toEscaped "_w4_".toList, toEscaped "name0".toList], []⟩ lN).getD ⟨[], [], [], [], [], []⟩,
    by decide +kernel, by decide +kernel, ?_, ?_⟩
  · intro t ht
    fin_cases ht
    · exact ⟨"_w4_".toList, by decide, rfl⟩
    · exact ⟨"name0".toList, by decide, rfl⟩
  · intro h
    exact @h "_w4_".toList (by decide +kernel) (by decide +kernel)
  · intro h
    exact @h "name0".toList (by decide +kernel) (by decide +kernel)

/-- The port list of a network without inputs begins with a comma. -/
theorem C49_violated_header : ∃ N : Klut, Built N ∧ Writable N ∧ ∃ M, writeLut ⟨[], []⟩ N = some M ∧ M.header = ", _o0_".toList :=
  ⟨Klut.empty.createPo 1, .po .empty (by decide +kernel), writable_of (by decide +kernel) (by decide +kernel) (by decide +kernel),
    (writeLut ⟨[], []⟩ (Klut.empty.createPo 1)).getD ⟨[], [], [], [], [], []⟩, by decide +kernel, by decide +kernel⟩

end Verif.Io
