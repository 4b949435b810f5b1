import Verif.Cli.Fpga
import Verif.Props.C17
import Verif.Props.C25
import Verif.Props.C26
import Verif.Props.C28
import Verif.Props.C53
import Verif.Props.C57
import Verif.Props.C87

set_option autoImplicit false

/-!
# C88: what the shell writes denotes the last design read

Full statement: in every session of the shell, `write_fpga` after `map_fpga` writes a netlist of LUTs that denotes the design read last; so do `write_primary` and `write_aiger`.

`C88_partial` proves this for everything after the last `read_aiger`, whatever was done before, for combinational designs with at least one input and port names that do not look like made-up ones,
mappings without choices and any commands that replace the current AIG by an equivalent one. LUT networks of earlier designs are never written. The same for the other
writers is `C88_primary_partial` and `C88_aiger_partial`. After a file that cannot be read an empty module is
written (`C88_violated_unread`).
-/

namespace Verif.Cli.Fpga

open Io Flow.Files Flow.Write

variable {β : Type}

/-! ### specification -/

/-- What may happen after a design `N` was read: commands that give an AIG with the interface and functions of `N`, `map_fpga` with a sensible number of cuts, and `write_fpga`. -/
def Keeps (N : Aig) : Cmd β → Prop
  | .read _ _ _ => False
  | .change A => Like N A
  | .map o _ _ => o.prioritySize ≤ 11
  | .write => True
  | .primary => True
  | .aiger => True

/-- a `map_fpga` with options in the documented ranges -/
def Maps : Cmd β → Prop
  | .map o _ _ => o.params ≠ none
  | _ => False

/-! ### proofs -/

/-- state after a design was read -/
structure Holding (N : Aig) (ps : Params) (s : St) : Prop where
  aig : ∃ A, s.aig = some A ∧ Like N A
  luts : ∀ K, s.luts = some K → Collapse.Equiv N K ∧ NoConstants K
  names : s.names = some ps

theorem mapFpga_far {o : Mapper.Options} (hprio : o.prioritySize ≤ 11) {N : Aig} (hN : N.Built) (hpi : N.inputs.length = N.numPis) (hpo : N.outputs.length = N.numPos)
    {H : Nat → Nat → Mapper.Heur β} {cost : β} {K : Klut} (e : Mapper.mapFpga o N H cost = some (some K)) : NoConstants K := by
  unfold Mapper.mapFpga at e
  cases ho : o.params with
  | none => rw [ho] at e; cases e
  | some p =>
    rw [ho] at e
    dsimp only at e
    obtain ⟨hp, _⟩ := Mapper.params_ok ho hprio
    split at e
    · cases e
    rename_i M em
    split at e
    · rename_i K' ek
      obtain rfl := Option.some.inj (Option.some.inj e)
      have hC : Mapper.NoChoice (Choice.init N N.nodes.length) := rfl
      have hg := Mapper.C36_partial p N hN hpo.symm hp H cost M em
      refine C87_no_constants_partial p (Choice.init N N.nodes.length) hN hpi hpo hC.ordered hC.sound hp H cost M em ?_ K' ek
      rintro n ⟨hr, hc⟩
      obtain ⟨cs, f, h1, _, _, _, h2, _⟩ := hg.1.cell n hr
      obtain rfl := Option.some.inj (hc.symm.trans h1)
      exact (h2 n (by simp)).2.1 rfl
    · cases e

theorem equiv_of_like {N A : Aig} {K : Klut} (hA : Like N A) (hN : N.inputs.length = N.numPis) (hpo : N.outputs.length = N.numPos) (h : Collapse.Equiv A K) : Collapse.Equiv N K := by
  refine ⟨h.built, by rw [h.numPis, hA.numPis], by rw [h.inputs, hA.inputs, hA.numPis, hN], by rw [h.numPos, hA.numPos], by rw [h.outputs, hA.outputs, hA.numPos, hpo], fun x v v' hv hv' => ?_⟩
  have hc := hA.built.wf.consistent_value x
  rw [h.val x _ v' hc hv', hA.val x v _ hv hc]

theorem Holding.step {N : Aig} {ps : Params} {s s' : St} (hN : N.inputs.length = N.numPis) (hpo : N.outputs.length = N.numPos) (h : Holding N ps s) {c : Cmd β} (hc : Keeps N c)
    (e : step s c = some s') : Holding N ps s' ∧ (s.luts ≠ none ∨ Maps c → s'.luts ≠ none) := by
  obtain ⟨A, hA, hl⟩ := h.aig
  cases c with
  | read d p n => exact hc.elim
  | change B =>
    obtain rfl := Option.some.inj e
    unfold change
    rw [hA, if_neg (by simp)]
    exact ⟨⟨⟨B, rfl, hc⟩, h.luts, h.names⟩, fun q => q.elim id False.elim⟩
  | map o H cost =>
    have e' : map s o H cost = some s' := e
    unfold map at e'
    rw [hA] at e'
    dsimp only at e'
    split at e'
    · cases e'
    · rename_i em
      obtain rfl := Option.some.inj e'
      refine ⟨h, fun q => q.elim id fun q => absurd ?_ q⟩
      exact (Mapper.C53_partial o hc A hl.built hl.inputs hl.outputs H cost none em).1.1 rfl
    · rename_i K em
      obtain rfl := Option.some.inj e'
      refine ⟨⟨⟨A, rfl, hl⟩, fun K' hK => ?_, h.names⟩, fun _ => by simp⟩
      obtain rfl := Option.some.inj hK
      exact ⟨equiv_of_like hl hN hpo ((Mapper.C53_partial o hc A hl.built hl.inputs hl.outputs H cost (some K) em).2 K rfl).1, mapFpga_far hc hl.built hl.inputs hl.outputs em⟩
  | write =>
    have e' : write s = some s' := e
    unfold write at e'
    split at e'
    · obtain rfl := Option.some.inj e'
      exact ⟨h, fun q => q.elim id False.elim⟩
    · split at e'
      · cases e'
      · obtain rfl := Option.some.inj e'
        exact ⟨⟨⟨A, hA, hl⟩, h.luts, h.names⟩, fun q => q.elim id False.elim⟩
  | primary =>
    have e' : writePrimary s = some s' := e
    unfold writePrimary at e'
    split at e'
    · obtain rfl := Option.some.inj e'
      exact ⟨h, fun q => q.elim id False.elim⟩
    · split at e'
      · cases e'
      · obtain rfl := Option.some.inj e'
        exact ⟨⟨⟨A, hA, hl⟩, h.luts, h.names⟩, fun q => q.elim id False.elim⟩
  | aiger =>
    have e' : writeAiger s = some s' := e
    unfold writeAiger at e'
    split at e'
    · cases e'
    · split at e'
      · cases e'
      · obtain rfl := Option.some.inj e'
        exact ⟨⟨⟨A, hA, hl⟩, h.luts, h.names⟩, fun q => q.elim id False.elim⟩

theorem Holding.run {N : Aig} {ps : Params} (hN : N.inputs.length = N.numPis) (hpo : N.outputs.length = N.numPos) : ∀ (cs : List (Cmd β)) (s s' : St), Holding N ps s →
    (∀ c ∈ cs, Keeps N c) → run cs s = some s' → Holding N ps s' ∧ ((s.luts ≠ none ∨ ∃ c ∈ cs, Maps c) → s'.luts ≠ none) := by
  intro cs
  induction cs with
  | nil =>
    intro s s' h _ e
    obtain rfl := Option.some.inj e
    exact ⟨h, fun q => q.elim id fun ⟨c, hc, _⟩ => absurd hc (List.not_mem_nil)⟩
  | cons c cs ih =>
    intro s s' h hc e
    rw [Fpga.run] at e
    split at e
    · cases e
    rename_i s1 e1
    obtain ⟨h1, m1⟩ := h.step hN hpo (hc c (by simp)) e1
    obtain ⟨h2, m2⟩ := ih s1 s' h1 (fun c' hm => hc c' (List.mem_cons_of_mem _ hm)) e
    refine ⟨h2, fun q => m2 ?_⟩
    rcases q with q | ⟨c', hm, hq⟩
    · exact .inl (m1 (.inl q))
    · rw [List.mem_cons] at hm
      rcases hm with rfl | hm
      · exact .inl (m1 (.inr hq))
      · exact .inr ⟨c', hm, hq⟩

/-- there are LUT networks only if there is an AIG -/
theorem luts_aig : ∀ (cs : List (Cmd β)) (s s' : St), (s.luts ≠ none → s.aig ≠ none) → run cs s = some s' → s'.luts ≠ none → s'.aig ≠ none := by
  intro cs
  induction cs with
  | nil => intro s s' h e; obtain rfl := Option.some.inj e; exact h
  | cons c cs ih =>
    intro s s' h e
    rw [Fpga.run] at e
    split at e
    · cases e
    rename_i s1 e1
    refine ih s1 s' ?_ e
    cases c with
    | read d p n =>
      have e' : read s d p n = some s1 := e1
      unfold read at e'
      split at e'
      · cases e'
      · obtain rfl := Option.some.inj e'
        simp
    | change A =>
      obtain rfl := Option.some.inj e1
      unfold change
      split
      · exact h
      · simp
    | map o H cost =>
      have e' : map s o H cost = some s1 := e1
      unfold map at e'
      split at e'
      · obtain rfl := Option.some.inj e'; exact h
      · rename_i hs
        split at e'
        · cases e'
        · obtain rfl := Option.some.inj e'; exact h
        · obtain rfl := Option.some.inj e'
          dsimp only
          rw [hs]; simp
    | write =>
      have e' : write s = some s1 := e1
      unfold write at e'
      split at e'
      · obtain rfl := Option.some.inj e'; exact h
      · split at e'
        · cases e'
        · obtain rfl := Option.some.inj e'; exact h
    | primary =>
      have e' : writePrimary s = some s1 := e1
      unfold writePrimary at e'
      split at e'
      · obtain rfl := Option.some.inj e'; exact h
      · split at e'
        · cases e'
        · obtain rfl := Option.some.inj e'; exact h
    | aiger =>
      have e' : writeAiger s = some s1 := e1
      unfold writeAiger at e'
      split at e'
      · cases e'
      · split at e'
        · cases e'
        · obtain rfl := Option.some.inj e'; exact h

theorem run_append : ∀ (cs ds : List (Cmd β)) (s s' : St), run (cs ++ ds) s = some s' → ∃ t, run cs s = some t ∧ run ds t = some s' := by
  intro cs
  induction cs with
  | nil => intro ds s s' e; exact ⟨s, rfl, e⟩
  | cons c cs ih =>
    intro ds s s' e
    rw [List.cons_append, Fpga.run] at e
    split at e
    · cases e
    rename_i s1 e1
    obtain ⟨t, h1, h2⟩ := ih ds s1 s' e
    exact ⟨t, by rw [Fpga.run, e1]; exact h1, h2⟩

theorem run_app : ∀ (cs ds : List (Cmd β)) (s s' : St), run cs s = some s' → run (cs ++ ds) s = run ds s' := by
  intro cs
  induction cs with
  | nil => intro ds s s' e; obtain rfl := Option.some.inj e; rfl
  | cons c cs ih =>
    intro ds s s' e
    rw [Fpga.run] at e
    split at e
    · cases e
    rename_i s1 e1
    rw [List.cons_append, Fpga.run, e1]
    exact ih ds s1 s' e

theorem run_snoc : ∀ (cs : List (Cmd β)) (c : Cmd β) (s s' : St), run cs s = some s' → run (cs ++ [c]) s = step s' c := by
  intro cs
  induction cs with
  | nil =>
    intro c s s' e
    obtain rfl := Option.some.inj e
    rw [List.nil_append, Fpga.run]
    cases step s c <;> rfl
  | cons d cs ih =>
    intro c s s' e
    rw [Fpga.run] at e
    split at e
    · cases e
    rename_i s1 e1
    rw [List.cons_append, Fpga.run, e1]
    exact ih c s1 s' e

theorem like_self {N : Aig} (h : N.Built) (hpi : N.inputs.length = N.numPis) (hpo : N.outputs.length = N.numPos) : Like N N :=
  ⟨h, hpi, rfl, hpo, rfl, fun _ _ _ hv hw => List.map_congr_left fun o ho => h.wf.unique_val hw hv (h.wf.outputs o ho)⟩

theorem like_trans {N A D : Aig} (h : Like N A) (h1 : D.Built) (h2 : D.numPis = A.numPis) (h3 : D.inputs.length = A.inputs.length) (h4 : D.numPos = A.numPos)
    (h5 : D.outputs.length = A.outputs.length) (h6 : ∀ x v v', A.Consistent x v → D.Consistent x v' → D.outputs.map (·.val v') = A.outputs.map (·.val v)) : Like N D := by
  refine ⟨h1, by rw [h3, h2, h.inputs], by rw [h2, h.numPis], by rw [h5, h4, h.outputs], by rw [h4, h.numPos], fun x v w hv hw => ?_⟩
  have hc := h.built.wf.consistent_value x
  rw [h6 x _ w hc hw, h.val x v _ hv hc]

theorem after_read {pre post : List (Cmd β)} {disk : Disk} {path : List Char} {ps : Params} {bs : List Aiger.Byte} {N : Aig} (hd : disk path = some bs) (hN : Holds bs N)
    (hk : ∀ c ∈ post, Keeps N c) {s : St} (e : run (pre ++ .read disk path ps :: post) {} = some s) :
    Holding N ps s ∧ ((∃ c ∈ post, Maps c) → s.luts ≠ none) := by
  obtain ⟨g, hpo⟩ := hN.good
  have hpi := Flow.Good.pis g
  obtain ⟨t, e1, e2⟩ := run_append _ _ _ _ e
  have ht := luts_aig pre {} t (by simp) e1
  rw [Fpga.run] at e2
  split at e2
  · cases e2
  rename_i t' e3
  have e4 : read t disk path ps = some t' := e3
  unfold read at e4
  rw [reader_holds hd hN] at e4
  obtain rfl := Option.some.inj e4
  have h0 : Holding N ps { t with aig := some N, luts := if t.aig = none then t.luts else none, names := some ps } := by
    refine ⟨⟨N, rfl, like_self g.built hpi hpo⟩, fun K hK => ?_, rfl⟩
    dsimp only at hK
    split at hK
    · rename_i ha
      cases hl : t.luts with
      | none => rw [hl] at hK; cases hK
      | some K' => exact absurd ha (ht (by rw [hl]; simp))
    · cases hK
  obtain ⟨h1, h2⟩ := h0.run hpi hpo post _ s hk e2
  exact ⟨h1, fun q => h2 (.inr q)⟩

/-! ### the property -/

/-- C88 for everything after the last `read_aiger`: if nothing undefined has happened so far, `write_fpga` comes back. It writes nothing if no LUT network was made of this design, and otherwise a netlist
that denotes the design; there is one if `map_fpga` was called with options in the documented ranges. Missing: registers, designs without inputs, port names that look like made-up ones or contain blanks, more than 11 cuts,
`map_fpga` with choices (C72), `print_stats` (C79), files that cannot be read. -/
theorem C88_partial (pre post : List (Cmd β)) (disk : Disk) (path : List Char) (ps : Params) (bs : List Aiger.Byte) (N : Aig) (hd : disk path = some bs) (hN : Holds bs N)
    (hr : FromReader ps N) (hp : Plain ps) (hk : ∀ c ∈ post, Keeps N c) (s : St) (e : run (pre ++ .read disk path ps :: post) {} = some s) :
    (s.luts = none → step s (.write : Cmd β) = some s) ∧
      (s.luts ≠ none → ∃ m, step s (.write : Cmd β) = some { s with netlist := some m } ∧ Denotes m.declared m.outputs m.Run N) ∧
      ((∃ c ∈ post, Maps c) → s.luts ≠ none) := by
  obtain ⟨g, hpo⟩ := hN.good
  obtain ⟨h, hm⟩ := after_read hd hN hk e
  refine ⟨fun hl => ?_, fun hl => ?_, hm⟩
  · show write s = some s
    unfold write
    rw [hl]
  · obtain ⟨K, hK⟩ := Option.ne_none_iff_exists'.1 hl
    obtain ⟨q1, q2⟩ := h.luts K hK
    obtain ⟨m, em, hden⟩ := luts_denote q1 (Flow.Good.pis g) hpo q2 hr hp
    refine ⟨m, ?_, hden⟩
    show write s = _
    unfold write
    rw [hK, h.names]
    dsimp only
    rw [em]

/-- C88 for `write_primary`: it comes back with a Verilog module that denotes the design read last. The names of the ports are made up, so nothing is asked of the names in the file. Missing: registers,
designs without inputs, files that cannot be read. -/
theorem C88_primary_partial (pre post : List (Cmd β)) (disk : Disk) (path : List Char) (ps : Params) (bs : List Aiger.Byte) (N : Aig) (hd : disk path = some bs) (hN : Holds bs N)
    (hk : ∀ c ∈ post, Keeps N c) (s : St) (e : run (pre ++ .read disk path ps :: post) {} = some s) :
    ∃ m, step s (.primary : Cmd β) = some { s with verilog := some m } ∧ Denotes m.declared m.outputs m.Run N := by
  obtain ⟨⟨A, hA, hl⟩, _, _⟩ := (after_read hd hN hk e).1
  obtain ⟨m, em, h1, h2⟩ := C48_default_partial A hl.built ⟨hl.inputs, hl.outputs⟩ A.nodes.length (Nat.le_refl _)
  refine ⟨m, ?_, h1, fun x v hv => ?_⟩
  · show writePrimary s = _
    unfold writePrimary
    rw [hA]
    dsimp only
    rw [em]
  · have hc := hl.built.wf.consistent_value x
    obtain ⟨q1, q2⟩ := h2 x _ hc
    refine ⟨q1, fun env he j o ho => ?_⟩
    obtain ⟨a, ha, ea⟩ := value_at (hl.val x v _ hv hc) ho
    obtain ⟨t, ht, et⟩ := q2 env he j a ha
    exact ⟨t, ht, et.trans ea⟩

/-- C88 for `write_aiger`: if the inputs of the current AIG come first, as after reading or cleaning up (C28), reading the written file gives a network with the interface and the functions of the design
read last. Missing, and false (`C28_needs_clean`): AIGs with inputs after gates; registers, designs without inputs, files that cannot be read. -/
theorem C88_aiger_partial (pre post : List (Cmd β)) (disk : Disk) (path : List Char) (ps : Params) (bs : List Aiger.Byte) (N : Aig) (hd : disk path = some bs) (hN : Holds bs N)
    (hk : ∀ c ∈ post, Keeps N c) (s : St) (e : run (pre ++ .read disk path ps :: post) {} = some s) (A : Aig) (hA : s.aig = some A) (hf : A.inputs = List.range' 1 A.numPis)
    (hs : A.size ≤ 2 ^ 31) (ho : A.outputs.length < 2 ^ 32) :
    ∃ file M, step s (.aiger : Cmd β) = some { s with aiger := some file } ∧ Aiger.read file = .ok M ∧ Like N M := by
  obtain ⟨⟨A', hA', hl⟩, _, _⟩ := (after_read hd hN hk e).1
  obtain rfl := Option.some.inj (hA.symm.trans hA')
  obtain ⟨file, M, ew, er, h1, h2, h3, h4, h5, h6⟩ := Aiger.C28_roundtrip A ⟨hl.built, hf, hl.outputs⟩ hs ho
  refine ⟨file, M, ?_, er, like_trans hl h1 h2 h3 h4 h5 h6⟩
  show writeAiger s = _
  unfold writeAiger
  rw [hA]
  dsimp only
  rw [ew]

/-- `cleanup` is one of the commands that `C88_partial` allows: it always comes back, with such an AIG, whose inputs come first. -/
theorem C88_cleanup (N A : Aig) (h : Like N A) : ∃ D, Aig.cleanupDangling A A.size = some D ∧ Keeps N (.change D : Cmd β) ∧ D.inputs = List.range' 1 D.numPis := by
  obtain ⟨D, e, h1, h2, h3, h4, h5, h6⟩ := Aig.C14_built_partial A h.built h.inputs h.outputs A.size (Nat.le_refl _)
  exact ⟨D, e, like_trans h h1 h2 h3 h4 h5 h6, (Aiger.C28_cleanup_clean A h.built h.inputs h.outputs A.size (Nat.le_refl _) D e).inputs⟩

/-- commands that leave the current AIG alone -/
def Leaves : Cmd β → Prop
  | .read _ _ _ => False
  | .change _ => False
  | _ => True

/-- `read_aiger` -/
def Reads : Cmd β → Prop
  | .read _ _ _ => True
  | _ => False

theorem step_leaves {c : Cmd β} (h : Leaves c) {s s' : St} (e : step s c = some s') : s'.aig = s.aig := by
  cases c with
  | read d p n => exact h.elim
  | change A => exact h.elim
  | map o H cost =>
    have e' : map s o H cost = some s' := e
    unfold map at e'
    split at e'
    · obtain rfl := Option.some.inj e'; rfl
    · split at e'
      · cases e'
      · obtain rfl := Option.some.inj e'; rfl
      · obtain rfl := Option.some.inj e'; rfl
  | write =>
    have e' : write s = some s' := e
    unfold write at e'
    split at e'
    · obtain rfl := Option.some.inj e'; rfl
    · split at e'
      · cases e'
      · obtain rfl := Option.some.inj e'; rfl
  | primary =>
    have e' : writePrimary s = some s' := e
    unfold writePrimary at e'
    split at e'
    · obtain rfl := Option.some.inj e'; rfl
    · split at e'
      · cases e'
      · obtain rfl := Option.some.inj e'; rfl
  | aiger =>
    have e' : writeAiger s = some s' := e
    unfold writeAiger at e'
    split at e'
    · cases e'
    · split at e'
      · cases e'
      · obtain rfl := Option.some.inj e'; rfl

theorem step_some {c : Cmd β} {s s' : St} (h : s.aig ≠ none ∨ Reads c) (e : step s c = some s') : s'.aig ≠ none := by
  cases c with
  | read d p n =>
    have e' : read s d p n = some s' := e
    unfold read at e'
    split at e'
    · cases e'
    · obtain rfl := Option.some.inj e'
      simp
  | change A =>
    obtain rfl := Option.some.inj e
    rcases h with h | h
    · unfold change
      rw [if_neg h]
      simp
    · exact h.elim
  | map o H cost => rw [step_leaves (c := .map o H cost) trivial e]; exact h.resolve_right id
  | write => rw [step_leaves (c := (.write : Cmd β)) trivial e]; exact h.resolve_right id
  | primary => rw [step_leaves (c := (.primary : Cmd β)) trivial e]; exact h.resolve_right id
  | aiger => rw [step_leaves (c := (.aiger : Cmd β)) trivial e]; exact h.resolve_right id

theorem run_some : ∀ (cs : List (Cmd β)) (s s' : St), (s.aig ≠ none ∨ ∃ c ∈ cs, Reads c) → run cs s = some s' → s'.aig ≠ none := by
  intro cs
  induction cs with
  | nil => intro s s' h e; obtain rfl := Option.some.inj e; simpa using h
  | cons c cs ih =>
    intro s s' h e
    rw [Fpga.run] at e
    split at e
    · cases e
    rename_i s1 e1
    refine ih s1 s' ?_ e
    rcases h with h | ⟨c', hm, hc⟩
    · exact .inl (step_some (.inl h) e1)
    · rcases List.mem_cons.1 hm with rfl | hm
      · exact .inl (step_some (.inr hc) e1)
      · exact .inr ⟨c', hm, hc⟩

theorem run_leaves : ∀ (cs : List (Cmd β)) (s s' : St), (∀ c ∈ cs, Leaves c) → run cs s = some s' → s'.aig = s.aig := by
  intro cs
  induction cs with
  | nil => intro s s' _ e; obtain rfl := Option.some.inj e; rfl
  | cons c cs ih =>
    intro s s' h e
    rw [Fpga.run] at e
    split at e
    · cases e
    rename_i s1 e1
    rw [ih s1 s' (fun c' hm => h c' (List.mem_cons_of_mem _ hm)) e, step_leaves (h c (by simp)) e1]

/-- The result of the last optimisation is the one that is mapped and written next: in every session with a `read_aiger` before, mapping and writing leave it current. -/
theorem C88_current (pre post : List (Cmd β)) (A : Aig) (hr : ∃ c ∈ pre, Reads c) (hp : ∀ c ∈ post, Leaves c) (s : St) (e : run (pre ++ .change A :: post) {} = some s) : s.aig = some A := by
  obtain ⟨t, e1, e2⟩ := run_append _ _ _ _ e
  rw [Fpga.run] at e2
  rw [run_leaves post _ _ hp e2]
  have := run_some pre _ _ (.inr hr) e1
  show (change t A).aig = some A
  unfold change
  rw [if_neg this]

/-- Some output is a gate, if there is any gate. -/
def Drives (A : Aig) : Prop := 0 < A.numGates → ∃ o ∈ A.outputs, ∃ a b, A.IsGate o.index a b

/-- Commands for which nothing undefined is known: AIGs with a gate at an output, cut sizes 2 and 3 (C53), and not `write_aiger`. -/
def Safe : Cmd β → Prop
  | .read _ _ _ => False
  | .change A => Drives A
  | .map o _ _ => o.cutSize ≤ 3
  | .write => True
  | .primary => True
  | .aiger => False

theorem step_defined {N : Aig} {ps : Params} {s : St} (hN : N.inputs.length = N.numPis) (hpo : N.outputs.length = N.numPos) (hr : FromReader ps N) (hp : Plain ps)
    (h : Holding N ps s) (hd : ∀ A, s.aig = some A → Drives A) {c : Cmd β} (hk : Keeps N c) (hc : Safe c) : ∃ s', step s c = some s' ∧ ∀ A, s'.aig = some A → Drives A := by
  obtain ⟨A, hA, hl⟩ := h.aig
  cases c with
  | read d p n => exact hc.elim
  | aiger => exact hc.elim
  | change B =>
    refine ⟨_, rfl, fun A' hA' => ?_⟩
    unfold change at hA'
    rw [hA, if_neg (by simp)] at hA'
    obtain rfl := Option.some.inj hA'
    exact hc
  | map o H cost =>
    have hm := (Mapper.C53_defined_partial o hk hc A hl.built hl.inputs hl.outputs H cost).2 fun _ => hd A hA
    have : ∃ s', map s o H cost = some s' ∧ s'.aig = s.aig := by
      unfold map
      rw [hA]
      dsimp only
      split
      · rename_i e; exact absurd e hm
      · exact ⟨s, rfl, hA⟩
      · exact ⟨_, rfl, rfl⟩
    obtain ⟨s', e, ha⟩ := this
    exact ⟨s', e, by rw [ha]; exact hd⟩
  | write =>
    have : ∃ s', write s = some s' ∧ s'.aig = s.aig := by
      unfold write
      cases hK : s.luts with
      | none => exact ⟨s, rfl, rfl⟩
      | some K =>
        obtain ⟨q1, q2⟩ := h.luts K hK
        obtain ⟨m, em, _⟩ := luts_denote q1 hN hpo q2 hr hp
        rw [h.names]
        dsimp only
        rw [em]
        exact ⟨_, rfl, rfl⟩
    obtain ⟨s', e, ha⟩ := this
    exact ⟨s', e, by rw [ha]; exact hd⟩
  | primary =>
    have : ∃ s', writePrimary s = some s' ∧ s'.aig = s.aig := by
      unfold writePrimary
      rw [hA]
      obtain ⟨m, em, _⟩ := C48_default_partial A hl.built ⟨hl.inputs, hl.outputs⟩ A.nodes.length (Nat.le_refl _)
      dsimp only
      rw [em]
      exact ⟨_, rfl, hA.symm ▸ rfl⟩
    obtain ⟨s', e, ha⟩ := this
    exact ⟨s', e, by rw [ha]; exact hd⟩

theorem run_defined {N : Aig} {ps : Params} (hN : N.inputs.length = N.numPis) (hpo : N.outputs.length = N.numPos) (hr : FromReader ps N) (hp : Plain ps) :
    ∀ (cs : List (Cmd β)) (s : St), Holding N ps s → (∀ A, s.aig = some A → Drives A) → (∀ c ∈ cs, Keeps N c ∧ Safe c) → ∃ s', run cs s = some s' := by
  intro cs
  induction cs with
  | nil => intro s _ _ _; exact ⟨s, rfl⟩
  | cons c cs ih =>
    intro s h hd hc
    obtain ⟨q1, q2⟩ := hc c (by simp)
    obtain ⟨s1, e1, hd1⟩ := step_defined hN hpo hr hp h hd q1 q2
    obtain ⟨s', e⟩ := ih s1 (h.step hN hpo q1 e1).1 hd1 fun c' hm => hc c' (List.mem_cons_of_mem _ hm)
    exact ⟨s', by rw [Fpga.run, e1]; exact e⟩

/-- Sessions come back: after a readable design, as long as `map_fpga` is called with cut sizes 2 and 3 and AIGs with gates have one at an output (without this it fails, C53), whatever came before. Missing:
larger cuts, where the array of leaves may be overrun (C19); `write_aiger`. -/
theorem C88_defined_partial (pre post : List (Cmd β)) (disk : Disk) (path : List Char) (ps : Params) (bs : List Aiger.Byte) (N : Aig) (hd : disk path = some bs) (hN : Holds bs N)
    (hr : FromReader ps N) (hp : Plain ps) (hD : Drives N) (hk : ∀ c ∈ post, Keeps N c ∧ Safe c) (s0 : St) (e : run pre {} = some s0) :
    ∃ s, run (pre ++ .read disk path ps :: post) {} = some s := by
  obtain ⟨g, hpo⟩ := hN.good
  obtain ⟨s1, e1⟩ : ∃ s1, step s0 (.read disk path ps : Cmd β) = some s1 ∧ s1.aig = some N := by
    show ∃ s1, read s0 disk path ps = some s1 ∧ s1.aig = some N
    unfold read
    rw [reader_holds hd hN]
    exact ⟨_, rfl, rfl⟩
  have er : run (pre ++ [.read disk path ps]) {} = some s1 := (run_snoc pre _ _ _ e).trans e1.1
  obtain ⟨h, _⟩ := after_read (post := []) hd hN (by simp) er
  obtain ⟨s, es⟩ := run_defined (Flow.Good.pis g) hpo hr hp post s1 h (fun A hA => by rw [e1.2] at hA; obtain rfl := Option.some.inj hA; exact hD) hk
  exact ⟨s, by rw [run_app pre _ _ _ e, Fpga.run, e1.1]; exact es⟩

/-- The hypothesis on outputs in `C88_defined_partial` is needed: in every session with a `read_aiger`, `map_fpga` after an optimisation that leaves gates, but none at an output, is undefined, for all accepted
options with at most 11 cuts. -/
theorem C88_undefined (pre : List (Cmd β)) (A : Aig) (hr : ∃ c ∈ pre, Reads c) (hA : A.Built) (hpi : A.inputs.length = A.numPis) (hpo : A.outputs.length = A.numPos) (hd : ¬ Drives A)
    (o : Mapper.Options) (hprio : o.prioritySize ≤ 11) (hok : o.params ≠ none) (H : Nat → Nat → Mapper.Heur β) (cost : β) : run (pre ++ [.change A, .map o H cost]) {} = none := by
  unfold Drives at hd
  obtain ⟨hg, hno⟩ := Classical.not_imp.1 hd
  have hm := Mapper.C53_undefined o hprio hok A hA hpi hpo H cost hg fun s hs h => hno ⟨s, hs, h⟩
  cases e : run (pre ++ [.change A, .map o H cost]) {} with
  | none => rfl
  | some s =>
    rw [show pre ++ [.change A, .map o H cost] = (pre ++ [.change A]) ++ [.map o H cost] by simp] at e
    obtain ⟨t, e1, e2⟩ := run_append _ _ _ _ e
    have ht := C88_current pre [] A hr (by simp) t e1
    rw [Fpga.run] at e2
    have e3 : step t (.map o H cost) = none := by
      show map t o H cost = none
      unfold map
      rw [ht]
      dsimp only
      rw [hm]
    rw [e3] at e2
    cases e2

/-- `balance` is one of the commands that `C88_partial` allows: it always comes back, with such an AIG. -/
theorem C88_balance (sort : (Sig → Nat × Nat) → List Sig → List Sig) (hsort : ∀ key l, (sort key l).Perm l) (N A : Aig) (h : Like N A) :
    ∃ D over, Balance.balanceAnd sort A A.size = some (D, over) ∧ Keeps N (.change D : Cmd β) := by
  obtain ⟨D, over, e, h1, h2, h3, h4, h5, h6, _⟩ := Balance.C17_partial sort hsort A h.built h.inputs h.outputs A.size (Nat.le_refl _)
  exact ⟨D, over, e, like_trans h h1 h2 h3 h4 h5 h6⟩

/-- `lut_opt` is one of the commands that `C88_partial` allows, whenever it comes back. Missing: more than 11 cuts. -/
theorem C88_lut_opt_partial (o : Mapper.LutOptions) (hprio : o.prioritySize ≤ 11) (N A D : Aig) (h : Like N A) (H : Nat → Nat → Mapper.Heur β) (cost : β)
    (e : Mapper.lutOpt o A H cost = some D) : Keeps N (.change D : Cmd β) := by
  obtain ⟨q, _⟩ := Mapper.C57_partial o hprio A h.built h.inputs h.outputs H cost D e
  exact like_trans h q.built q.numPis q.inputs q.numPos q.outputs q.val

/-- `rewrite` is one of the commands that `C88_partial` allows, whenever it comes back. Missing, and false (C25): AIGs with a gate that has two fanins of the same function. -/
theorem C88_rewrite_partial {γ : Type} (P : Rewrite.RwParams γ) (w : Nat) (rest : List Nat) (hw : Rewrite.dbPis w = 4) (f : Nat) (N A D : Aig) (h : Like N A)
    (hk : P.cuts.cutSize ≤ Cuts.maxCutSize) (hsep : ∀ n a b, A.IsGate n a b → ∃ x v, A.Consistent x v ∧ a.val v ≠ b.val v)
    (e : Rewrite.rewrite P (w :: rest) f A = some D) : Keeps N (.change D : Cmd β) := by
  obtain ⟨h1, h2, h3, h4, h5, h6⟩ := Rewrite.C25_partial P w rest hw f A D h.built h.inputs h.outputs hk hsep e
  exact like_trans h h1 h2 h3 h4 h5 h6

/-- `refactor` is one of the commands that `C88_partial` allows, whenever it comes back. Missing: more than 31 leaves. -/
theorem C88_refactor_partial (P : Refactor.RfParams) (hP : P.maxLeaves ≤ 31) (f : Nat) (N A D : Aig) (h : Like N A) (e : Refactor.refactor P f A = .ok D) : Keeps N (.change D : Cmd β) := by
  obtain ⟨h1, h2, h3, h4, h5, h6⟩ := Refactor.C26_partial P hP f A D h.built h.inputs h.outputs e
  exact like_trans h h1 h2 h3 h4 h5 h6

/-! ### examples and counterexamples -/

set_option maxRecDepth 4000 in
/-- A case of `C88_primary_partial` and `C88_aiger_partial`: the conjunction is read, mapped and cleaned up. -/
example : ∃ s D m file M, run [.read single "a.aig".toList abf, .map {} Mapper.H1 0, .change D] {} = some s ∧ Aig.cleanupDangling andNet andNet.size = some D ∧
    step s (.primary : Cmd Nat) = some { s with verilog := some m } ∧ Denotes m.declared m.outputs m.Run andNet ∧
    step s (.aiger : Cmd Nat) = some { s with aiger := some file } ∧ Aiger.read file = .ok M ∧ Like andNet M := by
  obtain ⟨g, hpo⟩ := andFile_holds.good
  obtain ⟨D, eD, hD, hf⟩ := C88_cleanup (β := Nat) andNet andNet (like_self g.built (by decide) (by decide))
  have hk : ∀ c ∈ ([.map {} Mapper.H1 0, .change D] : List (Cmd Nat)), Keeps andNet c := by
    intro c hc
    simp only [List.mem_cons, List.not_mem_nil, or_false] at hc
    rcases hc with rfl | rfl
    · exact (by decide : (10 : Nat) ≤ 11)
    · exact hD
  have h0 : (run ([.read single "a.aig".toList abf, .map {} Mapper.H1 0] : List (Cmd Nat)) {}).map (fun s => s.aig.isSome) = some true := by decide +kernel
  obtain ⟨t, et, ht⟩ := Option.map_eq_some_iff.1 h0
  have e : run ([] ++ .read single "a.aig".toList abf :: [.map {} Mapper.H1 0, .change D]) {} = some (change t D) := by
    have h := run_snoc _ (.change D) _ _ et
    exact h
  have hs : (change t D).aig = some D := by
    unfold change
    rw [if_neg (by intro h; rw [h] at ht; cases ht)]
  have hsize : (Aig.cleanupDangling andNet andNet.size).map (fun D => (D.size, D.outputs.length)) = some (4, 1) := by decide +kernel
  rw [eD, Option.map_some, Option.some.injEq, Prod.mk.injEq] at hsize
  obtain ⟨m, em, hm⟩ := C88_primary_partial [] _ single "a.aig".toList abf andFile andNet (by decide +kernel) andFile_holds hk _ e
  obtain ⟨file, M, ew, er, hl⟩ := C88_aiger_partial [] _ single "a.aig".toList abf andFile andNet (by decide +kernel) andFile_holds hk _ e D hs hf
    (by rw [hsize.1]; decide) (by rw [hsize.2]; decide)
  exact ⟨_, D, m, file, M, e, eD, em, hm, ew, er, hl⟩

/-- a case of `C88_current` -/
example : ∃ s, run ([.read single "a.aig".toList abf] ++ .change Mapper.and3 :: [.map { cutSize := 3 } Mapper.H1 0, .primary]) {} = some s ∧ s.aig = some Mapper.and3 := by
  have h : (run ([.read single "a.aig".toList abf] ++ .change Mapper.and3 :: [.map { cutSize := 3 } Mapper.H1 0, .primary] : List (Cmd Nat)) {}).isSome = true := by decide +kernel
  obtain ⟨s, e⟩ := Option.isSome_iff_exists.1 h
  refine ⟨s, e, C88_current _ _ _ ⟨.read single "a.aig".toList abf, List.mem_cons_self, trivial⟩ ?_ s e⟩
  intro c hc
  simp only [List.mem_cons, List.not_mem_nil, or_false] at hc
  rcases hc with rfl | rfl <;> trivial

/-- a case of `C88_undefined` -/
example (H : Nat → Nat → Mapper.Heur β) (cost : β) : run ([.read single "a.aig".toList abf] ++ [.change Mapper.dangling, .map {} H cost]) {} = none :=
  C88_undefined _ Mapper.dangling ⟨.read single "a.aig".toList abf, List.mem_cons_self, trivial⟩ Mapper.dangling_built (by decide) (by decide)
    (fun h => by
      obtain ⟨s, hs, a, b, _, hi, _⟩ := h (by decide)
      exact hi ((by decide : ∀ s ∈ Mapper.dangling.outputs, s.index ∈ Mapper.dangling.inputs) s hs))
    {} (by decide) (by decide) H cost

/-- a case of `C88_defined_partial`: the conjunction, mapped with cut size 3 and written, after its complement was read -/
example : ∃ s, run ([.read (diskOf [("b.aig", nandFile)]) "b.aig".toList abf] ++ .read single "a.aig".toList abf :: [.map { cutSize := 3 } Mapper.H1 0, .write, .primary]) {} = some s := by
  have h : (run ([.read (diskOf [("b.aig", nandFile)]) "b.aig".toList abf] : List (Cmd Nat)) {}).isSome = true := by decide +kernel
  obtain ⟨s0, e⟩ := Option.isSome_iff_exists.1 h
  refine C88_defined_partial _ _ single "a.aig".toList abf andFile andNet (by decide +kernel) andFile_holds ⟨by decide, by decide, fun t ht => ⟨t, by revert t; decide, by revert t; decide⟩⟩ abf_plain
    (fun _ => ⟨.mk 3 false, by decide, .mk 1 false, .mk 2 false, by decide, by decide, _, rfl, by decide, by decide⟩) ?_ s0 e
  intro c hc
  simp only [List.mem_cons, List.not_mem_nil, or_false] at hc
  rcases hc with rfl | rfl | rfl
  · exact ⟨(by decide : (10 : Nat) ≤ 11), (by decide : (3 : Nat) ≤ 3)⟩
  · exact ⟨trivial, trivial⟩
  · exact ⟨trivial, trivial⟩

/-- a case of `C88_balance`: the chain of C17 -/
example : ∃ D over, Balance.balanceAnd Balance.sortDesc Balance.chain Balance.chain.size = some (D, over) ∧ Keeps Balance.chain (.change D : Cmd β) :=
  C88_balance _ Balance.sortDesc_perm _ _ (like_self Balance.chain_built (by decide) (by decide))

/-- a case of `C88_lut_opt_partial`: the network of C36 -/
example : ∃ D, Mapper.lutOpt { cutSize := 3 } Mapper.and3 Mapper.H1 0 = some D ∧ Keeps Mapper.and3 (.change D : Cmd Nat) := by
  have h := (Mapper.C57_defined_partial { cutSize := 3 } (by decide) (by decide) Mapper.and3 Mapper.and3_built (by decide) (by decide) Mapper.H1 0).2
    (fun _ _ => ⟨.mk 5 false, by decide, .mk 3 false, .mk 4 false, by decide, by decide, _, rfl, by decide, by decide⟩)
  obtain ⟨D, e⟩ := Option.ne_none_iff_exists'.1 h
  exact ⟨D, e, C88_lut_opt_partial { cutSize := 3 } (by decide) _ _ D (like_self Mapper.and3_built (by decide) (by decide)) _ _ e⟩

/-- a case of `C88_rewrite_partial`: the network of C25 with two structures for the same function -/
example : ∃ D, Rewrite.rewrite Rewrite.rwDefault Rewrite.nor4Db 30 Rewrite.twiceOut = some D ∧ Keeps Rewrite.twiceOut (.change D : Cmd Nat) := by
  have hb : Rewrite.twiceOut.Built := .po (.po Rewrite.twice_built (by decide)) (by decide)
  have h : (Rewrite.rewrite Rewrite.rwDefault Rewrite.nor4Db 30 Rewrite.twiceOut).isSome = true := by decide +kernel
  obtain ⟨D, e⟩ := Option.isSome_iff_exists.1 h
  exact ⟨D, e, C88_rewrite_partial Rewrite.rwDefault _ _ (by decide +kernel) 30 _ _ D (like_self hb (by decide) (by decide)) (by decide)
    (Rewrite.separated_sound hb (by decide) (xs := [[true, false, true, false], [true, true, false, false]]) (by decide +kernel)) e⟩

/-- a case of `C88_refactor_partial`: the sum of products of C26 -/
example : ∃ D, Refactor.refactor Refactor.rfDefault 30 Refactor.sumProd = .ok D ∧ Keeps Refactor.sumProd (.change D : Cmd β) := by
  have h : (match Refactor.refactor Refactor.rfDefault 30 Refactor.sumProd with
      | .ok _ => true
      | .error _ => false) = true := by decide +kernel
  cases e : Refactor.refactor Refactor.rfDefault 30 Refactor.sumProd with
  | error _ => rw [e] at h; cases h
  | ok D => exact ⟨D, rfl, C88_refactor_partial _ (by decide) 30 _ _ D (like_self Refactor.sumProd_built (by decide) (by decide)) e⟩


set_option maxRecDepth 4000 in
/-- A case of `C88_partial`: the conjunction of two inputs is read, mapped and written, after its complement was read and mapped. -/
example : ∃ s m, run [.read (diskOf [("b.aig", nandFile)]) "b.aig".toList abf, .map {} Mapper.H1 0, .read single "a.aig".toList abf, .map {} Mapper.H1 0] {} = some s ∧
    step s (.write : Cmd Nat) = some { s with netlist := some m } ∧ Denotes m.declared m.outputs m.Run andNet := by
  have h : (run [.read (diskOf [("b.aig", nandFile)]) "b.aig".toList abf, .map {} Mapper.H1 0, .read single "a.aig".toList abf, .map {} Mapper.H1 0] {}).isSome = true := by decide +kernel
  obtain ⟨s, e⟩ := Option.isSome_iff_exists.1 h
  obtain ⟨_, h2, h3⟩ := C88_partial [.read (diskOf [("b.aig", nandFile)]) "b.aig".toList abf, .map {} Mapper.H1 0] [.map {} Mapper.H1 0] single "a.aig".toList abf andFile andNet
    (by decide +kernel) andFile_holds ⟨by decide, by decide, fun t ht => ⟨t, by revert t; decide, by revert t; decide⟩⟩ abf_plain
    (by intro c hc; rw [List.mem_singleton] at hc; subst hc; exact (by decide : (10 : Nat) ≤ 11)) s e
  obtain ⟨m, em, hm⟩ := h2 (h3 ⟨_, List.mem_singleton.2 rfl, (by decide : (({} : Mapper.Options).params ≠ none))⟩)
  exact ⟨s, m, e, em, hm⟩

set_option maxRecDepth 4000 in
/-- A design is read, then a file that is not there: `map_fpga` and `write_fpga` go on with the empty network, and the module that is written has no ports. -/
theorem C88_violated_unread : (run [.read single "a.aig".toList abf, .map {} Mapper.H1 0, .read single "b.aig".toList ⟨[], []⟩, .map {} Mapper.H1 0, .write] {}).map
    (fun s => s.netlist.map fun m => (m.inputs, m.outputs)) = some (some ([], [])) := by decide +kernel

set_option maxRecDepth 4000 in
/-- Reading a file with a gate that no output depends on and mapping it with the default options is undefined (C53). -/
theorem C88_violated_dangling : (run ([.read (diskOf [("d.aig", Aiger.text "aig 3 2 0 1 1\n2\n" ++ [2#8, 2#8])]) "d.aig".toList abf] : List (Cmd Nat)) {}).isSome = true ∧
    run [.read (diskOf [("d.aig", Aiger.text "aig 3 2 0 1 1\n2\n" ++ [2#8, 2#8])]) "d.aig".toList abf, .map {} Mapper.H1 0, .write] {} = none := by
  have h : (run [.read (diskOf [("d.aig", Aiger.text "aig 3 2 0 1 1\n2\n" ++ [2#8, 2#8])]) "d.aig".toList abf, .map {} Mapper.H1 0, .write] {}).isSome = false := by decide +kernel
  exact ⟨by decide +kernel, Option.isSome_eq_false_iff.1 h |> Option.isNone_iff_eq_none.1⟩

/-- `write_aiger` without a design ends the shell. -/
theorem C88_violated_empty : step {} (.aiger : Cmd β) = none := rfl

end Verif.Cli.Fpga
