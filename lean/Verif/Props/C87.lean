import Verif.Flow.Write
import Verif.Props.C48
import Verif.Props.C49
import Verif.Props.C86
import Verif.Klut.NoConstants

set_option autoImplicit false

/-!
# C87: the files that the flow writes denote the network that it read

Full statement: from the bytes of an AIGER file to the written files: the netlist of LUTs and the Verilog module denote the network in the file; and for a folder, the network in original.aig.

`C87_file_partial` and `C87_folder_partial` put the reader (C85), the flow (C86) and the writers (C48, C49) together. They need two different output files and names that do not
look like made-up ones. No LUT has a constant fanin (`C87_no_constants_partial`), which the writer of the netlist could not write. With the same path for both files the Verilog module is lost (`C87_violated_same`).
-/

namespace Verif.Flow.Write

open Io
open Files (Mapped Disk Holds NamesFile)

variable {β γ : Type}

/-! ### specification -/

/-- A written module, given by its declared identifiers, its outputs and its runs, denotes `N`: all identifiers are different; for all values of the inputs there is a run; and in every run the outputs have
the values of the outputs of `N`. -/
def Denotes (declared outputs : List Text) (Run : (Nat → Bool) → (Text → Bool) → Prop) (N : Aig) : Prop :=
  declared.Nodup ∧ ∀ x v, N.Consistent x v → (∃ env, Run x env) ∧
    ∀ env, Run x env → ∀ (j : Nat) o, N.outputs[j]? = some o → ∃ t, outputs[j]? = some t ∧ env (ident t) = o.val v

/-- The names are different and look like none that the writers make up: `n3`, `x3`, `y3`, `_w3_`, `_i3_`, `_o3_`, `name3`. -/
structure Plain (ps : Params) : Prop where
  nodup : ((ps.inputNames ++ ps.outputNames).map ident).Nodup
  fresh : ∀ t ∈ ps.inputNames ++ ps.outputNames, ∀ n, ident t ≠ numbered 'n' n ∧ ident t ≠ numbered 'x' n ∧ ident t ≠ numbered 'y' n ∧
    ident t ≠ wrapped 'w' n ∧ ident t ≠ wrapped 'i' n ∧ ident t ≠ wrapped 'o' n ∧ ident t ≠ instName n

/-- no LUT has a constant fanin -/
def NoConstants (K : Klut) : Prop := ∀ n cs f, K.IsLut n cs f → ∀ c ∈ cs, 2 ≤ c

/-! ### proofs -/

/-- a network without registers with the interface and the functions of `N` -/
structure Like (N A : Aig) : Prop where
  built : A.Built
  inputs : A.inputs.length = A.numPis
  numPis : A.numPis = N.numPis
  outputs : A.outputs.length = A.numPos
  numPos : A.numPos = N.numPos
  val : ∀ x v w, N.Consistent x v → A.Consistent x w → A.outputs.map (·.val w) = N.outputs.map (·.val v)

theorem value_at {α β γ : Type} {l : List α} {k : List β} {f : α → γ} {g : β → γ} (h : l.map f = k.map g) {j : Nat} {b : β} (hb : k[j]? = some b) :
    ∃ a, l[j]? = some a ∧ f a = g b := by
  have := congrArg (·[j]?) h
  simp only [List.getElem?_map, hb, Option.map_some] at this
  cases ha : l[j]? with
  | none => rw [ha] at this; cases this
  | some a => rw [ha, Option.map_some, Option.some.injEq] at this; exact ⟨a, rfl, this⟩

theorem luts_denote {N : Aig} {K : Klut} (hK : Collapse.Equiv N K) (hN : N.inputs.length = N.numPis) (hpo : N.outputs.length = N.numPos) (hc : NoConstants K) {ps : Params}
    (hr : FromReader ps N) (hp : Plain ps) : ∃ l, writeLut ps K = some l ∧ Denotes l.declared l.outputs l.Run N := by
  have hw : Writable K := ⟨by rw [hK.inputs, hK.numPis, hN], by rw [hK.outputs, hK.numPos, hpo], hc⟩
  have hrK : LutNames ps K := ⟨by rw [hK.numPis]; exact hr.inputs, by rw [hK.numPos]; exact hr.outputs, hr.names⟩
  have hcK : LutNoClash ps K :=
    ⟨hp.nodup, fun t ht n _ => (hp.fresh t ht n).2.2.2.1, fun t ht n _ => (hp.fresh t ht n).2.2.2.2.2.2,
      fun _ t ht n _ => (hp.fresh t (List.mem_append_right _ ht) n).2.2.2.2.1, fun _ t ht n _ => (hp.fresh t (List.mem_append_left _ ht) n).2.2.2.2.2.1⟩
  obtain ⟨l, el⟩ := C49_defined_partial _ hK.built hw ps hrK
  refine ⟨l, el, C49_distinct_partial _ hK.built hw ps hrK hcK l el, fun x w hx => ?_⟩
  obtain ⟨u, hu⟩ := hK.built.wf.exists x
  obtain ⟨q1, q2⟩ := C49_denotes_partial _ hK.built hw ps hrK l el x u hu
  refine ⟨q2 (C49_distinct_partial _ hK.built hw ps hrK hcK l el), fun env he j o ho => ?_⟩
  obtain ⟨a, ha, e⟩ := value_at (hK.val x w u hx hu) ho
  obtain ⟨t, ht, et⟩ := q1 env he j a ha
  exact ⟨t, ht, et.trans e⟩

theorem writeOut_spec {N : Aig} {r : Mapped} (hA : Like N r.synth.awc.net) (hK : Collapse.Equiv N r.luts) (hN : N.inputs.length = N.numPis)
    (hpo : N.outputs.length = N.numPos) (hc : NoConstants r.luts) {ps : Params} (hr : FromReader ps N) (hp : Plain ps) (input verilog lut : List Char)
    (d : List Char → Option Content) :
    ∃ d', writeOut ps input verilog lut r d = some d' ∧
      (∃ m, d' (lutPath input lut) = some (.luts m) ∧ Denotes m.declared m.outputs m.Run N) ∧
      (verilogPath input verilog ≠ lutPath input lut → ∃ m, d' (verilogPath input verilog) = some (.verilog m) ∧ Denotes m.declared m.outputs m.Run N) ∧
      ∀ q, q ≠ verilogPath input verilog → q ≠ lutPath input lut → d' q = d q := by
  have hcomb : Combinational r.synth.awc.net := ⟨hA.inputs, hA.outputs⟩
  have hrA : FromReader ps r.synth.awc.net := ⟨by rw [hA.numPis]; exact hr.inputs, by rw [hA.numPos]; exact hr.outputs, hr.names⟩
  have hcA : NoClash ps r.synth.awc.net :=
    ⟨hp.nodup, fun t ht n _ => (hp.fresh t ht n).1, fun _ t ht n _ => (hp.fresh t (List.mem_append_right _ ht) n).2.1,
      fun _ t ht n _ => (hp.fresh t (List.mem_append_left _ ht) n).2.2.1⟩
  obtain ⟨v, ev⟩ := C48_defined_partial _ hA.built hcomb ps hrA _ (Nat.le_refl _)
  obtain ⟨l, el, hl⟩ := luts_denote hK hN hpo hc hr hp
  refine ⟨_, by unfold writeOut; rw [ev]; dsimp only; rw [el], ⟨l, ?_, hl⟩, fun hne => ⟨v, ?_, ?_, ?_⟩, fun q h1 h2 => ?_⟩
  · unfold put; rw [if_pos rfl]
  · unfold put; rw [if_neg hne, if_pos rfl]
  · exact (C48_distinct_partial _ hA.built hcomb ps hrA hcA _ (Nat.le_refl _) v ev).1
  · intro x w hx
    have hu := hA.built.wf.consistent_value x
    obtain ⟨q1, q2⟩ := C48_denotes_partial _ hA.built hcomb ps hrA _ (Nat.le_refl _) v ev x _ hu
    refine ⟨q2 (C48_distinct_partial _ hA.built hcomb ps hrA hcA _ (Nat.le_refl _) v ev).1, fun env he j o ho => ?_⟩
    obtain ⟨a, ha, e⟩ := value_at (hA.val x w _ hx hu) ho
    obtain ⟨t, ht, et⟩ := q1 env he j a ha
    exact ⟨t, ht, et.trans e⟩
  · unfold put; rw [if_neg h2, if_neg h1]

theorem like_of {N M A : Aig} {k : Nat} (hN : ChoiceMiter.Good k N) (hpo : N.outputs.length = N.numPos) (c : Choice.SameOutputs M A) (m1 : M.inputs = List.range' 1 k)
    (m2 : M.outputs.length = N.outputs.length) (m3 : ∀ x v w, N.Consistent x v → M.Consistent x w → M.outputs.map (·.val w) = N.outputs.map (·.val v))
    (m4 : ∀ x, M.Consistent x (M.value x)) : Like N A := by
  refine ⟨c.built, by rw [c.inputs, c.numPis], by rw [c.numPis, m1, hN.numPis, List.length_range'], by rw [c.outputs, c.numPos], by rw [c.numPos, m2, hpo], fun x v w hv hw => ?_⟩
  rw [c.val x _ w (m4 x) hw, m3 x v _ hv (m4 x)]

theorem noConstants_of {M : Aig} {W : Choice} (c1 : Choice.SameOutputs M W.net) (c2 : W.Ordered) (c3 : W.Sound) {p : Mapper.Ps} (hp : Mapper.PsOk p.cut)
    {H : Nat → Nat → Mapper.Heur γ} {cost : γ} {L : Mapping} (e : Mapper.klutMap p W H cost = some L) (hself : ∀ n, ¬ Mapper.SelfCell W.net L n) {K : Klut}
    (eK : Collapse.choiceToKlut W.net L = some (some K)) : NoConstants K := by
  rintro n cs f ⟨_, _, nd, hnd, rfl, _⟩
  exact Mapper.klutMap_far p W c1.built (by rw [c1.inputs, c1.numPis]) (by rw [c1.outputs, c1.numPos]) c2 c3 hp H cost L e hself K eK n nd hnd

theorem file_like {E : Env β} (hE : EnvOk E) {p : Mapper.Ps} {H : Nat → Nat → Mapper.Heur γ} {cost : γ} {disk : Disk} {path : List Char}
    (hpath : NamesFile path) {bs : List Aiger.Byte} {N : Aig} (hd : disk path = some bs) (hN : Holds bs N) {r : Mapped} (e : Files.run E p H cost disk path = some r)
    (hn : ∀ B ∈ r.synth.given, NoTwins B) (hp : Mapper.PsOk p.cut) (hself : ∀ n, ¬ Mapper.SelfCell r.synth.awc.net r.mapping n) :
    Like N r.synth.awc.net ∧ NoConstants r.luts := by
  unfold Files.run Files.readIn at e
  rw [(Files.isAig_iff path).2 hpath, if_pos rfl, Files.reader_holds hd hN] at e
  dsimp only at e
  rw [if_pos rfl] at e
  split at e
  · cases e
  rename_i S L K em
  obtain rfl := Option.some.inj e
  obtain ⟨hg, hpo⟩ := hN.good
  unfold mapper at em
  split at em
  · cases em
  rename_i S1 e1
  split at em
  · cases em
  rename_i L1 e2
  split at em
  · rename_i K1 e3
    rw [Option.some.injEq, Prod.mk.injEq, Prod.mk.injEq] at em
    obtain ⟨rfl, rfl, rfl⟩ := em
    obtain ⟨_, c1, c2, c3, m1, m2, m3, m4, _⟩ := choiceSynthesis_spec hE hN.2.2 hg hpo e1 hn
    exact ⟨like_of hg hpo c1 m1 m2 m3 m4, noConstants_of c1 c2 c3 hp e2 hself e3⟩
  · cases em

theorem folder_like {E : Env β} (hE : EnvOk E) {p : Mapper.Ps} {H : Nat → Nat → Mapper.Heur γ} {cost : γ} {disk : Disk} {path : List Char}
    (hpath : ¬ NamesFile path) {bs : List Aiger.Byte} {D : Aig} (hd : disk (path ++ "/compress2.aig".toList) = some bs) (hD : Holds bs D) {r : Mapped}
    (e : Files.run E p H cost disk path = some r) (hp : Mapper.PsOk p.cut) (hself : ∀ n, ¬ Mapper.SelfCell r.synth.awc.net r.mapping n) :
    Like D r.synth.awc.net ∧ NoConstants r.luts := by
  have hi : Files.isAig path = false := by
    rw [Bool.eq_false_iff]
    exact fun h => hpath ((Files.isAig_iff path).1 h)
  unfold Files.run at e
  split at e
  · cases e
  rw [hi, if_neg (by decide)] at e
  split at e
  · cases e
  rename_i S L K em
  obtain rfl := Option.some.inj e
  dsimp only at hself ⊢
  unfold Files.mapperAbc at em
  split at em
  · cases em
  rename_i S1 e1
  split at em
  · cases em
  rename_i L1 e2
  split at em
  · rename_i K1 e3
    rw [Option.some.injEq, Prod.mk.injEq, Prod.mk.injEq] at em
    obtain ⟨rfl, rfl, rfl⟩ := em
    unfold Files.choiceSynthesisAbc at e1
    split at e1
    · cases e1
    rw [Files.reader_holds hd hD] at e1
    dsimp only at e1
    split at e1
    · cases e1
    rename_i M eM
    split at e1
    · cases e1
    rename_i W eW
    obtain rfl := Option.some.inj e1
    obtain ⟨h, hpo⟩ := hD.good
    obtain ⟨m1, m2, _, m3, _, m4⟩ := ChoiceMiter.merge_weak hD.2.2 h hpo _ (by omega) eM
    have hf : Choice.InputsFirst M := by unfold Choice.InputsFirst; rw [m2]; simp
    obtain ⟨c1, c2, c3⟩ := (Choice.computeChoice_spec m1 hf E.choice hE.words hE.solver).2 W eW
    exact ⟨like_of h hpo c1 m2 m3 m4 m1.wf.consistent_value, noConstants_of c1 c2 c3 hp e2 hself e3⟩
  · cases em

/-! ### the property -/

/-- C87 for a file: whenever the flow comes back, writing comes back, the netlist of LUTs denotes the network in the file, and so does the Verilog module if it is written to another file; no other file
changes. Missing: names that look like made-up ones or contain blanks; and what is missing in C86. -/
theorem C87_file_partial (E : Env β) (hE : EnvOk E) (p : Mapper.Ps) (hp : Mapper.PsOk p.cut) (H : Nat → Nat → Mapper.Heur γ) (cost : γ) (disk : Disk) (path : List Char)
    (hpath : NamesFile path) (bs : List Aiger.Byte) (N : Aig) (hd : disk path = some bs) (hN : Holds bs N) (r : Mapped) (e : Files.run E p H cost disk path = some r)
    (hn : ∀ B ∈ r.synth.given, NoTwins B) (hself : ∀ n, ¬ Mapper.SelfCell r.synth.awc.net r.mapping n)
    (ps : Params) (hr : FromReader ps N) (hps : Plain ps) (verilog lut : List Char) (d : List Char → Option Content) :
    ∃ d', writeOut ps path verilog lut r d = some d' ∧
      (∃ m, d' (lutPath path lut) = some (.luts m) ∧ Denotes m.declared m.outputs m.Run N) ∧
      (verilogPath path verilog ≠ lutPath path lut → ∃ m, d' (verilogPath path verilog) = some (.verilog m) ∧ Denotes m.declared m.outputs m.Run N) ∧
      ∀ q, q ≠ verilogPath path verilog → q ≠ lutPath path lut → d' q = d q := by
  obtain ⟨_, q, _⟩ := Files.C86_file_partial E hE p hp H cost disk path hpath bs N hd hN r e hn hself
  obtain ⟨g, hpo⟩ := hN.good
  exact writeOut_spec (file_like hE hpath hd hN e hn hp hself).1 q (Good.pis g) hpo (file_like hE hpath hd hN e hn hp hself).2 hr hps path verilog lut d

/-- C87 for a folder: the same for the network in compress2.aig. -/
theorem C87_folder_partial (E : Env β) (hE : EnvOk E) (p : Mapper.Ps) (hp : Mapper.PsOk p.cut) (H : Nat → Nat → Mapper.Heur γ) (cost : γ) (disk : Disk) (path : List Char)
    (hpath : ¬ NamesFile path) (bs : List Aiger.Byte) (D : Aig) (hd : disk (path ++ "/compress2.aig".toList) = some bs) (hD : Holds bs D) (r : Mapped)
    (e : Files.run E p H cost disk path = some r) (hself : ∀ n, ¬ Mapper.SelfCell r.synth.awc.net r.mapping n)
    (ps : Params) (hr : FromReader ps D) (hps : Plain ps) (verilog lut : List Char) (d : List Char → Option Content) :
    ∃ d', writeOut ps path verilog lut r d = some d' ∧
      (∃ m, d' (lutPath path lut) = some (.luts m) ∧ Denotes m.declared m.outputs m.Run D) ∧
      (verilogPath path verilog ≠ lutPath path lut → ∃ m, d' (verilogPath path verilog) = some (.verilog m) ∧ Denotes m.declared m.outputs m.Run D) ∧
      ∀ q, q ≠ verilogPath path verilog → q ≠ lutPath path lut → d' q = d q := by
  obtain ⟨q, _⟩ := Files.C86_folder_partial E hE p hp H cost disk path hpath bs D hd hD r e hself
  obtain ⟨g, hpo⟩ := hD.good
  exact writeOut_spec (folder_like hE hpath hd hD e hp hself).1 q (Good.pis g) hpo (folder_like hE hpath hd hD e hp hself).2 hr hps path verilog lut d

/-- No LUT has a constant fanin, for an AIG with ordered and sound choices, whatever the heuristics. Missing: mappings in which a node is its own cell; registers. -/
theorem C87_no_constants_partial (p : Mapper.Ps) (C : Choice) (hN : C.net.Built) (hpi : C.net.inputs.length = C.net.numPis) (hpo : C.net.outputs.length = C.net.numPos)
    (hO : C.Ordered) (hS : C.Sound) (hp : Mapper.PsOk p.cut) (H : Nat → Nat → Mapper.Heur γ) (cost : γ) (L : Mapping) (e : Mapper.klutMap p C H cost = some L)
    (hself : ∀ n, ¬ Mapper.SelfCell C.net L n) (K : Klut) (eK : Collapse.choiceToKlut C.net L = some (some K)) : NoConstants K := by
  rintro n cs f ⟨_, _, nd, hnd, rfl, _⟩
  exact Mapper.klutMap_far p C hN hpi hpo hO hS hp H cost L e hself K eK n nd hnd

/-- The default paths are different, so by default both files are there. -/
theorem C87_default (input : List Char) : verilogPath input [] ≠ lutPath input [] := by
  unfold verilogPath lutPath
  rw [if_pos rfl, if_pos rfl]
  intro h
  exact absurd (List.append_cancel_left h) (by decide)

/-- A path that is given is used, and otherwise the ending is added to the input path. -/
theorem C87_paths (ps : Params) (input verilog lut : List Char) (r : Mapped) (d d' : List Char → Option Content) (e : writeOut ps input verilog lut r d = some d') :
    (lut ≠ [] → ∃ m, d' lut = some (.luts m)) ∧ (lut = [] → ∃ m, d' (input ++ "_ifpga_lut.v".toList) = some (.luts m)) ∧
      (verilog ≠ [] → lut ≠ [] → verilog ≠ lut → ∃ m, d' verilog = some (.verilog m)) ∧
      (verilog = [] → lut = [] → ∃ m, d' (input ++ "_ifpga.v".toList) = some (.verilog m)) := by
  unfold writeOut at e
  split at e
  · cases e
  rename_i v _
  split at e
  · cases e
  rename_i l _
  obtain rfl := Option.some.inj e
  refine ⟨fun h => ⟨l, ?_⟩, fun h => ⟨l, ?_⟩, fun h h' hne => ⟨v, ?_⟩, fun h h' => ⟨v, ?_⟩⟩
  · unfold put lutPath; rw [if_neg h, if_pos rfl]
  · unfold put lutPath; rw [if_pos h, if_pos rfl]
  · unfold put lutPath verilogPath; rw [if_neg h, if_neg h', if_neg hne, if_pos rfl]
  · have := C87_default input
    subst h h'
    unfold put
    rw [show input ++ "_ifpga.v".toList = verilogPath input [] by unfold verilogPath; rw [if_pos rfl], if_neg this, if_pos rfl]

/-! ### examples and counterexamples -/

/-- names of the ports -/
def abf : Params := ⟨["a".toList, "b".toList], ["f".toList]⟩

theorem abf_plain : Plain abf := by
  refine ⟨by decide, fun t ht n => ?_⟩
  have : t = "a".toList ∨ t = "b".toList ∨ t = "f".toList := by simpa [abf] using ht
  rcases this with rfl | rfl | rfl <;> refine ⟨?_, ?_, ?_, ?_, ?_, ?_, ?_⟩ <;> intro h <;> injection h with h _ <;> revert h <;> decide

/-- A case of `C87_file_partial`: the conjunction of two inputs, with names, from the bytes to the two files. -/
example : ∃ r, Files.run runEnv {} Mapper.H1 0 Files.single "a.aig".toList = some r ∧ ∃ d', writeOut abf "a.aig".toList [] "o/l.v".toList r (fun _ => none) = some d' ∧
    (∃ m, d' "o/l.v".toList = some (.luts m) ∧ Denotes m.declared m.outputs m.Run Files.andNet) ∧
    ∃ m, d' "a.aig_ifpga.v".toList = some (.verilog m) ∧ Denotes m.declared m.outputs m.Run Files.andNet := by
  obtain ⟨r, e, hs⟩ := Files.of_seen Files.single_run
  have hg := Files.single_given
  rw [e, Option.map_some, Option.some.injEq] at hg
  have hn : ∀ B ∈ r.synth.given, NoTwins B := by
    intro B hB
    rw [hg] at hB
    simp only [List.mem_cons, List.not_mem_nil, or_false, or_self] at hB
    subst hB
    exact Rewrite.separated_sound Files.andFile_holds.good.1.built (by decide) (xs := probes) (by decide +kernel)
  obtain ⟨d', e', h1, h2, _⟩ := C87_file_partial runEnv runEnv_ok {} (by constructor <;> decide) Mapper.H1 0 _ _ ((Files.isAig_iff _).1 (by decide)) Files.andFile Files.andNet
    (by decide +kernel) Files.andFile_holds r e hn (Files.self_of_seen hs (by decide)) abf
    ⟨by decide, by decide, fun t ht => ⟨t, by revert t; decide, by revert t; decide⟩⟩ abf_plain [] "o/l.v".toList (fun _ => none)
  exact ⟨r, e, d', e', h1, h2 (by decide)⟩

/-- A case of `C87_no_constants_partial`: the network with a choice of C59. -/
example : ∃ L K, Mapper.klutMap { cut := { cutSize := 2, cutLimit := 10 } } Mapper.assocNet Mapper.H4 5 = some L ∧
    Collapse.choiceToKlut Mapper.assocNet.net L = some (some K) ∧ NoConstants K := by
  have h : (Mapper.klutMap { cut := { cutSize := 2, cutLimit := 10 } } Mapper.assocNet Mapper.H4 5).map
      (fun M => (M.cellFanins 7, M.cellFanins 4, ((List.range 8).map M.isCellRoot, (Collapse.choiceToKlut Mapper.assocNet.net M).map (·.isSome)))) =
      some (some [3, 4], some [1, 2], ((List.range 8).map fun n => some (n == 4 || n == 7)), some true) := by decide +kernel
  cases e : Mapper.klutMap { cut := { cutSize := 2, cutLimit := 10 } } Mapper.assocNet Mapper.H4 5 with
  | none => rw [e] at h; simp at h
  | some L =>
    rw [e] at h
    simp only [Option.map_some, Option.some.injEq, Prod.mk.injEq] at h
    obtain ⟨h1, h2, h3, h4⟩ := h
    rcases ek : Collapse.choiceToKlut Mapper.assocNet.net L with _ | _ | K
    · rw [ek] at h4; cases h4
    · rw [ek] at h4; cases h4
    · refine ⟨L, K, rfl, ek, C87_no_constants_partial _ Mapper.assocNet Mapper.assocAig_built (by decide) (by decide) Mapper.assocNet_ordered Mapper.assocNet_sound
        ⟨by decide, by decide, by decide, by decide, rfl⟩ Mapper.H4 5 L e ?_ K ek⟩
      rintro n ⟨⟨⟨a, b, hg⟩, hr⟩, hc⟩
      have hn : n < 8 := (Mapper.assocAig_built.wf.isGate_lt hg).2.2.2
      have hn' : some true = some (n == 4 || n == 7) := by
        have := congrArg (fun l => l[n]?) h3
        simp only [List.getElem?_map, List.getElem?_range hn, Option.map_some, Option.some.injEq] at this
        exact hr.symm.trans this
      simp only [Option.some.injEq, eq_comm (a := true), Bool.or_eq_true, beq_iff_eq] at hn'
      rcases hn' with rfl | rfl
      · rw [h2] at hc; simp at hc
      · rw [h1] at hc; simp at hc

/-- A node that is its own cell becomes a LUT with a constant fanin: the network of `C59_violated_self`. -/
theorem C87_violated_constant : ∃ L K, Mapper.klutMap {} Mapper.selfNet Mapper.H1 0 = some L ∧ Collapse.choiceToKlut Mapper.selfNet.net L = some (some K) ∧ ¬ NoConstants K := by
  have h : (Mapper.klutMap {} Mapper.selfNet Mapper.H1 0).map (fun L => Collapse.choiceToKlut Mapper.selfNet.net L) =
      some (some (some ((Klut.empty.createPi.1.createPi.1.createNode [0] ⟨1, [false, true]⟩).1.createPo 4))) := by decide +kernel
  cases e : Mapper.klutMap {} Mapper.selfNet Mapper.H1 0 with
  | none => rw [e] at h; simp at h
  | some L =>
    rw [e, Option.map_some, Option.some.injEq] at h
    refine ⟨L, _, rfl, h, fun hc => ?_⟩
    have := hc 4 [0] ⟨1, [false, true]⟩ ⟨by decide, by decide, _, rfl, by decide, by decide +kernel⟩ 0 (by simp)
    omega

/-- With the same path for both files, only the netlist is there in the end, whatever the networks are. -/
theorem C87_violated_same (ps : Params) (input p : List Char) (hp : p ≠ []) (r : Mapped) (d d' : List Char → Option Content) (e : writeOut ps input p p r d = some d') :
    ∀ m, d' p ≠ some (.verilog m) := by
  intro m h
  unfold writeOut at e
  split at e
  · cases e
  split at e
  · cases e
  obtain rfl := Option.some.inj e
  unfold lutPath put at h
  rw [if_neg hp, if_pos rfl] at h
  cases h

end Verif.Flow.Write
