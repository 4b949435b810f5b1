import Verif.Props.C65
import Verif.Props.C85
import Verif.Flow.Files

set_option autoImplicit false

/-!
# C86: the flow from files to LUT networks

Full statement: for a file, the LUT network is equivalent to the network in the file; for a folder, it is equivalent to the network in original.aig; if something cannot be read, the flow says so and makes no LUT network.

`C86_file_partial` and `C86_folder_partial` are about bytes: with C85, networks that the reader accepts are as the rest of the flow needs them. For a folder the LUT network is that of compress2.aig,
whatever the other files hold, and that of original.aig exactly if the two are equivalent. The rest is false (`C86_violated_*`).
-/

namespace Verif.Flow.Files

open ChoiceMiter (Good)

variable {β γ : Type}

/-! ### specification -/

/-- the bytes hold a network without registers with at least one input -/
def Holds (bs : List Aiger.Byte) (N : Aig) : Prop := Aiger.read bs = .ok N ∧ N.latches = [] ∧ 0 < N.numPis

/-- two networks with the same interface and the same output functions -/
structure Equal (A B : Aig) : Prop where
  numPis : A.numPis = B.numPis
  outputs : A.outputs.length = B.outputs.length
  val : ∀ x v v', A.Consistent x v → B.Consistent x v' → A.outputs.map (·.val v) = B.outputs.map (·.val v')

/-- the path names a file with a network -/
def NamesFile (path : List Char) : Prop := ∃ a b, path = a ++ ['.', 'a', 'i', 'g'] ++ b

/-! ### proofs -/

theorem isAig_iff (path : List Char) : isAig path = true ↔ NamesFile path := by
  induction path with
  | nil =>
    constructor
    · intro h; cases h
    · rintro ⟨a, b, h⟩
      have := congrArg List.length h
      simp at this
  | cons c r ih =>
    rw [isAig, Bool.or_eq_true, List.isPrefixOf_iff_prefix, ih]
    constructor
    · rintro (⟨b, h⟩ | ⟨a, b, h⟩)
      · exact ⟨[], b, h.symm⟩
      · exact ⟨c :: a, b, by rw [h]; rfl⟩
    · rintro ⟨a, b, h⟩
      cases a with
      | nil => exact .inl ⟨b, h.symm⟩
      | cons d a =>
        rw [List.cons_append, List.cons_append, List.cons.injEq] at h
        exact .inr ⟨a, b, h.2⟩

theorem Holds.good {bs : List Aiger.Byte} {N : Aig} (h : Holds bs N) : Good N.numPis N ∧ N.outputs.length = N.numPos := by
  obtain ⟨i, l, o, a, c⟩ := Aiger.C85_built bs N h.1
  have hl : l = 0 := by rw [← c.latches, h.2.1]; rfl
  subst hl
  refine ⟨⟨c.built, ?_, rfl⟩, ?_⟩
  · rw [c.inputs, c.numPis, Nat.add_zero]
  · rw [c.outputs, c.numPos, Nat.add_zero]

theorem reader_holds {disk : Disk} {path : List Char} {bs : List Aiger.Byte} {N A : Aig} (h : disk path = some bs) (hN : Holds bs N) :
    reader disk path A = some (N, true) := by
  unfold reader
  rw [h]
  dsimp only
  rw [hN.1]

/-- C86 for a file: whenever the flow comes back, the LUT network is equivalent to the network in the file. Missing, as for C65: networks given to the rewriting that have a gate with two fanins of the same
function; mappings in which a node is its own cell; registers; that the flow comes back. -/
theorem C86_file_partial (E : Env β) (hE : EnvOk E) (p : Mapper.Ps) (hp : Mapper.PsOk p.cut) (H : Nat → Nat → Mapper.Heur γ) (cost : γ) (disk : Disk) (path : List Char)
    (hpath : NamesFile path) (bs : List Aiger.Byte) (N : Aig) (hd : disk path = some bs) (hN : Holds bs N) (r : Mapped) (e : run E p H cost disk path = some r)
    (hn : ∀ B ∈ r.synth.given, NoTwins B) (hself : ∀ n, ¬ Mapper.SelfCell r.synth.awc.net r.mapping n) :
    r.complaint = false ∧ Collapse.Equiv N r.luts ∧ ∀ (n : Nat) nd, r.luts.nodes[n]? = some nd → nd.children.length ≤ p.cut.cutSize := by
  unfold run readIn at e
  rw [(isAig_iff path).2 hpath, if_pos rfl, reader_holds hd hN] at e
  dsimp only at e
  rw [if_pos rfl] at e
  split at e
  · cases e
  rename_i S L K em
  obtain rfl := Option.some.inj e
  obtain ⟨hg, hpo⟩ := hN.good
  exact ⟨rfl, C65_partial E hE _ hN.2.2 N hg hpo p hp H cost S L K em hn hself⟩

/-- C86 for a folder: whenever the flow comes back, the LUT network is equivalent to the network in compress2.aig, whatever is in original.aig and compress.aig. Missing: mappings in which a node is its own
cell; registers; that the flow comes back. -/
theorem C86_folder_partial (E : Env β) (hE : EnvOk E) (p : Mapper.Ps) (hp : Mapper.PsOk p.cut) (H : Nat → Nat → Mapper.Heur γ) (cost : γ) (disk : Disk) (path : List Char)
    (hpath : ¬ NamesFile path) (bs : List Aiger.Byte) (D : Aig) (hd : disk (path ++ "/compress2.aig".toList) = some bs) (hD : Holds bs D) (r : Mapped)
    (e : run E p H cost disk path = some r) (hself : ∀ n, ¬ Mapper.SelfCell r.synth.awc.net r.mapping n) :
    Collapse.Equiv D r.luts ∧ ∀ (n : Nat) nd, r.luts.nodes[n]? = some nd → nd.children.length ≤ p.cut.cutSize := by
  have hi : isAig path = false := by
    rw [Bool.eq_false_iff]
    exact fun h => hpath ((isAig_iff path).1 h)
  unfold run at e
  split at e
  · cases e
  rename_i N ok _
  rw [hi, if_neg (by decide)] at e
  split at e
  · cases e
  rename_i S L K em
  obtain rfl := Option.some.inj e
  dsimp only at hself ⊢
  unfold mapperAbc at em
  split at em
  · cases em
  rename_i S1 e1
  split at em
  · cases em
  rename_i L1 e2
  split at em
  · rename_i K1 e3
    rw [Option.some.injEq, Prod.mk.injEq, Prod.mk.injEq] at em
    obtain ⟨rfl, rfl, rfl⟩ := em
    unfold choiceSynthesisAbc at e1
    split at e1
    · cases e1
    rename_i C okC _
    rw [reader_holds hd hD] at e1
    dsimp only at e1
    split at e1
    · cases e1
    rename_i M eM
    split at e1
    · cases e1
    rename_i W eW
    obtain rfl := Option.some.inj e1
    dsimp only at hself e2 e3
    obtain ⟨h, hpo⟩ := hD.good
    obtain ⟨m1, m2, _, m3, _, m4⟩ := ChoiceMiter.merge_weak hD.2.2 h hpo _ (by omega) eM
    have hf : Choice.InputsFirst M := by unfold Choice.InputsFirst; rw [m2]; simp
    obtain ⟨c1, c2, c3⟩ := (Choice.computeChoice_spec m1 hf E.choice hE.words hE.solver).2 W eW
    obtain ⟨r, e4, _, h4⟩ := Mapper.C59_klut_partial p W c1.built (by rw [c1.inputs, c1.numPis]) (by rw [c1.outputs, c1.numPos]) c2 c3 hp H cost L1 e2 hself
    rw [e3] at e4
    obtain rfl := Option.some.inj e4
    obtain ⟨q, hq⟩ := h4 K1 rfl
    refine ⟨⟨q.built, ?_, ?_, ?_, ?_, fun x v v' hv hv' => ?_⟩, hq⟩
    · rw [q.numPis, c1.numPis, m2, List.length_range']
    · rw [q.inputs, c1.inputs, m2, h.inputs]
    · rw [q.numPos, c1.numPos, m3, hpo]
    · rw [q.outputs, c1.outputs, m3]
    · have hc := c1.built.wf.consistent_value x
      have hm := m1.wf.consistent_value x
      rw [q.val x _ v' hc hv', c1.val x _ _ hm hc, m4 x v _ hv hm]
  · cases em

/-- For a folder, the LUT network is equivalent to original.aig if and only if compress2.aig is. -/
theorem C86_original_partial (E : Env β) (hE : EnvOk E) (p : Mapper.Ps) (hp : Mapper.PsOk p.cut) (H : Nat → Nat → Mapper.Heur γ) (cost : γ) (disk : Disk) (path : List Char)
    (hpath : ¬ NamesFile path) (bs bo : List Aiger.Byte) (D N : Aig) (hd : disk (path ++ "/compress2.aig".toList) = some bs) (hD : Holds bs D)
    (_ho : disk (path ++ "/original.aig".toList) = some bo) (hN : Holds bo N) (r : Mapped)
    (e : run E p H cost disk path = some r) (hself : ∀ n, ¬ Mapper.SelfCell r.synth.awc.net r.mapping n) :
    Collapse.Equiv N r.luts ↔ Equal N D := by
  obtain ⟨q, -⟩ := C86_folder_partial E hE p hp H cost disk path hpath bs D hd hD r e hself
  obtain ⟨gN, pN⟩ := hN.good
  obtain ⟨gD, pD⟩ := hD.good
  constructor
  · intro t
    refine ⟨by rw [← t.numPis, q.numPis], by rw [← t.outputs, q.outputs], fun x v v' hv hv' => ?_⟩
    obtain ⟨w, hw⟩ := q.built.wf.exists x
    rw [← t.val x v w hv hw, q.val x v' w hv' hw]
  · intro t
    refine ⟨q.built, by rw [q.numPis, t.numPis], ?_, ?_, by rw [q.outputs, t.outputs], fun x v v' hv hv' => ?_⟩
    · rw [q.inputs, gN.inputs, gD.inputs, t.numPis]
    · rw [q.numPos, ← pD, ← pN, t.outputs]
    · have hc := gD.built.wf.consistent_value x
      rw [q.val x _ v' hc hv', t.val x v _ hv hc]

/-- "Load input wrong!" is printed exactly if the file that the path stands for (for a folder, original.aig) cannot be opened or is no AIGER file. -/
theorem C86_complaint (E : Env β) (p : Mapper.Ps) (H : Nat → Nat → Mapper.Heur γ) (cost : γ) (disk : Disk) (path file : List Char)
    (hf : NamesFile path ∧ file = path ∨ ¬ NamesFile path ∧ file = path ++ "/original.aig".toList) (r : Mapped) (e : run E p H cost disk path = some r) :
    r.complaint = true ↔ disk file = none ∨ ∃ bs, disk file = some bs ∧ Aiger.read bs = .parseError := by
  have hfile : (if isAig path then path else path ++ "/original.aig".toList) = file := by
    rcases hf with ⟨h, rfl⟩ | ⟨h, rfl⟩
    · rw [if_pos ((isAig_iff _).2 h)]
    · rw [if_neg fun h' => h ((isAig_iff _).1 h')]
  unfold run readIn at e
  rw [hfile] at e
  split at e
  · cases e
  rename_i N ok er
  split at e
  · cases e
  obtain rfl := Option.some.inj e
  dsimp only
  unfold reader at er
  split at er
  · rename_i hd
    rw [Option.some.injEq, Prod.mk.injEq] at er
    rw [← er.2]
    exact ⟨fun _ => .inl hd, fun _ => rfl⟩
  · rename_i bs hd
    split at er
    · rename_i M hM
      rw [Option.some.injEq, Prod.mk.injEq] at er
      rw [← er.2]
      constructor
      · intro h; cases h
      · rintro (h | ⟨bs', h, h'⟩)
        · rw [hd] at h; cases h
        · rw [hd] at h
          obtain rfl := Option.some.inj h
          rw [hM] at h'; cases h'
    · rename_i hM
      rw [Option.some.injEq, Prod.mk.injEq] at er
      rw [← er.2]
      exact ⟨fun _ => .inr ⟨bs, hd, hM⟩, fun _ => rfl⟩
    · cases er
    · cases er

/-! ### examples and counterexamples -/

/-- a file with the conjunction of two inputs -/
def andFile : List Aiger.Byte := Aiger.text "aig 3 2 0 1 1\n6\n" ++ [2#8, 2#8]

/-- a file with its complement -/
def nandFile : List Aiger.Byte := Aiger.text "aig 3 2 0 1 1\n7\n" ++ [2#8, 2#8]

/-- the conjunction of two inputs -/
def andNet : Aig := (((Aig.empty.createPi.1).createPi.1).createAnd ⟨1, false⟩ ⟨2, false⟩).1.createPo ⟨3, false⟩

/-- its complement -/
def nandNet : Aig := (((Aig.empty.createPi.1).createPi.1).createAnd ⟨1, false⟩ ⟨2, false⟩).1.createPo ⟨3, true⟩

theorem andFile_holds : Holds andFile andNet := ⟨by decide +kernel, by decide, by decide⟩

theorem nandFile_holds : Holds nandFile nandNet := ⟨by decide +kernel, by decide, by decide⟩

/-- a disk with the given files -/
def diskOf (l : List (String × List Aiger.Byte)) : Disk := fun q => (l.find? fun e => e.1.toList = q).map (·.2)

/-- a folder whose compress2.aig is not equivalent to original.aig -/
def mixed : Disk := diskOf [("d/original.aig", andFile), ("d/compress.aig", andFile), ("d/compress2.aig", nandFile)]

/-- a folder without the two other networks -/
def alone : Disk := diskOf [("d/original.aig", andFile)]

/-- a folder with the three networks, and a name with ".aig" in it -/
def named : Disk := diskOf [("d.aigs/original.aig", andFile), ("d.aigs/compress.aig", andFile), ("d.aigs/compress2.aig", andFile)]

theorem folder_d : ¬ NamesFile "d".toList := fun h => absurd ((isAig_iff _).2 h) (by decide)

/-- what the examples look at -/
def seen (r : Mapped) : Bool × List (Option (List Nat)) × Nat :=
  (r.complaint, (List.range r.synth.awc.net.nodes.length).map r.mapping.cellFanins, r.synth.awc.net.nodes.length)

set_option maxRecDepth 4000 in
theorem mixed_run : (run runEnv {} Mapper.H1 0 mixed "d".toList).map seen = some (false, [some [], some [], some [], some [1, 2]], 4) := by decide +kernel

theorem of_seen {r : Option Mapped} {t : Bool × List (Option (List Nat)) × Nat} (h : r.map seen = some t) : ∃ m, r = some m ∧ seen m = t := by
  cases r with
  | none => cases h
  | some m => exact ⟨m, rfl, Option.some.inj h⟩

theorem self_of_seen {m : Mapped} {c : Bool} {k : Nat} {l : List (Option (List Nat))} (h : seen m = (c, l, k))
    (hl : ∀ n < k, l[n]? ≠ some (some [n])) : ∀ n, ¬ Mapper.SelfCell m.synth.awc.net m.mapping n := by
  rintro n ⟨⟨⟨a, b, hg⟩, _⟩, hc⟩
  unfold seen at h
  rw [Prod.mk.injEq, Prod.mk.injEq] at h
  obtain ⟨_, h5, h6⟩ := h
  have hn : n < m.synth.awc.net.nodes.length := by
    obtain ⟨_, _, nd, hnd, _⟩ := hg
    exact Aig.lt_of_getElem? hnd
  apply hl n (by omega)
  rw [← h5, List.getElem?_map, List.getElem?_range hn, Option.map_some, hc]

/-- The case of `C86_folder_partial` and `C86_original_partial`: a LUT network comes out for `mixed`, with the function of compress2.aig; nothing is reported. So the function of original.aig is lost. -/
theorem C86_violated_mixed : ∃ r, run runEnv {} Mapper.H1 0 mixed "d".toList = some r ∧ r.complaint = false ∧ Collapse.Equiv nandNet r.luts ∧ ¬ Collapse.Equiv andNet r.luts := by
  obtain ⟨r, e, hs⟩ := of_seen mixed_run
  have hself := self_of_seen hs (by decide)
  have hc : r.complaint = false := congrArg (·.1) hs
  have d2 : mixed ("d".toList ++ "/compress2.aig".toList) = some nandFile := by decide +kernel
  have d0 : mixed ("d".toList ++ "/original.aig".toList) = some andFile := by decide +kernel
  refine ⟨r, e, hc, (C86_folder_partial runEnv runEnv_ok {} (by constructor <;> decide) Mapper.H1 0 mixed _ folder_d _ _ d2 nandFile_holds r e hself).1, fun t => ?_⟩
  have q := (C86_original_partial runEnv runEnv_ok {} (by constructor <;> decide) Mapper.H1 0 mixed _ folder_d _ _ _ _ d2 nandFile_holds d0 andFile_holds r e hself).1 t
  have v1 := andFile_holds.good.1.built.wf.consistent_value fun _ => true
  have v2 := nandFile_holds.good.1.built.wf.consistent_value fun _ => true
  have := q.val _ _ _ v1 v2
  revert this
  decide +kernel

/-- a disk with one file -/
def single : Disk := diskOf [("a.aig", andFile)]

set_option maxRecDepth 4000 in
theorem single_run : (run runEnv {} Mapper.H1 0 single "a.aig".toList).map seen = some (false, [some [], some [], some [], some [1, 2]], 4) := by decide +kernel

set_option maxRecDepth 4000 in
theorem single_given : (run runEnv {} Mapper.H1 0 single "a.aig".toList).map (fun r => r.synth.given) =
    some [andNet, andNet, andNet, andNet, andNet, andNet] := by decide +kernel

/-- a case of `C86_file_partial` -/
example : ∃ r, run runEnv {} Mapper.H1 0 single "a.aig".toList = some r ∧ Collapse.Equiv andNet r.luts := by
  obtain ⟨r, e, hs⟩ := of_seen single_run
  have hg := single_given
  rw [e, Option.map_some, Option.some.injEq] at hg
  refine ⟨r, e, (C86_file_partial runEnv runEnv_ok {} (by constructor <;> decide) Mapper.H1 0 _ _ ((isAig_iff _).1 (by decide)) andFile andNet (by decide +kernel)
    andFile_holds r e ?_ (self_of_seen hs (by decide))).2.1⟩
  intro B hB
  rw [hg] at hB
  simp only [List.mem_cons, List.not_mem_nil, or_false, or_self] at hB
  subst hB
  exact Rewrite.separated_sound andFile_holds.good.1.built (by decide) (xs := probes) (by decide +kernel)

/-- The two other networks cannot be read: nothing is reported, and the result is a network without inputs and outputs. -/
theorem C86_violated_alone : (run runEnv {} Mapper.H1 0 alone "d".toList).map (fun r => (r.complaint, r.luts.numPis, r.luts.outputs)) = some (false, 0, []) := by decide +kernel

set_option maxRecDepth 4000 in
/-- A folder with ".aig" in its name is taken for a file: the networks in it are not read, and the result is a network without inputs and outputs. -/
theorem C86_violated_named : (run runEnv {} Mapper.H1 0 named "d.aigs".toList).map (fun r => (r.complaint, r.luts.numPis, r.luts.outputs)) = some (true, 0, []) := by decide +kernel

set_option maxRecDepth 4000 in
/-- a case of `C86_complaint`: a file that is no AIGER file -/
example : Aiger.read (Aiger.text "hello\n") = .parseError ∧
    (run runEnv {} Mapper.H1 0 (diskOf [("a.aig", Aiger.text "hello\n")]) "a.aig".toList).map (fun r => r.complaint) = some true := by decide +kernel

set_option maxRecDepth 4000 in
/-- Nothing can be read: this is reported, but a LUT network comes out all the same. -/
theorem C86_violated_unread : (run runEnv {} Mapper.H1 0 (diskOf []) "a.aig".toList).map (fun r => (r.complaint, r.luts.numPis, r.luts.outputs)) = some (true, 0, []) := by decide +kernel

end Verif.Flow.Files
