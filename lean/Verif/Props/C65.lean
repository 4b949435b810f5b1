import Verif.Flow.Proof

set_option autoImplicit false

/-!
# C65: the choice flow keeps the functions

Full statement: for every network that is read, the LUT network made by the flow manager (two scripts of rewriting and balancing, miter of the three
networks, choice computation, mapping, conversion) has the same inputs and the same output functions.

The two scripts rewrite in place what `_original_aig` and `_compress_aig` share their storage with, so the miter gets networks that were never
constructed through the interface. `C65_partial` shows that this does no harm to the result: the outputs are those of the first network, which is new.
The full statement fails with the rewriting (`C65_violated`, from C25).
-/

namespace Verif.Flow
open Aig (Built)
open ChoiceMiter (Good)

variable {β γ : Type}

/-- C65 for networks without registers whose inputs come first: whenever the flow comes back, the LUT network is a constructed network with
the inputs and the output functions of the network that was read, and no LUT has more inputs than allowed. Whatever the order of equal operands in the
balancing, the random numbers, the heuristics of the mapper and the answers of a sound solver. Missing: networks given to the rewriting that have a gate
with two fanins of the same function (false, see `C65_violated`); registers; mappings in which a node is its own cell; that the flow comes back. -/
theorem C65_partial (E : Env β) (hE : EnvOk E) (k : Nat) (hk : 0 < k) (N : Aig) (h : Good k N) (hpo : N.outputs.length = N.numPos)
    (p : Mapper.Ps) (hp : Mapper.PsOk p.cut) (H : Nat → Nat → Mapper.Heur γ) (cost : γ) (S : Synth) (L : Mapping) (K : Klut)
    (e : mapper E p H cost N = some (S, L, K)) (hn : ∀ B ∈ S.given, NoTwins B) (hself : ∀ n, ¬ Mapper.SelfCell S.awc.net L n) :
    Collapse.Equiv N K ∧ ∀ (n : Nat) nd, K.nodes[n]? = some nd → nd.children.length ≤ p.cut.cutSize := by
  unfold mapper at e
  split at e
  · cases e
  rename_i S1 e1
  split at e
  · cases e
  rename_i L1 e2
  split at e
  · rename_i K1 e3
    rw [Option.some.injEq, Prod.mk.injEq, Prod.mk.injEq] at e
    obtain ⟨rfl, rfl, rfl⟩ := e
    obtain ⟨s, c1, c2, c3, m1, m2, m3, m4, _⟩ := choiceSynthesis_spec hE hk h hpo e1 hn
    obtain ⟨r, e4, _, h4⟩ := Mapper.C59_klut_partial p S1.awc c1.built (by rw [c1.inputs, c1.numPis]) (by rw [c1.outputs, c1.numPos]) c2 c3 hp
      H cost L1 e2 hself
    rw [e3] at e4
    obtain rfl := Option.some.inj e4
    obtain ⟨q, hq⟩ := h4 K1 rfl
    refine ⟨⟨q.built, ?_, ?_, ?_, ?_, fun x v v' hv hv' => ?_⟩, hq⟩
    · rw [q.numPis, c1.numPis, m1, h.numPis, List.length_range']
    · rw [q.inputs, c1.inputs, m1, h.inputs]
    · rw [q.numPos, c1.numPos, m2, hpo]
    · rw [q.outputs, c1.outputs, m2]
    · have hc := c1.built.wf.consistent_value x
      rw [q.val x _ v' hc hv', c1.val x _ _ (m4 x) hc, m3 x v _ hv (m4 x)]
  · cases e

/-! ### Example and counterexample -/

/-- default parameters of the rewriting, one database structure, a sorting, the environment of C63 -/
def runEnv : Env Unit := ⟨Rewrite.rwDefault, Rewrite.nor4Db, Balance.sortDesc, Choice.runEnv, 60⟩

theorem runEnv_ok : EnvOk runEnv :=
  ⟨⟨_, _, rfl, by decide⟩, by decide, fun _ _ => List.perm_insertionSort _ _, by decide, Choice.Prover.search_sound⟩

/-- what becomes of `twiceOut`: the gates 5 = 1&2, 6 = 3&4, 7 = 5&6 and the outputs 7 and !7 -/
def shared : Aig :=
  ((([(⟨1, false⟩, ⟨2, false⟩), (⟨3, false⟩, ⟨4, false⟩), (⟨5, false⟩, ⟨6, false⟩)] : List (Sig × Sig)).foldl (fun N p => (N.createAnd p.1 p.2).1)
      (Aig.cloneInputs 4 Aig.empty).1).createPo ⟨7, false⟩).createPo ⟨7, true⟩

theorem shared_built : Built shared :=
  .po (.po (.and (.and (.and (.pi (.pi (.pi (.pi .empty)))) (by decide) (by decide)) (by decide) (by decide)) (by decide) (by decide))
    (by decide)) (by decide)

theorem twiceOut_built : Built Rewrite.twiceOut := .po (.po Rewrite.twice_built (by decide)) (by decide)

/-- assignments that separate the fanins of all gates -/
def probes : List (List Bool) := [[true], [false, true], [false, false, true], [true, true], [true, false, true]]

set_option maxRecDepth 4000 in
/-- The flow on a network of six gates with two outputs: rewriting finds that the two structures are complements of each other, the mapper makes one
LUT with four inputs, and one inverter. -/
theorem twiceOut_run : (mapper runEnv {} Mapper.H1 0 Rewrite.twiceOut).map (fun r =>
      (r.1.given, (List.range 8).map r.2.1.cellFanins, r.1.awc.net.nodes.length, r.2.2.numGates)) =
    some ([Rewrite.twiceOut, shared, shared, shared, shared, shared],
      [some [], some [], some [], some [], some [], some [], some [], some [1, 2, 3, 4]], 8, 2) := by decide +kernel

/-- a case of `C65_partial` -/
example : ∃ S L K, mapper runEnv {} Mapper.H1 0 Rewrite.twiceOut = some (S, L, K) ∧ K.numGates = 2 ∧ Collapse.Equiv Rewrite.twiceOut K := by
  have h := twiceOut_run
  cases e : mapper runEnv {} Mapper.H1 0 Rewrite.twiceOut with
  | none => rw [e] at h; cases h
  | some r =>
    obtain ⟨S, L, K⟩ := r
    rw [e, Option.map_some, Option.some.injEq, Prod.mk.injEq, Prod.mk.injEq, Prod.mk.injEq] at h
    obtain ⟨h1, h2, h3, h4⟩ := h
    dsimp only at h1 h2 h3 h4
    refine ⟨S, L, K, rfl, h4, (C65_partial runEnv runEnv_ok 4 (by decide) _ ⟨twiceOut_built, by decide, by decide⟩ (by decide) {}
      (by constructor <;> decide) Mapper.H1 0 S L K e ?_ ?_).1⟩
    · intro B hB
      rw [h1] at hB
      simp only [List.mem_cons, List.not_mem_nil, or_false, or_self] at hB
      rcases hB with rfl | rfl
      · exact Rewrite.separated_sound twiceOut_built (by decide) (xs := probes) (by decide +kernel)
      · exact Rewrite.separated_sound shared_built (by decide) (xs := probes) (by decide +kernel)
    · rintro n ⟨⟨⟨a, b, g⟩, _⟩, hc⟩
      have hn : n < 8 := by
        obtain ⟨_, _, nd, hnd, _⟩ := g
        rw [← h3]; exact Aig.lt_of_getElem? hnd
      have := congrArg (·[n]?) h2
      simp only [List.getElem?_map, List.getElem?_range hn, Option.map_some, hc] at this
      have : ∀ n < 8, (some (some [n]) : Option (Option (List Nat))) ≠
          [some [], some [], some [], some [], some [], some [], some [], some [1, 2, 3, 4]][n]? := by decide
      exact this n hn (by assumption)

set_option maxRecDepth 4000 in
theorem collapse_run : (mapper runEnv {} Mapper.H1 0 Rewrite.collapse).map (fun r => (r.2.2.outputs, r.1.original.outputs, r.1.given.head?)) =
    some ([6, 0], [⟨7, false⟩, ⟨11, false⟩], some Rewrite.collapse) := by decide +kernel

theorem collapse_built : Built Rewrite.collapse := .po (.po (.and Rewrite.twice_built (by decide) (by decide)) (by decide)) (by decide)

/-- what the flow makes of `collapse` -/
theorem collapse_wrong : ∃ S L K, mapper runEnv {} Mapper.H1 0 Rewrite.collapse = some (S, L, K) ∧
    ∃ x v, Rewrite.collapse.Consistent x v ∧ ∀ v', K.Consistent x v' → K.outputs.map v' ≠ Rewrite.collapse.outputs.map (·.val v) := by
  have h := collapse_run
  cases e : mapper runEnv {} Mapper.H1 0 Rewrite.collapse with
  | none => rw [e] at h; cases h
  | some r =>
    obtain ⟨S, L, K⟩ := r
    rw [e, Option.map_some, Option.some.injEq, Prod.mk.injEq, Prod.mk.injEq] at h
    refine ⟨S, L, K, rfl, fun _ => true, _, collapse_built.wf.consistent_value _, ?_⟩
    intro v' hv'
    dsimp only at h
    rw [h.1]
    have q := Aig.C45_bool Rewrite.collapse collapse_built (by decide) (fun _ => true) _ (collapse_built.wf.consistent_value _)
    rw [show Aig.simulate (Aig.boolSim fun _ => true) Rewrite.collapse = some [true, true] by decide +kernel] at q
    have ho : Rewrite.collapse.outputs.map (·.val (Rewrite.collapse.value fun _ => true)) = [true, true] := by
      have := Option.some.inj q
      rw [List.take_of_length_le (by decide)] at this
      exact this.symm
    rw [ho]
    simp [hv'.const0]

/-- C65 fails in general: the flow on `collapse` gives a LUT network whose second output is constant 0, where it should be the AND of all four
inputs. -/
theorem C65_violated : ∃ N S L K, Good 4 N ∧ N.outputs.length = N.numPos ∧ mapper runEnv {} Mapper.H1 0 N = some (S, L, K) ∧
    ∃ x v, N.Consistent x v ∧ ∀ v', K.Consistent x v' → K.outputs.map v' ≠ N.outputs.map (·.val v) := by
  obtain ⟨S, L, K, e, h⟩ := collapse_wrong
  exact ⟨_, S, L, K, ⟨collapse_built, by decide, by decide⟩, by decide, e, h⟩

end Verif.Flow
