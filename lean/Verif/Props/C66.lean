import Verif.Props.C65
import Verif.Props.C35
import Verif.Props.C44

set_option autoImplicit false

/-!
# C66: the verification step of the choice flow

Full statement: when the step "Formal Verfication" of the flow manager says "equivalent", the LUT network has the output functions of the network that
was read, and otherwise it has not.

The step compares with `_original_aig`, whose storage the first rewriting has changed. `C66_partial` shows that this does no harm if that rewriting
is right. `C66_violated`: it says "equivalent" for a wrong LUT network, because the rewriting has broken what it compares with in the same way.
-/

namespace Verif.Flow
open Aig (Built Source LiveModels)
open ChoiceMiter (Good)

variable {β : Type}

theorem cleanupInto_view {N D : Aig} {leaves : List Sig} {f : Nat} {r : Aig × List Sig} (e : Aig.cleanupInto N D leaves f = some r) :
    ∃ order, Topo.topoView N f = some order := by
  unfold Aig.cleanupInto at e
  split at e
  · cases e
  rename_i e1
  unfold Aig.cleanupImpl at e1
  split at e1
  · rename_i h
    exact ⟨_, h⟩
  · cases e1

theorem miter_views {A B : Aig} {f : Nat} {M : Aig} (e : Aig.miter A B f = some (some M)) :
    (∃ o, Topo.topoView A f = some o) ∧ ∃ o, Topo.topoView B f = some o := by
  unfold Aig.miter at e
  split at e
  · cases e
  split at e
  · cases e
  rename_i e1
  unfold Aig.miterXors at e1
  dsimp only at e1
  split at e1
  · cases e1
  rename_i e2
  split at e1
  · cases e1
  rename_i e3
  exact ⟨cleanupInto_view e2, cleanupInto_view e3⟩

/-- `debug_by_miter` with a network that was changed in place: its verdict is about the functions that can be read from the storage -/
theorem debug_source {solve : List (List Nat) → Nat → Cnf.Answer} (hs : Cnf.Correct solve) {A B : Aig} (hA : Built A) (hB : Source B)
    (hi1 : A.inputs.length = A.numPis) (hi2 : B.inputs.length = B.numPis) (ho1 : A.outputs.length = A.numPos) (ho2 : B.outputs.length = B.numPos)
    (hpi : A.numPis = B.numPis) (hpo : A.numPos = B.numPos) {b : Bool} (e : debugByMiter solve A B = some b)
    (f : (Nat → Bool) → List Bool)
    (hf : ∀ x, ∃ v', LiveModels B v' ∧ (∀ (k n : Nat), B.inputs[k]? = some n → v' n = x k) ∧ B.outputs.map (·.val v') = f x) :
    b = true ↔ ∀ x v, A.Consistent x v → A.outputs.map (·.val v) = f x := by
  unfold debugByMiter at e
  split at e
  · cases e
  · rename_i e1
    exfalso
    unfold Aig.miter at e1
    rw [if_neg (by omega)] at e1
    split at e1 <;> cases e1
  rename_i M e1
  obtain ⟨⟨o1, q1⟩, o2, q2⟩ := miter_views e1
  obtain ⟨M', out, e2, m1, m2, m3, m4, m5, hM⟩ := Aig.miter_core A B hA.readable.source hB hi1 hi2 ho1 ho2 hpi hpo _ q1 q2
  rw [e1, Option.some.injEq, Option.some.injEq] at e2
  subst e2
  have key : ∀ x v w, M.Consistent x w → A.Consistent x v → (out.val w = true ↔ A.outputs.map (·.val v) ≠ f x) := by
    intro x v w hw hv
    obtain ⟨v', h1, h2, h3⟩ := hf x
    rw [hM x w v v' hw (hv.models.live hA.wf) hv.input h1 h2, ← h3]
    constructor
    · rintro ⟨k, a, c, ha, hc, hne⟩ he
      have := congrArg (·[k]?) he
      simp only [List.getElem?_map, ha, hc, Option.map_some, Option.some.injEq] at this
      exact hne this
    · intro hne
      by_contra hno
      apply hne
      apply List.ext_getElem?
      intro k
      rw [List.getElem?_map, List.getElem?_map]
      by_cases hk : k < A.outputs.length
      · obtain ⟨a, ha⟩ : ∃ a, A.outputs[k]? = some a := ⟨_, List.getElem?_eq_getElem hk⟩
        obtain ⟨c, hc⟩ : ∃ c, B.outputs[k]? = some c := ⟨_, List.getElem?_eq_getElem (by omega)⟩
        rw [ha, hc]
        simp only [Option.map_some, Option.some.injEq]
        by_contra hne
        exact hno ⟨k, a, c, ha, hc, hne⟩
      · rw [List.getElem?_eq_none (by omega), List.getElem?_eq_none (by omega)]; rfl
  have hv := Cnf.C44_sound M m1 (by omega) (by rw [m4, m5]; rfl) out m4 solve hs
  split at e
  · rename_i he
    rw [he] at hv
    obtain rfl := Option.some.inj e
    refine Iff.intro (fun _ x v hc => ?_) fun _ => rfl
    have hw := m1.wf.consistent_value x
    by_contra hne
    have := (key x v _ hw hc).2 hne
    rw [hv x _ hw] at this; cases this
  · rename_i cex he
    rw [he] at hv
    obtain rfl := Option.some.inj e
    refine Iff.intro (fun h => by cases h) fun hall => ?_
    exfalso
    have hw := m1.wf.consistent_value fun k => (cex[k]?).getD false
    have hc := hA.wf.consistent_value fun k => (cex[k]?).getD false
    exact (key _ _ _ hw hc).1 (hv.2 _ _ (fun k b hb => by rw [hb]; rfl) hw) (hall _ _ hc)
  · cases e

theorem choiceSynthesis_original {E : Env β} {N : Aig} {S : Synth} (e : choiceSynthesis E N = some S) :
    ∃ A, rewriteIn E true false N = some (S.original, A) := by
  unfold choiceSynthesis at e
  split at e
  · cases e
  rename_i r1 e1
  split at e
  · cases e
  split at e
  · cases e
  split at e
  · cases e
  obtain rfl := Option.some.inj e
  unfold dchCompress at e1
  split at e1
  · cases e1
  rename_i M A e2
  split at e1
  · cases e1
  split at e1
  · cases e1
  obtain rfl := Option.some.inj e1
  exact ⟨A, e2⟩

/-- C66 for networks without registers whose inputs come first and that have no gate with two fanins of the same function. Whatever LUT network is
checked: if the step says "equivalent" its output functions are those of the network that was read, and if it says "unequivalent" they are not. The
solver may give up, but its answers are right. Missing: the other networks (false, see `C66_violated`); that the step comes back. -/
theorem C66_partial (E : Env β) (hE : EnvOk E) (k : Nat) (N : Aig) (h : Good k N) (hpo : N.outputs.length = N.numPos) (hn : NoTwins N)
    (S : Synth) (e : choiceSynthesis E N = some S) (K : Klut) (hK : Klut.Built K) (hKi : K.inputs.length = K.numPis)
    (hKo : K.outputs.length = K.numPos) (hpi : K.numPis = N.numPis) (hnp : K.numPos = N.numPos)
    (h32 : ∀ n cs f, K.IsLut n cs f → cs.length ≤ 32) (solve : List (List Nat) → Nat → Cnf.Answer) (hs : Cnf.Correct solve) (b : Bool)
    (ev : verification solve S K = some b) :
    b = true ↔ ∀ x v v', N.Consistent x v → K.Consistent x v' → K.outputs.map v' = N.outputs.map (·.val v) := by
  obtain ⟨A, e1⟩ := choiceSynthesis_original e
  obtain ⟨e2, _⟩ := rewriteIn_core e1
  obtain ⟨w, rest, hdb, hw⟩ := hE.db
  rw [hdb] at e2
  obtain ⟨r1, r2, r3, r4, r5, r6⟩ := Rewrite.core_source hw h.built (Good.pis h) (P := ⟨E.rw.cuts, E.rw.cost0, false, true⟩) hE.cuts e2
    (Rewrite.sep_ci hw h.built (Good.pis h) (P := ⟨E.rw.cuts, E.rw.cost0, false, true⟩) hE.cuts hn e2)
  obtain ⟨D, e3, d1, d2, d3, d4, d5, d6⟩ := ToAig.C35_klut_partial K hK hKi hKo h32
  unfold verification at ev
  rw [e3] at ev
  dsimp only at ev
  rw [debug_source hs d1 r1 (by omega) (by rw [r2, r3, Good.pis h]) (by omega) (by rw [r5, r4, hpo]) (by omega) (by omega) ev
    (fun x => N.outputs.map (·.val (N.value x))) (fun x => r6 x _ (h.built.wf.consistent_value x))]
  constructor
  · intro hall x v v' hv hv'
    have hc := d1.wf.consistent_value x
    rw [← d6 x v' _ hv' hc, hall x _ hc]
    exact List.map_congr_left fun s hs => h.built.wf.unique_val (h.built.wf.consistent_value x) hv (h.built.wf.outputs s hs)
  · intro hall x v hv
    obtain ⟨v', hv'⟩ : ∃ v', K.Consistent x v' := hK.wf.exists x
    rw [d6 x v' v hv' hv, hall x _ v' (h.built.wf.consistent_value x) hv']

/-- C66 for a LUT network with another interface, under the same conditions and for every solver: the verdict is "unequivalent". -/
theorem C66_interface_partial (E : Env β) (hE : EnvOk E) (k : Nat) (N : Aig) (h : Good k N) (hn : NoTwins N) (S : Synth)
    (e : choiceSynthesis E N = some S) (K : Klut) (hK : Klut.Built K) (hKi : K.inputs.length = K.numPis) (hKo : K.outputs.length = K.numPos)
    (hd : K.numPis ≠ N.numPis ∨ K.numPos ≠ N.numPos) (h32 : ∀ n cs f, K.IsLut n cs f → cs.length ≤ 32)
    (solve : List (List Nat) → Nat → Cnf.Answer) : verification solve S K = some false := by
  obtain ⟨A, e1⟩ := choiceSynthesis_original e
  obtain ⟨e2, _⟩ := rewriteIn_core e1
  obtain ⟨w, rest, hdb, hw⟩ := hE.db
  rw [hdb] at e2
  obtain ⟨r1, r2, r3, r4, r5, r6⟩ := Rewrite.core_source hw h.built (Good.pis h) (P := ⟨E.rw.cuts, E.rw.cost0, false, true⟩) hE.cuts e2
    (Rewrite.sep_ci hw h.built (Good.pis h) (P := ⟨E.rw.cuts, E.rw.cost0, false, true⟩) hE.cuts hn e2)
  obtain ⟨D, e3, d1, d2, d3, d4, d5, d6⟩ := ToAig.C35_klut_partial K hK hKi hKo h32
  unfold verification
  rw [e3]
  dsimp only
  unfold debugByMiter Aig.miter
  rw [if_pos (by omega)]

/-- the solver of the examples: complete search -/
def searchSolve (cs : List (List Nat)) (l : Nat) : Cnf.Answer := Choice.Prover.search 0 cs [l]

set_option maxRecDepth 4000 in
theorem twiceOut_verified : (mapper runEnv {} Mapper.H1 0 Rewrite.twiceOut).map (fun r => verification searchSolve r.1 r.2.2) = some (some true) := by
  decide +kernel

set_option maxRecDepth 4000 in
theorem collapse_verified : (mapper runEnv {} Mapper.H1 0 Rewrite.collapse).map (fun r => verification searchSolve r.1 r.2.2) = some (some true) := by
  decide +kernel

theorem searchSolve_correct : Cnf.Correct searchSolve := by
  intro cs l
  unfold searchSolve
  split
  · rename_i a e
    obtain ⟨h1, h2⟩ := Choice.Prover.search_right _ _ _ _ e
    exact ⟨h1, h2 l List.mem_cons_self⟩
  · rename_i e
    rintro ⟨a, h1, h2⟩
    exact Choice.Prover.search_sound _ _ _ e a h1 fun m hm => by rw [List.mem_singleton.1 hm]; exact h2
  · trivial

/-- a LUT network with four inputs and the constant outputs 0, 0 -/
def zeroLuts : Klut := (((((Klut.empty.createPi.1).createPi.1).createPi.1).createPi.1).createPo 0).createPo 0

theorem zeroLuts_built : Klut.Built zeroLuts := .po (.po (.pi (.pi (.pi (.pi .empty)))) (by decide)) (by decide)

theorem zeroLuts_none (n : Nat) (cs : List Nat) (f : TT) : ¬ zeroLuts.IsLut n cs f := by
  rintro ⟨h1, h2, nd, h3, -⟩
  have h4 : n < 6 := Aig.lt_of_getElem? h3
  have : ∀ n < 6, 2 ≤ n → n ∈ zeroLuts.inputs := by decide
  exact h2 (this n h4 h1)

set_option maxRecDepth 4000 in
theorem zeroLuts_refuted : (choiceSynthesis runEnv Rewrite.twiceOut).map (fun S => verification searchSolve S zeroLuts) = some (some false) := by
  decide +kernel

/-- a case of `C66_partial` with the verdict "unequivalent" -/
example : ∃ S, choiceSynthesis runEnv Rewrite.twiceOut = some S ∧ verification searchSolve S zeroLuts = some false ∧
    ¬ ∀ x v v', Rewrite.twiceOut.Consistent x v → zeroLuts.Consistent x v' → zeroLuts.outputs.map v' = Rewrite.twiceOut.outputs.map (·.val v) := by
  have h := zeroLuts_refuted
  cases e : choiceSynthesis runEnv Rewrite.twiceOut with
  | none => rw [e] at h; cases h
  | some S =>
    rw [e, Option.map_some, Option.some.injEq] at h
    refine ⟨S, rfl, h, fun hall => ?_⟩
    have := (C66_partial runEnv runEnv_ok 4 _ ⟨twiceOut_built, by decide, by decide⟩ (by decide)
      (Rewrite.separated_sound twiceOut_built (by decide) (xs := probes) (by decide +kernel)) S e zeroLuts zeroLuts_built (by decide) (by decide)
      (by decide) (by decide) (fun n cs f hl => absurd hl (zeroLuts_none n cs f)) searchSolve searchSolve_correct false h).2 hall
    cases this

/-- a case of `C66_interface_partial`: a LUT network with three inputs -/
example : ∃ S, choiceSynthesis runEnv Rewrite.twiceOut = some S ∧
    verification searchSolve S (((Klut.empty.createPi.1).createPi.1).createPi.1.createPo 0) = some false := by
  have h := zeroLuts_refuted
  cases e : choiceSynthesis runEnv Rewrite.twiceOut with
  | none => rw [e] at h; cases h
  | some S =>
    refine ⟨S, rfl, C66_interface_partial runEnv runEnv_ok 4 _ ⟨twiceOut_built, by decide, by decide⟩
      (Rewrite.separated_sound twiceOut_built (by decide) (xs := probes) (by decide +kernel)) S e _ (.po (.pi (.pi (.pi .empty))) (by decide))
      (by decide) (by decide) (by decide) (fun n cs f hl => ?_) searchSolve⟩
    obtain ⟨h1, h2, nd, h3, -⟩ := hl
    have h4 : n < 5 := Aig.lt_of_getElem? h3
    have : ∀ n < 5, 2 ≤ n → n ∈ (((Klut.empty.createPi.1).createPi.1).createPi.1.createPo 0).inputs := by decide
    exact absurd (this n h4 h1) h2

/-- and one with the verdict "equivalent": the result of the flow -/
example : ∃ S L K, mapper runEnv {} Mapper.H1 0 Rewrite.twiceOut = some (S, L, K) ∧ verification searchSolve S K = some true := by
  have h := twiceOut_verified
  cases e : mapper runEnv {} Mapper.H1 0 Rewrite.twiceOut with
  | none => rw [e] at h; cases h
  | some r =>
    rw [e, Option.map_some, Option.some.injEq] at h
    exact ⟨_, _, _, rfl, h⟩

/-- C66 fails in general: the flow on `collapse` gives a wrong LUT network and the step says "equivalent". The solver is complete search. -/
theorem C66_violated : ∃ N S L K, Good 4 N ∧ N.outputs.length = N.numPos ∧ mapper runEnv {} Mapper.H1 0 N = some (S, L, K) ∧
    verification searchSolve S K = some true ∧
    ∃ x v, N.Consistent x v ∧ ∀ v', K.Consistent x v' → K.outputs.map v' ≠ N.outputs.map (·.val v) := by
  have h := collapse_verified
  obtain ⟨S, L, K, e, hne⟩ := collapse_wrong
  rw [e, Option.map_some, Option.some.injEq] at h
  exact ⟨_, S, L, K, ⟨collapse_built, by decide, by decide⟩, by decide, e, h, hne⟩

end Verif.Flow
