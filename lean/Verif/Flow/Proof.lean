import Verif.Flow.Basic
import Verif.Choice.MiterWeak
import Verif.Props.C17
import Verif.Props.C25
import Verif.Props.C63

set_option autoImplicit false

/-!
# The choice flow (helper lemmas)
-/

namespace Verif.Flow
open Aig (Built WF)
open ChoiceMiter (Good)
open Cuts (maxCutSize)

variable {β γ : Type}

/-! ### The inputs of a cleaned network are its first nodes -/

theorem createAnd_inputs (N : Aig) (a b : Sig) : (N.createAnd a b).1.inputs = N.inputs := by
  unfold Aig.createAnd
  dsimp only
  split
  · rfl
  split
  · rfl
  split
  · rfl
  · rfl

theorem cloneNodes_inputs (N : Aig) : ∀ (l : List Nat) (D : Aig) (m : Aig.SigMap) (D' : Aig) (m' : Aig.SigMap),
    Aig.cloneNodes N l D m = some (D', m') → D'.inputs = D.inputs := by
  intro l
  induction l with
  | nil =>
    intro D m D' m' e
    rw [Aig.cloneNodes, Option.some.injEq, Prod.mk.injEq] at e
    rw [← e.1]
  | cons n l ih =>
    intro D m D' m' e
    rw [Aig.cloneNodes] at e
    split at e
    · cases e
    rename_i D1 m1 e1
    rw [ih _ _ _ _ e]
    unfold Aig.cloneNode at e1
    split at e1
    · rw [Option.some.injEq, Prod.mk.injEq] at e1
      rw [← e1.1]
    split at e1
    · cases e1
    rw [Option.some.injEq, Prod.mk.injEq] at e1
    rw [← e1.1, createAnd_inputs]

theorem cloneOutputs_inputs : ∀ (l : List Sig) (D : Aig), (Aig.cloneOutputs D l).inputs = D.inputs
  | [], _ => rfl
  | f :: l, D => by rw [Aig.cloneOutputs, cloneOutputs_inputs l]; rfl

theorem cloneInputs_inputs : ∀ (k j : Nat) (D : Aig), D.nodes.length = j + 1 → D.inputs = List.range' 1 j →
    (Aig.cloneInputs k D).1.inputs = List.range' 1 (j + k)
  | 0, j, D, _, h => h
  | k + 1, j, D, h1, h2 => by
    rw [Aig.cloneInputs]
    dsimp only
    rw [cloneInputs_inputs k (j + 1) D.createPi.1 (by simp [Aig.createPi, h1]) (by
      simp only [Aig.createPi, h2, h1]
      rw [List.range'_concat]; simp [Nat.add_comm])]
    rw [show j + 1 + k = j + (k + 1) by omega]

theorem cleanup_inputs {N D : Aig} {f : Nat} (e : Aig.cleanupDangling N f = some D) : D.inputs = List.range' 1 N.numPis := by
  unfold Aig.cleanupDangling at e
  dsimp only at e
  split at e
  · cases e
  rename_i D1 m1 e1
  obtain rfl := Option.some.inj e
  rw [cloneOutputs_inputs]
  unfold Aig.cleanupImpl at e1
  split at e1
  · rw [cloneNodes_inputs _ _ _ _ _ _ e1, cloneInputs_inputs _ 0 _ rfl rfl, Nat.zero_add]
  · cases e1

/-! ### Scripts -/

/-- no gate has two fanins with the same function -/
def NoTwins (N : Aig) : Prop := ∀ n a b, N.IsGate n a b → ∃ x v, N.Consistent x v ∧ a.val v ≠ b.val v

/-- a network with `k` inputs and the output functions of `N` -/
structure Same (k : Nat) (N D : Aig) : Prop where
  good : Good k D
  numPos : D.outputs.length = D.numPos
  outputs : D.outputs.length = N.outputs.length
  val : ∀ x v v', N.Consistent x v → D.Consistent x v' → D.outputs.map (·.val v') = N.outputs.map (·.val v)

theorem Same.refl {k : Nat} {N : Aig} (h : Good k N) (hpo : N.outputs.length = N.numPos) : Same k N N :=
  ⟨h, hpo, rfl, fun _ _ _ hv hv' => List.map_congr_left fun s hs => h.built.wf.unique_val hv' hv (h.built.wf.outputs s hs)⟩

theorem Same.trans {k : Nat} {N D F : Aig} (h : Same k N D) (g : Same k D F) : Same k N F :=
  ⟨g.good, g.numPos, g.outputs.trans h.outputs, fun x v v' hv hv' => by
    have hc := h.good.built.wf.consistent_value x
    rw [g.val x _ v' hc hv', h.val x v _ hv hc]⟩

/-- what is assumed of the environment -/
structure EnvOk (E : Env β) : Prop where
  db : ∃ w rest, E.db = w :: rest ∧ Rewrite.dbPis w = 4
  cuts : E.rw.cuts.cutSize ≤ maxCutSize
  sort : ∀ key l, (E.sort key l).Perm l
  words : 0 < E.choice.nwords
  solver : Choice.Prover.Sound E.choice.solve

theorem Good.pis {k : Nat} {N : Aig} (h : Good k N) : N.inputs.length = N.numPis := by
  rw [h.inputs, h.numPis, List.length_range']

theorem rewriteIn_core {E : Env β} {d z : Bool} {N M D : Aig} (e : rewriteIn E d z N = some (M, D)) :
    Rewrite.rewriteCore { E.rw with preserveDepth := d, useZeroGain := z } E.db E.fuel N = some M ∧ Aig.cleanupDangling M E.fuel = some D := by
  unfold rewriteIn at e
  split at e
  · cases e
  rename_i M1 e1
  split at e
  · cases e
  rename_i D1 e2
  rw [Option.some.injEq, Prod.mk.injEq] at e
  obtain ⟨rfl, rfl⟩ := e
  exact ⟨e1, e2⟩

theorem rewriteIn_spec {E : Env β} (hE : EnvOk E) {d z : Bool} {k : Nat} {N M D : Aig} (h : Good k N) (hpo : N.outputs.length = N.numPos)
    (hn : NoTwins N) (e : rewriteIn E d z N = some (M, D)) : Same k N D := by
  obtain ⟨e1, e2⟩ := rewriteIn_core e
  obtain ⟨w, rest, hdb, hw⟩ := hE.db
  rw [hdb] at e1
  have hcut : (⟨E.rw.cuts, E.rw.cost0, z, d⟩ : Rewrite.RwParams β).cuts.cutSize ≤ maxCutSize := hE.cuts
  obtain ⟨r1, r2, r3, r4, r5, r6⟩ := Rewrite.C25_partial _ w rest hw E.fuel N D h.built (Good.pis h) hpo hcut hn (by
    rw [Rewrite.rewrite, e1]; exact e2)
  have hM : M.numPis = N.numPis :=
    (Rewrite.core_source hw h.built (Good.pis h) hcut e1 (Rewrite.sep_ci hw h.built (Good.pis h) hcut hn e1)).2.2.1
  exact ⟨⟨r1, by rw [cleanup_inputs e2, hM, h.numPis], by rw [r2, h.numPis]⟩, by rw [r5, r4, hpo], r5, r6⟩

theorem balance_spec {E : Env β} (hE : EnvOk E) {k : Nat} {N D : Aig} (h : Good k N) (hpo : N.outputs.length = N.numPos)
    (e : balance E N = some D) : Same k N D := by
  unfold balance at e
  split at e
  · rename_i D1 e1
    obtain rfl := Option.some.inj e
    obtain ⟨D2, over, e2, r1, r2, r3, r4, r5, r6, _⟩ := Balance.C17_partial E.sort hE.sort N h.built (Good.pis h) hpo N.size le_rfl
    rw [e1, Option.some.injEq, Prod.mk.injEq] at e2
    obtain ⟨rfl, rfl⟩ := e2
    refine ⟨⟨r1, ?_, by rw [r2, h.numPis]⟩, by rw [r5, r4, hpo], r5, r6⟩
    unfold Balance.balanceAnd at e1
    split at e1
    · cases e1
    dsimp only at e1
    split at e1
    · cases e1
    rename_i D2 e3
    rw [Option.some.injEq, Prod.mk.injEq] at e1
    obtain ⟨rfl, -⟩ := e1
    have h1 := cleanup_inputs e3
    have h2 := congrArg List.length h1
    rw [List.length_range', r3, Good.pis h, h.numPis] at h2
    rw [h1, ← h2]
  · cases e

theorem dchCompress_spec {E : Env β} (hE : EnvOk E) {k : Nat} {N : Aig} (h : Good k N) (hpo : N.outputs.length = N.numPos) {r : Run}
    (e : dchCompress E N = some r) (hn : ∀ B ∈ r.given, NoTwins B) :
    Same k N r.res ∧ ∃ A, rewriteIn E true false N = some (r.store, A) := by
  unfold dchCompress at e
  split at e
  · cases e
  rename_i M A e1
  split at e
  · cases e
  rename_i B e2
  split at e
  · cases e
  rename_i M2 C e3
  obtain rfl := Option.some.inj e
  have s1 := rewriteIn_spec hE h hpo (hn N (by simp)) e1
  have s2 := s1.trans (balance_spec hE s1.good s1.numPos e2)
  exact ⟨s2.trans (rewriteIn_spec hE s2.good s2.numPos (hn B (by simp)) e3), A, e1⟩

theorem dchCompress2_spec {E : Env β} (hE : EnvOk E) {k : Nat} {N : Aig} (h : Good k N) (hpo : N.outputs.length = N.numPos) {r : Run}
    (e : dchCompress2 E N = some r) (hn : ∀ B ∈ r.given, NoTwins B) : Same k N r.res := by
  unfold dchCompress2 at e
  split at e
  · cases e
  rename_i M A e1
  split at e
  · cases e
  rename_i B e2
  split at e
  · cases e
  rename_i _ C e3
  split at e
  · cases e
  rename_i _ D e4
  split at e
  · cases e
  rename_i F e5
  split at e
  · cases e
  rename_i _ G e6
  split at e
  · cases e
  rename_i H e7
  obtain rfl := Option.some.inj e
  have s1 := rewriteIn_spec hE h hpo (hn N (by simp)) e1
  have s2 := s1.trans (balance_spec hE s1.good s1.numPos e2)
  have s3 := s2.trans (rewriteIn_spec hE s2.good s2.numPos (hn B (by simp)) e3)
  have s4 := s3.trans (rewriteIn_spec hE s3.good s3.numPos (hn C (by simp)) e4)
  have s5 := s4.trans (balance_spec hE s4.good s4.numPos e5)
  have s6 := s5.trans (rewriteIn_spec hE s5.good s5.numPos (hn F (by simp)) e6)
  exact s6.trans (balance_spec hE s6.good s6.numPos e7)

theorem choiceSynthesis_spec {E : Env β} (hE : EnvOk E) {k : Nat} (hk : 0 < k) {N : Aig} (h : Good k N) (hpo : N.outputs.length = N.numPos) {S : Synth}
    (e : choiceSynthesis E N = some S) (hn : ∀ B ∈ S.given, NoTwins B) :
    Same k N S.compress2 ∧ Choice.SameOutputs S.merged S.awc.net ∧ S.awc.Ordered ∧ S.awc.Sound ∧
      S.merged.inputs = List.range' 1 k ∧ S.merged.outputs.length = N.outputs.length ∧
      (∀ x v w, N.Consistent x v → S.merged.Consistent x w → S.merged.outputs.map (·.val w) = N.outputs.map (·.val v)) ∧
      (∀ x, S.merged.Consistent x (S.merged.value x)) ∧
      ∃ A, rewriteIn E true false N = some (S.original, A) := by
  unfold choiceSynthesis at e
  split at e
  · cases e
  rename_i r1 e1
  split at e
  · cases e
  rename_i r2 e2
  split at e
  · cases e
  rename_i M e3
  split at e
  · cases e
  rename_i D e4
  obtain rfl := Option.some.inj e
  obtain ⟨s1, hst⟩ := dchCompress_spec hE h hpo e1 (fun B hB => hn B (List.mem_append_left _ hB))
  have s2 := s1.trans (dchCompress2_spec hE s1.good s1.numPos e2 (fun B hB => hn B (List.mem_append_right _ hB)))
  obtain ⟨m1, m2, _, m3, _, m4⟩ := ChoiceMiter.merge_weak hk s2.good s2.numPos _ (by omega) e3
  have hi : Choice.InputsFirst M := by unfold Choice.InputsFirst; rw [m2]; simp
  obtain ⟨c1, c2, c3⟩ := (Choice.computeChoice_spec m1 hi E.choice hE.words hE.solver).2 D e4
  refine ⟨s2, c1, c2, c3, m2, m3.trans s2.outputs, fun x v w hv hw => ?_, m1.wf.consistent_value, hst⟩
  have hc := s2.good.built.wf.consistent_value x
  rw [m4 x _ w hc hw, s2.val x v _ hv hc]

end Verif.Flow
