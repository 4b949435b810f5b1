import Verif.Rewrite.Basic
import Verif.Rewrite.DbProof
import Verif.Props.C21

set_option autoImplicit false

/-!
# Rewriting keeps the functions of the outputs
-/

namespace Verif.Rewrite

open Verif.Aig
open Verif.RefDeref
open Verif.Cuts

variable {β : Type}

/-- signal `s` has the value of node `n` in every model -/
def SameAs (N : Aig) (n : Nat) (s : Sig) : Prop := N.Valid s ∧ ∀ v, N.Models v → s.val v = v n

theorem SameAs.grown {N N' : Aig} {n : Nat} {s : Sig} (h : SameAs N n s) (g : Grown N N') : SameAs N' n s :=
  ⟨g.ext.valid h.1, fun v hv => h.2 v (g.ext.models hv)⟩

theorem models_consistent {N : Aig} {v : Nat → Bool} (hv : N.Models v) :
    N.Consistent (fun k => match N.inputs[k]? with | some n => v n | none => false) v :=
  ⟨hv, fun k n hk => by rw [hk]⟩

theorem onSignal_spec {P : RwParams β} {f : Nat} {req : Int} {leaves : List Nat} {before : Nat} {N : Aig} {s : Sig}
    {c c' : Cand} {n : Nat} (hs : SameAs N n s) (hc : 0 ≤ c.gain → SameAs N n c.best)
    (e : onSignal P f req leaves before N s c = some c') : 0 ≤ c'.gain → SameAs N n c'.best := by
  unfold onSignal at e
  split at e
  · simp at e
  · split at e
    · simp at e
    · split at e
      · simp at e
      · split at e
        · obtain rfl := Option.some.inj e
          exact fun _ => hs
        · obtain rfl := Option.some.inj e
          exact hc

/-- what is used of a cut of node `n` -/
structure CutOk (N : Aig) (cache : TTCache) (n : Nat) (c : Cut (FData β)) : Prop where
  leaf : ∀ x ∈ c.leaves, x < N.nodes.length
  table : ∃ t, cache.lookup c.data.func = some t ∧ t.n = c.leaves.length ∧
    ∀ v, N.Models v → v n = t.eval (leafVal c.leaves v)

theorem sigVal_leaves (l : List Nat) (v : Nat → Bool) : sigVal (l.map fun x => ⟨x, false⟩) v = leafVal l v := by
  funext i
  simp only [sigVal, leafVal, List.getElem?_map]
  cases l[i]? <;> simp [Sig.val]

theorem cutLoop_spec {P : RwParams β} {f : Nat} {db : Db} (hdb : DbOk db) {cache : TTCache} {req : Int} {n : Nat} {N0 : Aig} :
    ∀ (cuts : List (Cut (FData β))), (∀ c ∈ cuts, CutOk N0 cache n c) → ∀ (N : Aig) (c : Cand), Grown N0 N →
    (0 ≤ c.gain → SameAs N n c.best) → ∀ N' c', cutLoop P f db cache req n cuts N c = some (N', c') →
    Grown N N' ∧ (0 ≤ c'.gain → SameAs N' n c'.best) := by
  intro cuts
  induction cuts with
  | nil =>
    intro _ N c hN hc N' c' e
    rw [cutLoop] at e
    obtain ⟨rfl, rfl⟩ := Prod.mk.inj (Option.some.inj e)
    exact ⟨Grown.refl hN.wf, hc⟩
  | cons cut rest ih =>
    intro hcuts N c hN hc N' c' e
    have hrest := fun c h => hcuts c (List.mem_cons_of_mem _ h)
    rw [cutLoop] at e
    split at e
    · exact ih hrest N c hN hc N' c' e
    · rename_i hl
      have hl : cut.leaves.length = 4 := by omega
      obtain ⟨t, t1, t2, t3⟩ := (hcuts cut (List.mem_cons_self ..)).table
      rw [t1] at e
      dsimp only at e
      split at e
      · simp at e
      · rename_i vals before _
        split at e
        · simp at e
        · rename_i N1 c1 e1
          obtain ⟨G1, P1⟩ := resynth_spec (fn := onSignal P f req cut.leaves before) (P := fun (N : Aig) (c : Cand) => 0 ≤ c.gain → SameAs N n c.best) hdb hN.wf (tt := t) (by omega)
            (leaves := cut.leaves.map fun l => ⟨l, false⟩) (by
              intro s hs
              obtain ⟨x, hx, rfl⟩ := List.mem_map.1 hs
              exact hN.ext.valid (s := ⟨x, false⟩) ((hcuts cut (List.mem_cons_self ..)).leaf x hx))
            (fun N1 N2 (st : Cand) _ g h hge => (h hge).grown g)
            (fun N1 s st st' g h hcomp es => onSignal_spec ⟨hcomp.1, fun v hv => by
              rw [hcomp.2 v hv, sigVal_leaves]
              exact (t3 v ((hN.trans g).ext.models hv)).symm⟩ h es) (st := { c with vals := vals }) hc e1
          split at e
          · simp at e
          · rename_i vals2 _ _
            obtain ⟨G2, P2⟩ := ih hrest N1 { c1 with vals := vals2 } (hN.trans G1) P1 N' c' e
            exact ⟨G1.trans G2, P2⟩

theorem nodeLoop_spec {P : RwParams β} {f : Nat} {db : Db} (hdb : DbOk db) {cuts : CutNet β} {req : Depths} {N0 : Aig} 
    (hcuts : ∀ n s, n ∈ N0.gates → cuts.sets[n]? = some s → ∀ c ∈ s.view, CutOk N0 cuts.cache n c) :
    ∀ (l : List Nat), (∀ n ∈ l, n ∈ N0.gates) → ∀ (N : Aig) (vals : Vals) (arrive : Depths) (best : List (Nat × Sig)), Grown N0 N →
    (∀ p ∈ best, p.1 ∈ N0.gates ∧ SameAs N p.1 p.2) → ∀ N' vals' best',
    nodeLoop P f db cuts req l N vals arrive best = some (N', vals', best') →
    Grown N N' ∧ ∀ p ∈ best', p.1 ∈ N0.gates ∧ SameAs N' p.1 p.2 := by
  intro l
  induction l with
  | nil =>
    intro _ N vals arrive best hN hb N' vals' best' e
    rw [nodeLoop] at e
    simp only [Option.some.injEq, Prod.mk.injEq] at e
    obtain ⟨rfl, _, rfl⟩ := e
    exact ⟨Grown.refl hN.wf, hb⟩
  | cons n l ih =>
    intro hl N vals arrive best hN hb N' vals' best' e
    have hl' := fun n h => hl n (List.mem_cons_of_mem _ h)
    rw [nodeLoop] at e
    split at e
    · exact ih hl' N vals arrive best hN hb N' vals' best' e
    · split at e
      · simp at e
      · rename_i s hs
        split at e
        · simp at e
        · rename_i N1 c e1
          obtain ⟨G1, P1⟩ := cutLoop_spec hdb s.view (hcuts n s (hl n (List.mem_cons_self ..)) hs) N _ hN
            (fun h => absurd h (by dsimp only; omega)) N1 c e1
          obtain ⟨G2, P2⟩ := ih hl' N1 _ _ _ (hN.trans G1) (by
            have hb1 : ∀ p ∈ best, p.1 ∈ N0.gates ∧ SameAs N1 p.1 p.2 := fun p hp => ⟨(hb p hp).1, (hb p hp).2.grown G1⟩
            split
            · rename_i hg
              intro p hp
              rcases List.mem_append.1 hp with hp | hp
              · exact hb1 p hp
              · obtain rfl := List.mem_singleton.1 hp
                exact ⟨hl n (List.mem_cons_self ..), P1 (by rcases hg with h | ⟨_, h⟩ <;> omega)⟩
            · exact hb1) N' vals' best' e
          exact ⟨G1.trans G2, P2⟩

/-- `M` arises from `M1` by replacing fanins and outputs by signals with the same value. -/
structure Patched (N0 M1 M : Aig) : Prop where
  length : M.nodes.length = M1.nodes.length
  inputs : M.inputs = M1.inputs
  numPis : M.numPis = M1.numPis
  numPos : M.numPos = M1.numPos
  travId : M.travId = M1.travId
  outLen : M.outputs.length = M1.outputs.length
  out : ∀ (k : Nat) (o o' : Sig), M1.outputs[k]? = some o → M.outputs[k]? = some o' → M.Valid o' ∧ ∀ v, M1.Models v → o'.val v = o.val v
  node : ∀ (n : Nat) (nd nd' : Node), M1.nodes[n]? = some nd → M.nodes[n]? = some nd' → nd'.visited = nd.visited ∧
    (n ∉ N0.gates → nd'.c0 = nd.c0 ∧ nd'.c1 = nd.c1) ∧
    (n ∈ N0.gates → M.Valid nd'.c0 ∧ M.Valid nd'.c1 ∧ ∀ v, M1.Models v → nd'.c0.val v = nd.c0.val v ∧ nd'.c1.val v = nd.c1.val v)

theorem toward_val {s c : Sig} {v : Nat → Bool} (h : s.val v = v c.index) : (toward s c).val v = c.val v := by
  unfold Sig.val at *
  simp only [toward]
  rw [← h]
  cases s.compl <;> cases c.compl <;> cases v s.index <;> rfl

theorem redirect_patched {N0 M1 M M' : Aig} (h : Patched N0 M1 M) {old g : Nat} {s : Sig} (hg : g ∈ N0.gates)
    (hs : SameAs M1 old s) (e : redirect old s M g = some M') : Patched N0 M1 M' := by
  unfold redirect at e
  split at e
  · simp at e
  · rename_i nd hnd
    obtain rfl := Option.some.inj e
    have hlen : ({ M with nodes := M.nodes.set g { nd with
        c0 := if nd.c0.index = old then toward s nd.c0 else nd.c0,
        c1 := if nd.c1.index = old then toward s nd.c1 else nd.c1 } } : Aig).nodes.length = M.nodes.length := by simp
    refine ⟨hlen.trans h.length, h.inputs, h.numPis, h.numPos, h.travId, h.outLen, fun k o o' ho ho' => ?_, ?_⟩
    · obtain ⟨h1, h2⟩ := h.out k o o' ho ho'
      exact ⟨by unfold Aig.Valid at *; rw [hlen]; exact h1, h2⟩
    · intro n nd1 nd' hn1 hn'
      dsimp only at hn'
      rw [List.getElem?_set] at hn'
      split at hn'
      · rename_i hgn
        subst hgn
        rw [if_pos (lt_of_getElem? hnd)] at hn'
        obtain rfl := Option.some.inj hn'
        obtain ⟨k1, _, k3⟩ := h.node g nd1 nd hn1 hnd
        obtain ⟨w0, w1, w2⟩ := k3 hg
        have hsv : s.index < M.nodes.length := by rw [h.length]; exact hs.1
        refine ⟨k1, fun hc => absurd hg hc, fun _ => ⟨?_, ?_, fun v hv => ?_⟩⟩
        · dsimp only
          unfold Aig.Valid at *
          rw [hlen]
          split
          · exact hsv
          · exact w0
        · dsimp only
          unfold Aig.Valid at *
          rw [hlen]
          split
          · exact hsv
          · exact w1
        · dsimp only
          have key : ∀ c : Sig, (if c.index = old then toward s c else c).val v = c.val v := by
            intro c
            split
            · rename_i hc
              exact toward_val (by rw [hs.2 v hv, hc])
            · rfl
          rw [key, key]
          exact w2 v hv
      · obtain ⟨k1, k2, k3⟩ := h.node n nd1 nd' hn1 hn'
        exact ⟨k1, k2, fun hn => by unfold Aig.Valid at *; rw [hlen]; exact k3 hn⟩

theorem redirectAll_patched {N0 M1 : Aig} {old : Nat} {s : Sig} (hs : SameAs M1 old s) :
    ∀ (l : List Nat), (∀ g ∈ l, g ∈ N0.gates) → ∀ (M : Aig), Patched N0 M1 M → ∀ M', redirectAll old s l M = some M' →
    Patched N0 M1 M' := by
  intro l
  induction l with
  | nil =>
    intro _ M h M' e
    obtain rfl := Option.some.inj e
    exact h
  | cons g l ih =>
    intro hl M h M' e
    rw [redirectAll] at e
    split at e
    · simp at e
    · rename_i M2 e2
      exact ih (fun g hg => hl g (List.mem_cons_of_mem _ hg)) M2
        (redirect_patched h (hl g (List.mem_cons_self ..)) hs e2) M' e

theorem fanoutsOf_gates {N : Aig} {m : Nat} (hm : m ∈ N.gates) : ∀ g ∈ fanoutsOf N m, g ∈ N.gates := by
  intro g hg
  rcases List.mem_append.1 hg with hg | hg
  · obtain ⟨a, ha, hb⟩ := List.mem_flatMap.1 hg
    obtain ⟨_, _, rfl⟩ := List.mem_map.1 hb
    exact ha
  · obtain ⟨o, ho, rfl⟩ := List.mem_map.1 hg
    have := (List.mem_filter.1 ho).2
    rw [beq_iff_eq] at this
    rw [this]
    exact hm

theorem replaceNode_patched {N0 M1 M M' : Aig} {f : Nat} {vals vals' : Vals} {old : Nat} {s : Sig} (h : Patched N0 M1 M)
    (ho : old ∈ N0.gates) (hs : SameAs M1 old s) (e : replaceNode f N0 M vals old s = some (M', vals')) :
    Patched N0 M1 M' := by
  unfold replaceNode at e
  split at e
  · simp at e
  · split at e
    · simp at e
    · split at e
      · rename_i i hi
        obtain ⟨rfl, _⟩ := Prod.mk.inj (Option.some.inj e)
        obtain ⟨hi1, hi2, _⟩ := List.findIdx?_eq_some_iff_getElem.1 hi
        refine ⟨h.length, h.inputs, h.numPis, h.numPos, h.travId, ?_, fun k o o' hk hk' => ?_, h.node⟩
        · simp [h.outLen]
        · dsimp only at hk'
          rw [List.getElem?_modify] at hk'
          cases hM : M.outputs[k]? with
          | none => simp [hM] at hk'
          | some o1 =>
            obtain ⟨k1, k2⟩ := h.out k o o1 hk hM
            rw [hM] at hk'
            by_cases hik : i = k
            · subst hik
              simp only [if_true, Option.map_some, Option.some.injEq, Option.map_eq_map] at hk'
              subst hk'
              refine ⟨by show s.index < _; rw [show _ = M1.nodes.length from h.length]; exact hs.1, fun v hv => ?_⟩
              have hidx : o1.index = old := by
                rw [List.getElem_take, beq_iff_eq] at hi2
                rw [List.getElem?_eq_getElem (by rw [List.length_take] at hi1; omega)] at hM
                rw [← Option.some.inj hM]
                exact hi2
              rw [toward_val (by rw [hs.2 v hv, hidx])]
              exact k2 v hv
            · simp only [if_neg hik] at hk'
              simp at hk'
              subst hk'
              exact ⟨k1, k2⟩
      · split at e
        · simp at e
        · rename_i M2 e2
          obtain ⟨rfl, _⟩ := Prod.mk.inj (Option.some.inj e)
          exact redirectAll_patched hs _ (fanoutsOf_gates ho) M h _ e2

theorem replaceLoop_patched {N0 M1 : Aig} {f : Nat} : ∀ (l : List (Nat × Sig)), (∀ p ∈ l, p.1 ∈ N0.gates ∧ SameAs M1 p.1 p.2) →
    ∀ (M : Aig) (vals : Vals), Patched N0 M1 M → ∀ M', replaceLoop f N0 l M vals = some M' → Patched N0 M1 M' := by
  intro l
  induction l with
  | nil =>
    intro _ M vals h M' e
    obtain rfl := Option.some.inj e
    exact h
  | cons p l ih =>
    intro hl M vals h M' e
    obtain ⟨n, s⟩ := p
    have hl' := fun p hp => hl p (List.mem_cons_of_mem _ hp)
    rw [replaceLoop] at e
    split at e
    · exact ih hl' M vals h M' e
    · split at e
      · simp at e
      · rename_i M2 vals2 e2
        obtain ⟨h1, h2⟩ := hl _ (List.mem_cons_self ..)
        exact ih hl' M2 vals2 (replaceNode_patched h h1 h2 e2) M' e

theorem Patched.refl {N0 M : Aig} (hN : Built M) (hg : ∀ n ∈ N0.gates, n ∈ M.gates) : Patched N0 M M := by
  refine ⟨rfl, rfl, rfl, rfl, rfl, rfl, fun k o o' h h' => ?_, fun n nd nd' h h' => ?_⟩
  · obtain rfl := Option.some.inj (h.symm.trans h')
    exact ⟨hN.wf.outputs o (List.mem_of_getElem? h), fun _ _ => rfl⟩
  · obtain rfl := Option.some.inj (h.symm.trans h')
    refine ⟨rfl, fun _ => ⟨rfl, rfl⟩, fun hn => ?_⟩
    obtain ⟨a, b, g⟩ := (hN.wf.mem_gates n).1 (hg n hn)
    have hl := hN.wf.isGate_lt g
    obtain ⟨_, _, nd1, hnd1, _, rfl, rfl⟩ := g
    obtain rfl := Option.some.inj (h.symm.trans hnd1)
    exact ⟨by unfold Aig.Valid; omega, by unfold Aig.Valid; omega, fun _ _ => ⟨rfl, rfl⟩⟩

theorem mem_gates_grown {N M : Aig} (hN : WF N) (g : Grown N M) {n : Nat} (h : n ∈ N.gates) : n ∈ M.gates := by
  obtain ⟨a, b, hg⟩ := (hN.mem_gates n).1 h
  exact (g.wf.mem_gates n).2 ⟨a, b, g.ext.isGate hg⟩

end Verif.Rewrite
