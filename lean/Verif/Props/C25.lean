import Verif.Rewrite.Proof

set_option autoImplicit false

/-!
# C25: rewriting preserves the functions of the outputs
-/

namespace Verif.Rewrite

open Verif.Aig
open Verif.RefDeref
open Verif.Cuts
open Verif.Topo (Tfi visOf)

variable {β : Type}

/-- the network before and after the replacements: a grown network and a patched copy of it -/
theorem rewriteCore_spec {P : RwParams β} {w : Nat} {rest : List Nat} (hw : dbPis w = 4) {f : Nat} {N M : Aig} (hN : Built N)
    (hpi : N.inputs.length = N.numPis) (hk : P.cuts.cutSize ≤ maxCutSize)
    (e : rewriteCore P (w :: rest) f N = some M) : ∃ M1, Grown N M1 ∧ Patched N M1 M := by
  unfold rewriteCore at e
  split at e
  · rename_i db req cuts hdb hreq hcuts
    split at e
    · simp at e
    · rename_i M1 vals best hn
      obtain ⟨G, B⟩ := nodeLoop_spec (generateDb_ok hdb hw) (by
        intro n s hg hs c hc
        obtain ⟨a, b, hgate⟩ := (hN.wf.mem_gates n).1 hg
        obtain ⟨_, _, _, hlt⟩ := hN.wf.isGate_lt hgate
        obtain ⟨s', hs', h⟩ := C21_function_partial P.cuts N P.cost0 hN hpi.symm hk cuts hcuts n hlt
        obtain rfl := Option.some.inj (hs.symm.trans hs')
        obtain ⟨_, h2, _, t, t1, t2, t3⟩ := h c hc
        exact ⟨fun x hx => Nat.lt_of_le_of_lt (h2 x hx) hlt, t, t1, t2,
          fun v hv => t3 _ v (models_consistent hv)⟩) N.gates (fun _ h => h) N _ _ [] (Grown.refl hN.wf) (by simp) _ _ _ hn
      exact ⟨M1, G, replaceLoop_patched best B M1 vals
        (Patched.refl (G.built hN) fun n h => mem_gates_grown hN.wf G h) M e⟩
  · simp at e

theorem Patched.other {N M1 M : Aig} (h : Patched N M1 M) {n : Nat} {nd' : Node} (hn : M.nodes[n]? = some nd') :
    ∃ nd, M1.nodes[n]? = some nd :=
  ⟨_, List.getElem?_eq_getElem (by rw [← h.length]; exact lt_of_getElem? hn)⟩

theorem Patched.isCi {N M1 M : Aig} (h : Patched N M1 M) {n : Nat} (hg : n ∉ N.gates) : M.isCi n = M1.isCi n := by
  unfold Aig.isCi
  cases hn : M.nodes[n]? with
  | none =>
    have : M1.nodes[n]? = none := by
      rw [List.getElem?_eq_none_iff] at hn ⊢
      rw [← h.length]
      exact hn
    rw [this]
  | some nd' =>
    obtain ⟨nd, hnd⟩ := h.other hn
    rw [hnd]
    obtain ⟨e0, e1⟩ := (h.node n nd nd' hnd hn).2.1 hg
    simp [e0, e1]

theorem not_gate_of_input {N : Aig} (hN : WF N) {n : Nat} (h : n ∈ N.inputs) : n ∉ N.gates := by
  intro hg
  obtain ⟨a, b, g⟩ := (hN.mem_gates n).1 hg
  exact g.2.1 h

theorem Patched.gate {N M1 M : Aig} (h : Patched N M1 M) (hM : WF M1) {n : Nat} (h0 : n ≠ 0) (hi : n ∉ M.inputs)
    {nd' : Node} (hn : M.nodes[n]? = some nd') : M.Valid nd'.c0 ∧ M.Valid nd'.c1 ∧
      ∀ v, M1.Models v → v n = (nd'.c0.val v && nd'.c1.val v) := by
  obtain ⟨nd, hnd⟩ := h.other hn
  have g : M1.IsGate n nd.c0 nd.c1 := hM.isGate_of h0 (h.inputs ▸ hi) hnd
  have hl := hM.isGate_lt g
  obtain ⟨_, k2, k3⟩ := h.node n nd nd' hnd hn
  by_cases hg : n ∈ N.gates
  · obtain ⟨a, b, c⟩ := k3 hg
    exact ⟨a, b, fun v hv => by rw [(c v hv).1, (c v hv).2]; exact hv.gate n _ _ g⟩
  · obtain ⟨e0, e1⟩ := k2 hg
    rw [e0, e1]
    exact ⟨by unfold Aig.Valid; rw [h.length]; omega, by unfold Aig.Valid; rw [h.length]; omega, fun v hv => hv.gate n _ _ g⟩

theorem Patched.valid {N M1 M : Aig} (h : Patched N M1 M) (hM : WF M1) {a n : Nat} (t : Tfi (aigKids M) a n)
    (hci : ∀ n, n ∈ M.inputs → M.isCi n = true) (ha : a < M.nodes.length) : n < M.nodes.length := by
  induction t with
  | refl => exact ha
  | step hk _ ih =>
    rename_i n k m _
    apply ih
    unfold aigKids at hk
    split at hk
    · simp at hk
    · rename_i hc
      split at hk
      · rename_i nd' hnd'
        obtain ⟨v0, v1, _⟩ := h.gate hM (fun h => hc (Or.inl h)) (fun h => hc (Or.inr (hci _ h))) hnd'
        simp only [List.mem_cons, List.not_mem_nil, or_false] at hk
        rcases hk with rfl | rfl
        · exact v0
        · exact v1
      · simp at hk

theorem visOf_built {N : Aig} (hN : Built N) (n : Nat) : visOf N n = 0 := by
  unfold visOf
  split
  · rename_i nd hnd
    exact hN.visited.1 nd (List.mem_of_getElem? hnd)
  · rfl

theorem Patched.source {N M1 M : Aig} (h : Patched N M1 M) (hN : WF N) (G : Grown N M1) (hB : Built M1)
    (hci : ∀ n, n ≠ 0 → M.isCi n = true → n ∈ M.inputs) : Source M := by
  have hin : ∀ n ∈ M.inputs, n ≠ 0 ∧ M.isCi n = true := by
    intro n hn
    rw [h.inputs] at hn
    obtain ⟨k, hk⟩ := List.getElem?_of_mem hn
    have := (hB.wf.input k n hk).1
    refine ⟨by omega, ?_⟩
    rw [h.isCi (not_gate_of_input hN (G.inputs ▸ hn))]
    exact isCi_of_input hB.wf hn
  refine ⟨hin, h.inputs ▸ hB.wf.inputsNodup, fun n => ?_, hci, fun o ho n t => ?_⟩
  · rw [h.travId, hB.visited.2]
    have := visOf_built hB n
    unfold visOf at this ⊢
    cases hn : M.nodes[n]? with
    | none => exact Nat.le_refl _
    | some nd' =>
      obtain ⟨nd, hnd⟩ := h.other hn
      rw [hnd] at this
      dsimp only at this ⊢
      rw [(h.node n nd nd' hnd hn).1, this]
  · obtain ⟨k, hk⟩ := List.getElem?_of_mem ho
    obtain ⟨o1, ho1⟩ : ∃ o1, M1.outputs[k]? = some o1 :=
      ⟨_, List.getElem?_eq_getElem (by rw [← h.outLen]; exact lt_of_getElem? hk)⟩
    exact h.valid hB.wf t (fun n hn => (hin n hn).2) (h.out k o1 o ho1 hk).1

/-- The storage after the replacements can be read like a network with the same output functions. -/
theorem core_source {P : RwParams β} {w : Nat} {rest : List Nat} (hw : dbPis w = 4) {f : Nat} {N M : Aig}
    (hN : Built N) (hpi : N.inputs.length = N.numPis) (hk : P.cuts.cutSize ≤ maxCutSize)
    (eM : rewriteCore P (w :: rest) f N = some M) (hci : ∀ n, n ≠ 0 → M.isCi n = true → n ∈ M.inputs) :
    Source M ∧ M.inputs = N.inputs ∧ M.numPis = N.numPis ∧ M.numPos = N.numPos ∧ M.outputs.length = N.outputs.length ∧
      ∀ x v, N.Consistent x v → ∃ v', LiveModels M v' ∧ (∀ (k n : Nat), M.inputs[k]? = some n → v' n = x k) ∧
        M.outputs.map (·.val v') = N.outputs.map (·.val v) := by
  obtain ⟨M1, G, h⟩ := rewriteCore_spec hw hN hpi hk eM
  have hB := G.built hN
  have hol : M.outputs.length = N.outputs.length := by rw [h.outLen, G.outputs]
  refine ⟨h.source hN.wf G hB hci, by rw [h.inputs, G.inputs], by rw [h.numPis, G.numPis], by rw [h.numPos, G.numPos], hol, ?_⟩
  intro x v hv
  have hc := hB.wf.consistent_value x
  refine ⟨M1.value x, ⟨hc.models.const, ?_⟩, ?_, ?_⟩
  · intro o _ n _ h0 hi nd hnd
    exact (h.gate hB.wf h0 hi hnd).2.2 _ hc.models
  · intro k n hk
    rw [h.inputs] at hk
    exact hc.input k n hk
  · apply List.ext_getElem?
    intro k
    rw [List.getElem?_map, List.getElem?_map]
    cases ho : N.outputs[k]? with
    | none =>
      have : M.outputs[k]? = none := by
        rw [List.getElem?_eq_none_iff] at ho ⊢
        omega
      rw [this]
      rfl
    | some o =>
      obtain ⟨o', ho'⟩ : ∃ o', M.outputs[k]? = some o' :=
        ⟨_, List.getElem?_eq_getElem (by rw [hol]; exact lt_of_getElem? ho)⟩
      rw [ho']
      simp only [Option.map_some, Option.some.injEq]
      rw [(h.out k o o' (by rw [G.outputs]; exact ho) ho').2 _ hc.models]
      exact hN.wf.unique_val (G.ext.consistent hc) hv (hN.wf.outputs o (List.mem_of_getElem? ho))

/-- C25, general form: for every constructed network without registers, every database over four inputs and all
parameters with cuts of at most seven leaves, if `rewrite` comes back and its replacements left no gate with
identical fanins, the result is a constructed network with the same inputs and the same output functions. -/
theorem C25_collapse_free_partial (P : RwParams β) (w : Nat) (rest : List Nat) (hw : dbPis w = 4) (f : Nat) (N M D : Aig)
    (hN : Built N) (hpi : N.inputs.length = N.numPis) (hpo : N.outputs.length = N.numPos)
    (hk : P.cuts.cutSize ≤ maxCutSize) (eM : rewriteCore P (w :: rest) f N = some M)
    (hci : ∀ n, n ≠ 0 → M.isCi n = true → n ∈ M.inputs) (e : rewrite P (w :: rest) f N = some D) :
    Built D ∧ D.numPis = N.numPis ∧ D.inputs.length = N.inputs.length ∧ D.numPos = N.numPos ∧
      D.outputs.length = N.outputs.length ∧
      ∀ x v v', N.Consistent x v → D.Consistent x v' → D.outputs.map (·.val v') = N.outputs.map (·.val v) := by
  obtain ⟨h1, h2, h3, h4, h5, h6⟩ := core_source hw hN hpi hk eM hci
  rw [rewrite, eM] at e
  obtain ⟨d1, d2, d3, d4, d5, d6⟩ := C14_returns_partial M h1 (by rw [h2, h3]; exact hpi) (by rw [h5, h4]; exact hpo) f D e
  refine ⟨d1, by rw [d2, h3], by rw [d3, h2], by rw [d4, h4], d5.trans h5, fun x v v' hv hv' => ?_⟩
  obtain ⟨u, u1, u2, u3⟩ := h6 x v hv
  exact (d6 x u v' u1 u2 hv').trans u3

/-- without gates of two equal fanin functions, the replacements leave no gate with identical fanins -/
theorem sep_ci {P : RwParams β} {w : Nat} {rest : List Nat} (hw : dbPis w = 4) {f : Nat} {N M : Aig}
    (hN : Built N) (hpi : N.inputs.length = N.numPis) (hk : P.cuts.cutSize ≤ maxCutSize)
    (hsep : ∀ n a b, N.IsGate n a b → ∃ x v, N.Consistent x v ∧ a.val v ≠ b.val v)
    (eM : rewriteCore P (w :: rest) f N = some M) : ∀ n, n ≠ 0 → M.isCi n = true → n ∈ M.inputs := by
  obtain ⟨M1, G, h⟩ := rewriteCore_spec hw hN hpi hk eM
  have hB := G.built hN
  intro n h0 hc
  by_cases hg : n ∈ N.gates
  · exfalso
    obtain ⟨a, b, g⟩ := (hN.wf.mem_gates n).1 hg
    obtain ⟨x, v, hv, hne⟩ := hsep n a b g
    have hl := hN.wf.isGate_lt g
    have g1 := G.ext.isGate g
    obtain ⟨_, _, nd, hnd, _, rfl, rfl⟩ := g1
    have hn : n < M.nodes.length := by rw [h.length]; exact lt_of_getElem? hnd
    obtain ⟨nd', hnd'⟩ : ∃ nd', M.nodes[n]? = some nd' := ⟨_, List.getElem?_eq_getElem hn⟩
    have hcc := hB.wf.consistent_value x
    have k := ((h.node n nd nd' hnd hnd').2.2 hg).2.2 _ hcc.models
    have heq : nd'.c0 = nd'.c1 := by
      unfold Aig.isCi at hc
      rw [hnd'] at hc
      simpa using hc
    apply hne
    rw [hN.wf.unique_val hv (G.ext.consistent hcc) (by unfold Aig.Valid; omega),
      hN.wf.unique_val hv (G.ext.consistent hcc) (by unfold Aig.Valid; omega), ← k.1, ← k.2, heq]
  · rw [h.isCi hg] at hc
    rw [h.inputs]
    exact hB.wf.ci_input h0 hc

/-- C25 for networks in which no gate has two fanins computing the same function: whenever `rewrite` comes back, the
result is a constructed network with the same inputs and the same output functions.  Missing from the full
statement: networks with gates of two equal fanin functions and registers (both false, see `C25_violated` and
`C25_registers`), and termination. -/
theorem C25_partial (P : RwParams β) (w : Nat) (rest : List Nat) (hw : dbPis w = 4) (f : Nat) (N D : Aig)
    (hN : Built N) (hpi : N.inputs.length = N.numPis) (hpo : N.outputs.length = N.numPos)
    (hk : P.cuts.cutSize ≤ maxCutSize)
    (hsep : ∀ n a b, N.IsGate n a b → ∃ x v, N.Consistent x v ∧ a.val v ≠ b.val v)
    (e : rewrite P (w :: rest) f N = some D) :
    Built D ∧ D.numPis = N.numPis ∧ D.inputs.length = N.inputs.length ∧ D.numPos = N.numPos ∧
      D.outputs.length = N.outputs.length ∧
      ∀ x v v', N.Consistent x v → D.Consistent x v' → D.outputs.map (·.val v') = N.outputs.map (·.val v) := by
  obtain ⟨M, eM⟩ : ∃ M, rewriteCore P (w :: rest) f N = some M := by
    unfold rewrite at e
    split at e
    · simp at e
    · rename_i M hM; exact ⟨M, hM⟩
  refine C25_collapse_free_partial P w rest hw f N M D hN hpi hpo hk eM (sep_ci hw hN hpi hk hsep eM) e

/-- a test for the hypothesis of `C25_partial` by simulating some assignments -/
def separated (N : Aig) (xs : List (List Bool)) : Bool :=
  N.gates.all fun n => xs.any fun x =>
    match simulateNodes (boolSim fun k => x.getD k false) N, N.nodes[n]? with
    | some r, some nd =>
      match r[nd.c0.index]?, r[nd.c1.index]? with
      | some a, some b => Bool.xor nd.c0.compl a != Bool.xor nd.c1.compl b
      | _, _ => false
    | _, _ => false

theorem separated_sound {N : Aig} (hN : Built N) (hpi : N.inputs.length = N.numPis) {xs : List (List Bool)}
    (h : separated N xs = true) : ∀ n a b, N.IsGate n a b → ∃ x v, N.Consistent x v ∧ a.val v ≠ b.val v := by
  intro n a b g
  have hl := hN.wf.isGate_lt g
  have := List.all_eq_true.1 h n ((hN.wf.mem_gates n).2 ⟨a, b, g⟩)
  obtain ⟨x, _, hx⟩ := List.any_eq_true.1 this
  have hc := hN.wf.consistent_value fun k => x.getD k false
  have I : Interp (boolSim fun k => x.getD k false) (fun _ => True) id := by
    constructor <;> simp [boolSim]
  obtain ⟨r, er, hr⟩ := simulateNodes_spec I hN (Nat.le_of_eq hpi) (v := N.value fun k => x.getD k false) hc
  refine ⟨_, _, hc, ?_⟩
  obtain ⟨_, _, nd, hnd, _, rfl, rfl⟩ := g
  rw [er, hnd] at hx
  obtain ⟨p, hp, _, vp⟩ := hr nd.c0.index (by show _ < _; omega)
  obtain ⟨q, hq, _, vq⟩ := hr nd.c1.index (by show _ < _; omega)
  simp only [id] at vp vq
  subst vp vq
  simp only [hp, hq] at hx
  simp only [Sig.val]
  intro hne
  rw [hne] at hx
  simp at hx

/-- a database with one structure: the AND of four complemented inputs -/
def nor4Db : List Nat := [4 + 256 * 1 + 65536 * 3, 3, 5, 7, 9, 10, 12, 14]

/-- the default parameters of `rewrite` -/
def rwDefault : RwParams Unit := ⟨⟨4, 10, false, fun _ _ => false, fun _ _ => ()⟩, (), true, true⟩

/-- four inputs and the gates 5 = 1&2, 6 = 3&4, 7 = 5&6, 8 = 1&3, 9 = 2&4, 10 = 8&9: nodes 7 and 10 compute the same. -/
def twice : Aig :=
  (([(⟨1, false⟩, ⟨2, false⟩), (⟨3, false⟩, ⟨4, false⟩), (⟨5, false⟩, ⟨6, false⟩), (⟨1, false⟩, ⟨3, false⟩),
    (⟨2, false⟩, ⟨4, false⟩), (⟨8, false⟩, ⟨9, false⟩)] : List (Sig × Sig)).foldl (fun N p => (N.createAnd p.1 p.2).1)
      (cloneInputs 4 Aig.empty).1)

theorem twice_built : Built twice :=
  .and (.and (.and (.and (.and (.and (.pi (.pi (.pi (.pi .empty)))) (by decide) (by decide)) (by decide) (by decide))
    (by decide) (by decide)) (by decide) (by decide)) (by decide) (by decide)) (by decide) (by decide)

/-- outputs 7 and !10 -/
def twiceOut : Aig := (twice.createPo ⟨7, false⟩).createPo ⟨10, true⟩

/-- A case of `C25_partial` in which rewriting shares the two structures: six gates become three. -/
example : Built twiceOut ∧ twiceOut.inputs.length = twiceOut.numPis ∧ twiceOut.outputs.length = twiceOut.numPos ∧
    (∀ n a b, twiceOut.IsGate n a b → ∃ x v, twiceOut.Consistent x v ∧ a.val v ≠ b.val v) ∧
    (rewrite rwDefault nor4Db 30 twiceOut).map (fun D => (D.gates, D.outputs)) =
      some ([5, 6, 7], [⟨7, false⟩, ⟨7, true⟩]) := by
  have hb : Built twiceOut := .po (.po twice_built (by decide)) (by decide)
  exact ⟨hb, by decide, by decide,
    separated_sound hb (by decide) (xs := [[true, false, true, false], [true, true, false, false]]) (by decide +kernel),
    by decide +kernel⟩

/-- 11 = 7 & 10, used by two outputs -/
def collapse : Aig :=
  ((twice.createAnd ⟨7, false⟩ ⟨10, false⟩).1.createPo ⟨11, false⟩).createPo ⟨11, false⟩

/-- what rewriting makes of `collapse` -/
def collapsed : Aig := (rewrite rwDefault nor4Db 30 collapse).getD Aig.empty

theorem collapsed_eq : rewrite rwDefault nor4Db 30 collapse = some collapsed ∧
    collapsed.outputs = [⟨7, false⟩, ⟨0, false⟩] := by decide +kernel

/-- C25 fails in general: in `collapse` node 10 is replaced by node 7, which gives gate 11 two identical fanins.
Node 11 then counts as an input of the network.  It is itself replaced at the first output only; the second output,
which computed the AND of all four inputs, becomes constant 0. -/
theorem C25_violated : ∃ (N D : Aig), Built N ∧ N.inputs.length = N.numPis ∧ N.outputs.length = N.numPos ∧
    rewrite rwDefault nor4Db 30 N = some D ∧
    ∃ x v, N.Consistent x v ∧ ∀ v', D.Consistent x v' → D.outputs.map (·.val v') ≠ N.outputs.map (·.val v) := by
  have hb : Built collapse := .po (.po (.and twice_built (by decide) (by decide)) (by decide)) (by decide)
  refine ⟨collapse, collapsed, hb, by decide, by decide, collapsed_eq.1, fun _ => true, collapse.value fun _ => true,
    hb.wf.consistent_value _, fun v' hv' => ?_⟩
  have e := C45_bool collapse hb (by decide) (fun _ => true) _ (hb.wf.consistent_value _)
  have e' : simulate (boolSim fun _ => true) collapse = some [true, true] := by decide +kernel
  rw [e'] at e
  have ho : collapse.outputs.map (·.val (collapse.value fun _ => true)) = [true, true] := by
    have := Option.some.inj e
    rw [List.take_of_length_le (by decide)] at this
    exact this.symm
  rw [ho, collapsed_eq.2]
  simp [Sig.val, hv'.models.const]

/-- Registers are lost: the network with one input and one register has no register afterwards. -/
theorem C25_registers : ∃ N, Built N ∧ N.inputs.length = 2 ∧ N.outputs.length = 2 ∧
    (rewrite rwDefault nor4Db 30 N).map (fun D => (D.inputs.length, D.outputs.length)) = some (1, 1) :=
  ⟨((((Aig.empty.createPi).1.createRo).1.createPo ⟨2, false⟩).createRi ⟨1, false⟩ 0),
    .ri (.po (.ro (.pi .empty)) (by decide)) (by decide), by decide, by decide, by decide +kernel⟩

end Verif.Rewrite
