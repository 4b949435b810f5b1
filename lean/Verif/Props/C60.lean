import Verif.Choice.DeriveProof
import Verif.Props.C59

set_option autoImplicit false

/-!
# C60: the network with choices computed from proved representatives

Full statement: for every network and every array of representatives that have the same function up to the phases,
`derive_choice_aig` returns a network with choices with the same inputs and the same output functions, whose class links go
to smaller indices and join nodes with the same function up to the phases.

It is false if some input has a larger index than some gate (`C60_violated_order`), because the entry of the input `i` is set
to the signal `i` and not to the new input; and registers become plain inputs and outputs (`C60_violated_registers`).  Proved:

* `C60_derive_partial`: the statement for networks whose inputs come first.
* `C60_recorded`: when a choice is recorded.
* `C60_dup`: `man_dup_dfs` copies exactly the part that the outputs depend on through fanins and links, with all links.
* `C60_mapping_partial`: with C59, mapping the result gives LUT networks with the output functions of the original network.
-/

namespace Verif.Choice
open Relation
open Aig (Built)

/-- Specification: `D` has the inputs, as primary inputs, and the output functions of `N`. -/
structure SameOutputs (N D : Aig) : Prop where
  built : D.Built
  inputs : D.inputs = N.inputs
  numPis : D.numPis = N.inputs.length
  numPos : D.numPos = N.outputs.length
  outputs : D.outputs.length = N.outputs.length
  val : ∀ x v w, N.Consistent x v → D.Consistent x w → D.outputs.map (·.val w) = N.outputs.map (·.val v)

theorem forall₂_map {α β γ : Type} {R : α → β → Prop} {f : α → γ} {g : β → γ} {l : List α} {k : List β}
    (h : List.Forall₂ R l k) (hR : ∀ a b, R a b → g b = f a) : k.map g = l.map f := by
  induction h with
  | nil => rfl
  | cons h _ ih => simp [hR _ _ h, ih]

/-- the statement needs only that the network is well-formed -/
theorem derive_wf (N : Aig) (hN : N.WF) (hi : InputsFirst N) (repr : List Nat) (hR : ReprOk N repr) :
    ∃ D, deriveChoice N repr = some D ∧ SameOutputs N D.net ∧ D.Ordered ∧ D.Sound ∧ D.net.nodes.length ≤ N.nodes.length := by
  obtain ⟨T, e1, hT, hTb, hTi, hTp, hTo, hTs, hTe, hout⟩ := deriveRaw_spec hN hi hR
  have hi' : InputsFirst T.net := by unfold InputsFirst; rw [hTi]; exact hi
  obtain ⟨D, m, e2, hc, hp, hout2, _⟩ := manDup_spec hT.inv hi'
  have hl := hout.length_eq
  have hl2 := hout2.length_eq
  refine ⟨D, by rw [deriveChoice, e1]; exact e2, ⟨hc.built, by rw [hc.inputs, hTi], by rw [hc.numPis, hTi], by rw [hp, hl], by omega, ?_⟩,
    hc.ordered, hc.sound hTb hi' hTs, ?_⟩
  · intro x v w hv hw
    have hu := hT.inv.wf.consistent_value x
    have e3 : D.net.outputs.map (·.val w) = T.net.outputs.map (·.val (T.net.value x)) := by
      refine forall₂_map hout2 ?_
      rintro o s ⟨j, hj, rfl⟩
      have := hc.value hT.inv.wf hi' hu.models hw.models (by
        intro i hi
        obtain ⟨k, hk⟩ := List.getElem?_of_mem hi
        rw [hu.input k i hk, hw.input k i (by rw [hc.inputs]; exact hk)]) _ _ hj
      simp only [Sig.val] at this ⊢
      rw [this]
    rw [e3]
    refine forall₂_map hout ?_
    intro o s h
    refine h v _ hv.models hu.models ?_
    intro i hi
    obtain ⟨k, hk⟩ := List.getElem?_of_mem hi
    rw [hv.input k i hk, hu.input k i (by rw [hTi]; exact hk)]
  · have h1 := hc.ordered.len
    rw [hc.elen] at h1
    have h2 := hT.inv.len
    omega

/-- C60 for networks whose inputs have the smallest indices. It includes that no access is out of range and that the loops and
the recursion end. -/
theorem C60_derive_partial (N : Aig) (hN : N.Built) (hi : InputsFirst N) (repr : List Nat) (hR : ReprOk N repr) :
    ∃ D, deriveChoice N repr = some D ∧ SameOutputs N D.net ∧ D.Ordered ∧ D.Sound ∧ D.net.nodes.length ≤ N.nodes.length :=
  derive_wf N hN.wf hi repr hR

/-- At every gate `n` that has another representative `r`, itself neither constant nor input: a choice is recorded if the node
of `r` is the smaller one, the node of `n` has no fanout yet, and it does not depend on the end of the class list of `r`.
It is then appended to that list. -/
theorem C60_recorded (N : Aig) (hN : N.Built) (hi : InputsFirst N) (repr : List Nat) (hR : ReprOk N repr) (l1 l2 : List Nat) (n : Nat)
    (hg : N.gates = l1 ++ n :: l2) (C : Choice) (m : SMap) (h1 : deriveNodes N repr l1 (start N) = some (C, m))
    (r : Nat) (hr : repr[n]? = some r) (hrn : r ≠ n) (hr0 : r ≠ 0) (hri : r ∉ N.inputs) :
    ∃ C' m' t u l te, deriveNode N repr (C, m) n = some (C', m') ∧ m'[n]? = some (some t) ∧ m'[r]? = some (some u) ∧
      Lists C.equivs (some u.index) l ∧ l.getLast? = some te ∧
      (u.index < t.index → C'.net.fanoutSize t.index = 0 →
        ¬ (Gate { C with net := C'.net } te ∧ ReflTransGen (GSucc { C with net := C'.net }) t.index te) →
        C'.equivs[te]? = some (some t.index) ∧ C'.reprs[t.index]? = some u.index) := by
  have hwf := hN.wf
  have hgr := gates_range hwf hi
  have hlen : N.gates.length = N.nodes.length - (N.inputs.length + 1) := by rw [hgr]; simp
  have hl := congrArg List.length hg
  simp only [List.length_append, List.length_cons] at hl
  have hl1 : l1 = List.range' (N.inputs.length + 1) l1.length := by
    refine List.ext_getElem? fun i => ?_
    by_cases hil : i < l1.length
    · have e1 : l1[i]? = N.gates[i]? := by rw [hg, List.getElem?_append_left hil]
      rw [e1, hgr, List.getElem?_range' (by omega), List.getElem?_range' hil]
    · rw [List.getElem?_eq_none (by omega), List.getElem?_eq_none (by simpa using hil)]
  have hn : n = N.inputs.length + 1 + l1.length := by
    have e1 : N.gates[l1.length]? = some n := by rw [hg]; simp
    rw [hgr, List.getElem?_range' (by omega)] at e1
    simpa using e1.symm
  have hgn : n ∈ N.gates := by rw [hg]; simp
  obtain ⟨a, b, g⟩ := (hwf.mem_gates n).1 hgn
  obtain ⟨st, e, hD⟩ := deriveNodes_spec hwf hi hR l1.length (N.inputs.length + 1) (start N).1 (start N).2 (by omega) (by omega) (start_der hwf hi)
  rw [← hl1, ← hn] at *
  rw [show ((start N).1, (start N).2) = start N from rfl, h1] at e
  obtain rfl := Option.some.inj e
  simp only at hD
  have hrle := hR.le n r hr
  obtain ⟨q1, q2, q3, q4⟩ := hwf.isGate_lt g
  have hnci : ¬ (r = 0 ∨ N.isCi r = true) := by
    rintro (h | h)
    · exact hr0 h
    · have gr := hwf.isGate_of (n := r) hr0 hri (List.getElem?_eq_getElem (by omega))
      rw [gr.not_ci hwf] at h; cases h
  obtain ⟨N', t, hext, e, hder⟩ := deriveNode_gate hwf hR g hD hr hnci
  have hnm : n < m.length := by rw [hD.mlen]; exact q4
  have ht : (m.set n (some t))[n]? = some (some t) := List.getElem?_set_self hnm
  obtain ⟨u, hu, uv, _⟩ := hder.mapped r (by omega)
  obtain ⟨C', e', hder'⟩ := deriveLink_spec hwf hi hR hder hr ht
  obtain ⟨l, -, hL⟩ := chain_ok hder.linked.inv (r := u.index) (Nat.lt_of_lt_of_le uv hder.linked.inv.len)
  obtain ⟨te, hte⟩ : ∃ te, l.getLast? = some te := by
    cases hL with
    | cons _ _ => exact ⟨_, List.getLast?_eq_some_getLast (by simp)⟩
  have hnet : C'.net = N' := by
    rw [deriveLink, if_neg hrn, hu] at e'
    dsimp only at e'
    split at e'
    · simp only [Option.some.injEq, Prod.mk.injEq] at e'; rw [← e'.1]
    split at e'
    · simp only [Option.some.injEq, Prod.mk.injEq] at e'; rw [← e'.1]
    · next hge _ =>
      obtain ⟨gt, _, uv, _⟩ := hder.pair hwf hi hR hr ht hu (by omega)
      obtain ⟨C2, b, _, _, e2, _, _, _, hf, htr⟩ := setChoice_spec hder.linked.inv gt uv
      rw [e2] at e'
      simp only [Option.map_some, Option.some.injEq, Prod.mk.injEq] at e'
      rw [← e'.1]
      cases b with
      | false => rw [hf rfl]
      | true => rw [htr rfl]
  refine ⟨C', _, t, u, l, te, e.trans e', ht, hu, hL, hte, ?_⟩
  intro hlt hfo hcyc
  rw [hnet] at hfo hcyc
  obtain ⟨gt, tv, uv, _⟩ := hder.pair hwf hi hR hr ht hu hlt
  obtain ⟨C2, b, l', te', e2, hL', hte', hb, hf, htr⟩ := setChoice_spec hder.linked.inv gt uv
  obtain rfl := hL.unique hL'
  rw [hte] at hte'
  obtain rfl := Option.some.inj hte'
  rw [hb.2 ⟨hlt, hcyc⟩] at *
  rw [deriveLink, if_neg hrn, hu] at e'
  dsimp only at e'
  rw [if_neg (by omega), if_neg (by simpa using hfo), e2] at e'
  simp only [Option.map_some, Option.some.injEq, Prod.mk.injEq] at e'
  obtain ⟨rfl, -⟩ := e'
  rw [htr rfl]
  have hlast := (hL.last hder.linked.inv hte).2.2
  have h1 := (List.getElem?_eq_some_iff.1 hlast).1
  have h2 := hder.rlen
  refine ⟨?_, ?_⟩
  · simp only; exact List.getElem?_set_self h1
  · simp only; exact List.getElem?_set_self (Nat.lt_of_lt_of_le tv h2)

/-- Specification: `f` maps a part of `T` one to one onto `D`: the nodes that the outputs depend on through fanins and links, the
constant and the inputs, with their fanins and links. -/
structure Embeds (T D : Choice) (f : Nat → Option Nat) : Prop where
  dom : ∀ n, (∃ j, f n = some j) ↔ n = 0 ∨ n ∈ T.net.inputs ∨ ∃ o ∈ T.net.outputs, ReflTransGen T.GSucc o.index n
  low : f 0 = some 0 ∧ ∀ n ∈ T.net.inputs, f n = some n
  inj : ∀ n n' j, f n = some j → f n' = some j → n = n'
  surj : ∀ j, j < D.net.nodes.length ↔ ∃ n, f n = some j
  gate : ∀ n j a b, f n = some j → T.net.IsGate n a b → ∃ ia ib c d, f a.index = some ia ∧ f b.index = some ib ∧ D.net.IsGate j c d ∧
    ((c = ⟨ia, a.compl⟩ ∧ d = ⟨ib, b.compl⟩) ∨ (c = ⟨ib, b.compl⟩ ∧ d = ⟨ia, a.compl⟩))
  link : ∀ j i, D.equivs[j]? = some (some i) ↔ ∃ n k, T.Gate n ∧ T.equivs[n]? = some (some k) ∧ f n = some j ∧ f k = some i
  outputs : List.Forall₂ (fun o s => f o.index = some s.index ∧ s.compl = o.compl) T.net.outputs D.net.outputs

/-- `man_dup_dfs` returns, and the result is a copy with all links of the part that the outputs depend on; every link goes to a
smaller index. -/
theorem C60_dup (T : Choice) (hT : Linked T) (hi : InputsFirst T.net) :
    ∃ D f, manDup T = some D ∧ D.net.Built ∧ D.net.inputs = T.net.inputs ∧ D.Ordered ∧ Embeds T D f := by
  obtain ⟨D, m, e, hc, _, hout, hcone⟩ := manDup_spec hT.inv hi
  have hf : ∀ n j, (look m ⟨n, false⟩).map (·.index) = some j ↔ m[n]? = some (some ⟨j, false⟩) := by
    intro n j
    simp only [look]
    constructor
    · intro h
      split at h
      · next t ht =>
        have := (hc.pos n t ht).1
        cases t with | mk i c =>
        simp only at this
        subst this
        simp only [Sig.xorb, Option.map_some, Option.some.injEq] at h
        rw [ht, h]
      · cases h
    · intro h; rw [h]; rfl
  have hcl : ∀ x y, m[x]? = some (some ⟨y, false⟩) → ∀ z, T.GSucc x z → ∃ j, m[z]? = some (some ⟨j, false⟩) := by
    rintro x y hx z ⟨gx, ⟨a, b, g, hz⟩ | hz⟩
    · obtain ⟨ia, ib, h1, h2, _⟩ := hc.gate x _ a b hx g
      rcases hz with rfl | rfl
      · exact ⟨ia, h1⟩
      · exact ⟨ib, h2⟩
    · obtain ⟨i, h1, _⟩ := hc.kept x z _ gx hz hx
      exact ⟨i, h1⟩
  refine ⟨D, fun n => (look m ⟨n, false⟩).map (·.index), e, hc.built, hc.inputs, hc.ordered, ?_, ?_, ?_, ?_, ?_, ?_, ?_⟩
  · intro n
    simp only [hf]
    constructor
    · rintro ⟨j, hj⟩
      rcases hcone n _ hj with h | h
      · by_cases h0 : n = 0
        · exact Or.inl h0
        · exact Or.inr (Or.inl (hi.mem.2 ⟨by omega, h⟩))
      · exact Or.inr (Or.inr h)
    · rintro (rfl | h | ⟨o, ho, hr⟩)
      · exact ⟨0, hc.low 0 (Nat.zero_le _)⟩
      · exact ⟨n, hc.low n (hi.mem.1 h).2⟩
      · induction hr with
        | refl =>
            obtain ⟨k, hk⟩ := List.getElem?_of_mem ho
            have hk2 : k < D.net.outputs.length := by
              rw [← hout.length_eq]; exact (List.getElem?_eq_some_iff.1 hk).1
            have := List.Forall₂.get hout (i := k) (List.getElem?_eq_some_iff.1 hk).1 hk2
            obtain ⟨j, hj, _⟩ := this
            refine ⟨j, ?_⟩
            rw [List.getElem?_eq_some_iff] at hk
            obtain ⟨h1, rfl⟩ := hk
            exact hj
        | tail _ hs ih =>
            obtain ⟨j, hj⟩ := ih
            exact hcl _ _ hj _ hs
  · exact ⟨(hf _ _).2 (hc.low 0 (Nat.zero_le _)), fun n hn => (hf _ _).2 (hc.low n (hi.mem.1 hn).2)⟩
  · intro n n' j h1 h2
    simp only [hf] at h1 h2
    exact hc.inj _ _ _ _ h1 h2 rfl
  · intro j
    simp only [hf]
    exact ⟨hc.surj j, fun ⟨n, hn⟩ => (hc.pos _ _ hn).2⟩
  · intro n j a b hn g
    simp only [hf] at hn
    obtain ⟨ia, ib, h1, h2, h3⟩ := hc.gate n _ a b hn g
    refine ⟨ia, ib, _, _, (hf _ _).2 h1, (hf _ _).2 h2, h3, ?_⟩
    rcases Aig.order_cases ⟨ia, a.compl⟩ ⟨ib, b.compl⟩ with ⟨e, _⟩ | ⟨e, _⟩ <;> rw [e] <;> simp
  · intro j i
    simp only [hf]
    constructor
    · intro h
      obtain ⟨n, k, h1, h2, h3, h4, _⟩ := hc.links j i h
      exact ⟨n, k, h1, h2, h3, h4⟩
    · rintro ⟨n, k, h1, h2, h3, h4⟩
      obtain ⟨i', h5, h6⟩ := hc.kept n k _ h1 h2 h3
      rw [h4] at h5
      obtain rfl : i = i' := by simpa using h5
      exact h6
  · refine hout.imp ?_
    rintro o s ⟨j, hj, rfl⟩
    exact ⟨(hf _ _).2 hj, rfl⟩

/-- C59 applied to a network with choices that has the output functions of the original network -/
theorem mapping_of {β : Type} {N : Aig} {D : Choice} (hD : SameOutputs N D.net) (hO : D.Ordered) (hS : D.Sound) :
    ∀ (p : Mapper.Ps), Mapper.PsOk p.cut → ∀ (H : Nat → Nat → Mapper.Heur β) (cost : β) (M : Mapping),
      Mapper.klutMap p D H cost = some M → (∀ n, ¬ Mapper.SelfCell D.net M n) →
      ∃ r, Collapse.choiceToKlut D.net M = some r ∧ (r = none ↔ M.hasMapping = false ∧ 0 < D.net.numGates) ∧
        ∀ K, r = some K → K.inputs.length = N.inputs.length ∧ K.outputs.length = N.outputs.length ∧
          (∀ x v v', N.Consistent x v → K.Consistent x v' → K.outputs.map v' = N.outputs.map (·.val v)) ∧
          ∀ (n : Nat) nd, K.nodes[n]? = some nd → nd.children.length ≤ p.cut.cutSize := by
  intro p hp H cost M hM hself
  obtain ⟨r, e2, h2, h3⟩ := Mapper.C59_klut_partial p D hD.built (by rw [hD.inputs, hD.numPis]) (by rw [hD.outputs, hD.numPos]) hO hS hp H cost M hM hself
  refine ⟨r, e2, h2, fun K hK => ?_⟩
  obtain ⟨h4, h5⟩ := h3 K hK
  refine ⟨by rw [h4.inputs, hD.inputs], by rw [h4.outputs, hD.outputs], ?_, h5⟩
  intro x v v' hv hv'
  have hw := hD.built.wf.consistent_value x
  rw [h4.val x _ v' hw hv', hD.val x v _ hv hw]

/-- C59 applied to the result: whatever the heuristics of the mapper, the LUT network has the output functions of the original
network, unless some cell is the node itself. Missing: these runs, where it fails; inputs after gates; cut limits other than 3 to
11; and registers are not registers any more in the LUT network. -/
theorem C60_mapping_partial {β : Type} (N : Aig) (hN : N.Built) (hi : InputsFirst N) (repr : List Nat) (hR : ReprOk N repr) :
    ∃ D, deriveChoice N repr = some D ∧ ∀ (p : Mapper.Ps), Mapper.PsOk p.cut → ∀ (H : Nat → Nat → Mapper.Heur β) (cost : β) (M : Mapping),
      Mapper.klutMap p D H cost = some M → (∀ n, ¬ Mapper.SelfCell D.net M n) →
      ∃ r, Collapse.choiceToKlut D.net M = some r ∧ (r = none ↔ M.hasMapping = false ∧ 0 < D.net.numGates) ∧
        ∀ K, r = some K → K.inputs.length = N.inputs.length ∧ K.outputs.length = N.outputs.length ∧
          (∀ x v v', N.Consistent x v → K.Consistent x v' → K.outputs.map v' = N.outputs.map (·.val v)) ∧
          ∀ (n : Nat) nd, K.nodes[n]? = some nd → nd.children.length ≤ p.cut.cutSize := by
  obtain ⟨D, e, hD, hO, hS, _⟩ := C60_derive_partial N hN hi repr hR
  exact ⟨D, e, mapping_of hD hO hS⟩

/-! ### An example and counterexamples -/

/-- the network of `Mapper.assocAig`, where node 7 is `x₁ ∧ (x₂ ∧ x₃)` and node 5 is `(x₁ ∧ x₂) ∧ x₃`; node 5 represents node 7 -/
def assocRepr : List Nat := [0, 1, 2, 3, 4, 5, 6, 5]

theorem assocRepr_ok : ReprOk Mapper.assocAig assocRepr := by
  have hc : ∀ n r : Nat, assocRepr[n]? = some r → r = n ∨ (n = 7 ∧ r = 5) := by
    intro n r h
    match n, h with
    | 0, h | 1, h | 2, h | 3, h | 4, h | 5, h | 6, h => left; simpa [assocRepr] using h.symm
    | 7, h => right; exact ⟨rfl, by simpa [assocRepr] using h.symm⟩
    | n + 8, h => simp [assocRepr] at h
  refine ⟨by decide, fun n r h => ?_, fun n r h v hv => ?_⟩
  · rcases hc n r h with rfl | ⟨rfl, rfl⟩ <;> omega
  · rcases hc n r h with rfl | ⟨rfl, rfl⟩
    · rfl
    · exact Mapper.assocNet_sound 7 5 (by decide) v hv

theorem assocAig_first : InputsFirst Mapper.assocAig := by unfold InputsFirst; decide

/-- The result has both structures, joined by a link. -/
example : ∃ D, deriveChoice Mapper.assocAig assocRepr = some D ∧ D.equivs[7]? = some (some 5) ∧ SameOutputs Mapper.assocAig D.net ∧
    D.Ordered ∧ D.Sound := by
  obtain ⟨D, e, h1, h2, h3, _⟩ := C60_derive_partial _ Mapper.assocAig_built assocAig_first _ assocRepr_ok
  refine ⟨D, e, ?_, h1, h2, h3⟩
  have h : (deriveChoice Mapper.assocAig assocRepr).map (fun D => D.equivs[7]?) = some (some (some 5)) := by decide +kernel
  rw [e] at h
  simpa using h

/-- The hypotheses of `C60_recorded` at node 7, where the choice is recorded. -/
example : ∃ C m C' m', Mapper.assocAig.gates = [4, 5, 6] ++ 7 :: [] ∧ deriveNodes Mapper.assocAig assocRepr [4, 5, 6] (start Mapper.assocAig) = some (C, m) ∧
    deriveNode Mapper.assocAig assocRepr (C, m) 7 = some (C', m') ∧ C.equivs[5]? = some none ∧ C'.equivs[5]? = some (some 7) := by
  have h : ((deriveNodes Mapper.assocAig assocRepr [4, 5, 6] (start Mapper.assocAig)).bind fun st =>
      (deriveNode Mapper.assocAig assocRepr st 7).map fun st' => (st.1.equivs[5]?, st'.1.equivs[5]?)) =
      some (some none, some (some 7)) := by decide +kernel
  cases e1 : deriveNodes Mapper.assocAig assocRepr [4, 5, 6] (start Mapper.assocAig) with
  | none => rw [e1] at h; cases h
  | some st =>
    rw [e1] at h
    simp only [Option.bind_some] at h
    cases e2 : deriveNode Mapper.assocAig assocRepr st 7 with
    | none => rw [e2] at h; cases h
    | some st' =>
      rw [e2] at h
      simp only [Option.map_some, Option.some.injEq, Prod.mk.injEq] at h
      exact ⟨st.1, st.2, st'.1, st'.2, by decide, rfl, e2, h.1, h.2⟩

/-- A network covered by `C60_dup` with a link that goes upwards. -/
example : ∃ T, Linked T ∧ InputsFirst T.net ∧ T.equivs[5]? = some (some 7) := by
  obtain ⟨T, e, hT, _, hi, _⟩ := deriveRaw_spec Mapper.assocAig_built.wf assocAig_first assocRepr_ok
  refine ⟨T, hT, by unfold InputsFirst; rw [hi]; exact assocAig_first, ?_⟩
  have h : (deriveRaw Mapper.assocAig assocRepr).map (fun D => D.equivs[5]?) = some (some (some 7)) := by decide +kernel
  rw [e] at h
  simpa using h

/-- inputs 1, 2 and 4; gate 3 is `x₁ ∧ x₂`, gate 5 is `(x₁ ∧ x₂) ∧ x₃`, the output -/
def lateAig : Aig :=
  let n1 := Aig.empty.createPi.1.createPi.1
  let r3 := n1.createAnd (.mk 1 false) (.mk 2 false)
  let n4 := r3.1.createPi.1
  let r5 := n4.createAnd (.mk 3 false) (.mk 4 false)
  r5.1.createPo (.mk 5 false)

theorem lateAig_built : lateAig.Built := by
  have h1 : Aig.Built Aig.empty.createPi.1.createPi.1 := .pi (.pi .empty)
  have h3 := Aig.Built.and (a := .mk 1 false) (b := .mk 2 false) h1 (by decide) (by decide)
  have h5 := Aig.Built.and (a := .mk 3 false) (b := .mk 4 false) (.pi h3) (by decide) (by decide)
  exact .po h5 (by decide)

/-- With an input after a gate the result has another function, even if every node is its own representative: the third input is
node 3 of the new network, and its entry is the signal 4, the first new gate. -/
theorem C60_violated_order : lateAig.Built ∧ ReprOk lateAig (List.range 6) ∧
    ∃ D, deriveChoice lateAig (List.range 6) = some D ∧
      ∀ x v w, x 0 = true → x 1 = true → x 2 = false → lateAig.Consistent x v → D.net.Consistent x w →
        D.net.outputs.map (·.val w) ≠ lateAig.outputs.map (·.val v) := by
  refine ⟨lateAig_built, ⟨by decide, ?_, ?_⟩, ?_⟩
  · intro n r h
    rw [List.getElem?_range (by have := (List.getElem?_eq_some_iff.1 h).1; simpa using this)] at h
    exact Nat.le_of_eq (by simpa using h.symm)
  · intro n r h v _
    rw [List.getElem?_range (by have := (List.getElem?_eq_some_iff.1 h).1; simpa using this)] at h
    obtain rfl : n = r := by simpa using h
    rfl
  · have h : (deriveChoice lateAig (List.range 6)).map (fun D => D.net) =
        some (((Aig.empty.createPi.1.createPi.1.createPi.1.createAnd (.mk 1 false) (.mk 2 false)).1).createPo (.mk 4 false)) := by decide +kernel
    cases e : deriveChoice lateAig (List.range 6) with
    | none => rw [e] at h; cases h
    | some D =>
      rw [e] at h
      simp only [Option.map_some, Option.some.injEq] at h
      refine ⟨D, rfl, ?_⟩
      rw [h]
      intro x v w h0 h1 h2 hv hw
      have g4 := hw.models.gate 4 (.mk 1 false) (.mk 2 false) ⟨by decide, by decide, _, rfl, by decide, by decide⟩
      have w1 := hw.input 0 1 (by decide)
      have w2 := hw.input 1 2 (by decide)
      have g5 := hv.models.gate 5 (.mk 3 false) (.mk 4 false) ⟨by decide, by decide, _, rfl, by decide, by decide⟩
      have v4 := hv.input 2 4 (by decide)
      simp only [Sig.val] at g4 g5
      show [Bool.xor false (w 4)] ≠ [Bool.xor false (v 5)]
      rw [g4, g5, w1, w2, v4, h0, h1, h2]
      simp

/-- one primary input and one register that stores it -/
def regAig : Aig := (Aig.empty.createPi.1.createRo.1.createPo (.mk 2 false)).createRi (.mk 1 false) 0

/-- Registers become plain inputs and outputs. -/
theorem C60_violated_registers : regAig.Built ∧ regAig.latches.length = 1 ∧ regAig.numPis = 1 ∧ regAig.numPos = 1 ∧
    (deriveChoice regAig (List.range 3)).map (fun D => (D.net.latches.length, D.net.numPis, D.net.numPos)) = some (0, 2, 2) :=
  ⟨.ri (.po (.ro (.pi .empty)) (by decide)) (by decide), by decide, by decide, by decide, by decide +kernel⟩

end Verif.Choice
