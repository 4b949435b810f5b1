import Verif.Choice.DupProof

set_option autoImplicit false

/-!
# `derive_choice_aig`
-/

namespace Verif.Choice
open Relation
open Aig (WF Ext Built order)

/-- Specification: every entry of the array of proved representatives is a node with a smaller or equal index that has the same function up to
the phases. -/
structure ReprOk (N : Aig) (repr : List Nat) : Prop where
  len : repr.length = N.nodes.length
  le : ∀ n r : Nat, repr[n]? = some r → r ≤ n
  same : ∀ n r : Nat, repr[n]? = some r → ∀ v, N.Models v → Bool.xor (v n) (N.phaseOf n) = Bool.xor (v r) (N.phaseOf r)

/-- the representatives of the network under construction -/
def Reps (C : Choice) : Prop := ∀ a b : Nat, C.reprs[a]? = some b → b = a ∨ (a < C.net.nodes.length ∧ b < a ∧
  ∀ w, C.net.Models w → Bool.xor (w a) (C.net.phaseOf a) = Bool.xor (w b) (C.net.phaseOf b))

theorem phase_ext {N N' : Aig} (h : Ext N N') {n : Nat} (hn : n < N.nodes.length) : N'.phaseOf n = N.phaseOf n := by
  obtain ⟨nd, h1, _, _, _, h2⟩ := h.kids n _ (List.getElem?_eq_getElem hn)
  simp only [Aig.phaseOf, h1, List.getElem?_eq_getElem hn, h2]

theorem reps_grow {C : Choice} {N' : Aig} (he : Ext C.net N') (h : Reps C) : Reps { C with net := N' } := by
  intro a b hab
  refine (h a b hab).imp_right fun ⟨h1, h2, h3⟩ => ⟨Nat.lt_of_lt_of_le h1 he.len, h2, fun w hw => ?_⟩
  simp only
  rw [phase_ext he h1, phase_ext he (Nat.lt_trans h2 h1)]
  exact h3 w (he.models hw)

theorem sound_grow {C : Choice} {N' : Aig} (hC : Inv C) (he : Ext C.net N') (h : C.Sound) : Sound { C with net := N' } := by
  intro a b hab w hw
  obtain ⟨h1, h2⟩ := hC.gates a b hab
  simp only
  rw [phase_ext he h1, phase_ext he (hC.gate_lt h2)]
  exact h a b hab w (he.models hw)

theorem reprSig_spec {C : Choice} (hl : C.net.nodes.length ≤ C.reprs.length) (h : Reps C) {s : Sig} (hs : C.net.Valid s) :
    ∃ t, C.reprSig s = some t ∧ C.net.Valid t ∧ (t = s ∨ t.index < s.index) ∧ ∀ w, C.net.Models w → t.val w = s.val w := by
  have hsl : s.index < C.reprs.length := Nat.lt_of_lt_of_le hs hl
  have hr : C.reprs[s.index]? = some C.reprs[s.index] := List.getElem?_eq_getElem hsl
  generalize C.reprs[s.index] = r at hr
  rcases h _ _ hr with rfl | ⟨h1, h2, h3⟩
  · refine ⟨s, ?_, hs, Or.inl rfl, fun _ _ => rfl⟩
    rw [reprSig, hr]; dsimp only
    rw [if_pos ⟨hs, hs⟩]
    cases s; simp
  · have hv : r < C.net.nodes.length := Nat.lt_trans h2 h1
    refine ⟨⟨r, Bool.xor (Bool.xor (C.net.phaseOf r) (C.net.phaseOf s.index)) s.compl⟩, ?_, hv, Or.inr h2, ?_⟩
    · rw [reprSig, hr]; dsimp only
      rw [if_pos ⟨hs, hv⟩]
    · intro w hw
      have := h3 w hw
      simp only [Sig.val]
      revert this
      cases w s.index <;> cases w r <;> cases C.net.phaseOf r <;> cases C.net.phaseOf s.index <;> cases s.compl <;> simp

theorem reprLoop_spec {C : Choice} (hl : C.net.nodes.length ≤ C.reprs.length) (h : Reps C) : ∀ (fuel : Nat) (s : Sig), C.net.Valid s →
    s.index < fuel → ∃ t, C.reprLoop fuel s = some t ∧ C.net.Valid t ∧ ∀ w, C.net.Models w → t.val w = s.val w
  | 0, s, _, hf => by omega
  | fuel + 1, s, hs, hf => by
      obtain ⟨t, e, ht, hts, hv⟩ := reprSig_spec hl h hs
      rw [reprLoop, e]; dsimp only
      by_cases hc : t = s
      · rw [if_pos hc]; exact ⟨s, rfl, hs, fun _ _ => rfl⟩
      · rw [if_neg hc]
        obtain ⟨u, e2, hu, hv2⟩ := reprLoop_spec hl h fuel t ht (by rcases hts with h | h; exact absurd h hc; omega)
        exact ⟨u, e2, hu, fun w hw => (hv2 w hw).trans (hv w hw)⟩

/-- invariant of the loop over the gates -/
structure Der (N : Aig) (C : Choice) (m : SMap) (n : Nat) : Prop where
  linked : Linked C
  built : C.net.Built
  inputs : C.net.inputs = N.inputs
  numPis : C.net.numPis = N.inputs.length
  outputs : C.net.outputs = []
  numPos : C.net.numPos = 0
  elen : C.equivs.length = N.nodes.length
  small : C.net.nodes.length ≤ n
  mlen : m.length = N.nodes.length
  mapped : ∀ x : Nat, x < n → ∃ s, m[x]? = some (some s) ∧ C.net.Valid s ∧
    ∀ v w, N.Models v → C.net.Models w → (∀ i ∈ N.inputs, v i = w i) → s.val w = v x
  reps : Reps C
  sound : C.Sound

theorem Der.rlen {N : Aig} {C : Choice} {m : SMap} {n : Nat} (h : Der N C m n) : C.net.nodes.length ≤ C.reprs.length := by
  have h1 := h.linked.inv.len
  have h2 := h.linked.inv.lenr
  omega

theorem Lists.same {C : Choice} (hS : C.Sound) {w : Nat → Bool} (hw : C.net.Models w) : ∀ {o : Option Nat} {l : List Nat},
    Lists C.equivs o l → ∀ r, o = some r → ∀ x ∈ l, Bool.xor (w x) (C.net.phaseOf x) = Bool.xor (w r) (C.net.phaseOf r)
  | _, _, .nil, _, ho, _, _ => by cases ho
  | _, _, .cons (n := n) (e := e) he hl, r, ho, x, hx => by
      obtain rfl := Option.some.inj ho
      rcases List.mem_cons.1 hx with rfl | hx
      · rfl
      · cases hl with
        | nil => simp at hx
        | cons he2 hl2 =>
            rw [Lists.same hS hw (.cons he2 hl2) _ rfl x hx]
            exact (hS _ _ he w hw).symm

/-- two nodes whose values differ by a constant are equal up to the phases -/
theorem phase_of_const {N : Aig} (hN : Built N) {a b : Nat} {c : Bool} (ha : a < N.nodes.length) (hb : b < N.nodes.length)
    (h : ∀ w, N.Models w → Bool.xor (w a) (w b) = c) : ∀ w, N.Models w → Bool.xor (w a) (N.phaseOf a) = Bool.xor (w b) (N.phaseOf b) := by
  intro w hw
  obtain ⟨z, hz, hz0⟩ := models_inputs hN.wf (fun _ => false)
  have h1 := h w hw
  have h2 := h z hz
  rw [models_zero hN hz hz0 a ha, models_zero hN hz hz0 b hb]
  rw [← h2] at h1
  revert h1
  cases w a <;> cases w b <;> cases z a <;> cases z b <;> simp

/-- the node of `n` is a gate, equal to that of its representative up to the phases -/
theorem Der.pair {N : Aig} (hN : WF N) (hi : InputsFirst N) {repr : List Nat} (hR : ReprOk N repr) {C : Choice} {m : SMap} {n r : Nat}
    {t u : Sig} (h : Der N C m (n + 1)) (hr : repr[n]? = some r) (ht : m[n]? = some (some t)) (hu : m[r]? = some (some u))
    (hlt : u.index < t.index) :
    C.Gate t.index ∧ C.net.Valid t ∧ C.net.Valid u ∧
      ∀ w, C.net.Models w → Bool.xor (w t.index) (C.net.phaseOf t.index) = Bool.xor (w u.index) (C.net.phaseOf u.index) := by
  have hrn := hR.le n r hr
  obtain ⟨u', hu', uv, uval⟩ := h.mapped r (by omega)
  obtain ⟨t', ht', tv, tval⟩ := h.mapped n (by omega)
  rw [ht] at ht'
  rw [hu] at hu'
  obtain rfl : t = t' := by simpa using ht'
  obtain rfl : u = u' := by simpa using hu'
  have hI := h.linked.inv
  -- the two nodes differ by a constant
  have hconst : ∀ w, C.net.Models w → Bool.xor (w t.index) (w u.index) =
      Bool.xor (Bool.xor t.compl u.compl) (Bool.xor (N.phaseOf n) (N.phaseOf r)) := by
    intro w hw
    obtain ⟨v, hv, hx⟩ := models_inputs hN w
    have e1 := tval v w hv hw hx
    have e2 := uval v w hv hw hx
    have e3 := hR.same n r hr v hv
    rw [← e1, ← e2] at e3
    simp only [Sig.val] at e3
    revert e3
    cases w t.index <;> cases w u.index <;> cases t.compl <;> cases u.compl <;> cases N.phaseOf n <;> cases N.phaseOf r <;> simp
  have hsame := phase_of_const h.built tv uv hconst
  have hCi : ∀ {i : Nat}, i ∈ C.net.inputs ↔ 1 ≤ i ∧ i ≤ N.inputs.length := by
    intro i; rw [h.inputs]; exact hi.mem
  have gn : C.Gate t.index := by
    by_contra hg
    have hin : t.index ∈ C.net.inputs := by
      by_contra hni
      exact hg ⟨_, _, hI.wf.isGate_of (n := t.index) (by omega) hni (List.getElem?_eq_getElem tv)⟩
    obtain ⟨z, hz, hz0⟩ := models_inputs hI.wf (fun _ => false)
    obtain ⟨y, hy, hy0⟩ := models_inputs hI.wf (fun i => i == t.index)
    have e1 := hconst z hz
    have e2 := hconst y hy
    rw [← e1, hy0 _ hin, hz0 _ hin] at e2
    have hu0 : y u.index = false ∧ z u.index = false := by
      by_cases h0 : u.index = 0
      · rw [h0]; exact ⟨hy.const, hz.const⟩
      · have hui : u.index ∈ C.net.inputs := by
          rw [hCi] at hin ⊢; omega
        rw [hy0 _ hui, hz0 _ hui]
        refine ⟨?_, rfl⟩
        rw [beq_eq_false_iff_ne]; omega
    rw [hu0.1, hu0.2] at e2
    simp at e2
  exact ⟨gn, tv, uv, hsame⟩

theorem deriveLink_spec {N : Aig} (hN : WF N) (hi : InputsFirst N) {repr : List Nat} (hR : ReprOk N repr) {C : Choice} {m : SMap} {n r : Nat}
    {t : Sig} (h : Der N C m (n + 1)) (hr : repr[n]? = some r) (ht : m[n]? = some (some t)) :
    ∃ C', deriveLink C m n r t = some (C', m) ∧ Der N C' m (n + 1) := by
  have hrn := hR.le n r hr
  rw [deriveLink]
  by_cases hrn' : r = n
  · rw [if_pos hrn']; exact ⟨C, rfl, h⟩
  rw [if_neg hrn']
  obtain ⟨u, hu, -, -⟩ := h.mapped r (by omega)
  rw [hu]; dsimp only
  by_cases hge : u.index ≥ t.index
  · rw [if_pos hge]; exact ⟨C, rfl, h⟩
  rw [if_neg hge]
  by_cases hfo : C.net.fanoutSize t.index ≠ 0
  · rw [if_pos hfo]; exact ⟨C, rfl, h⟩
  rw [if_neg hfo]
  obtain ⟨gn, tv, uv, hsame⟩ := h.pair hN hi hR hr ht hu (by omega)
  have hI := h.linked.inv
  obtain ⟨C', b, l, te, e, hL, hlast, hb, hf, htr⟩ := setChoice_spec hI gn uv
  rw [e]
  refine ⟨C', rfl, ?_⟩
  have hlink := Linked.set h.linked gn uv e
  cases b with
  | false => rw [hf rfl]; exact h
  | true =>
      obtain ⟨hlt, _⟩ := hb.1 rfl
      have hte := List.mem_of_getLast? hlast
      rw [htr rfl] at hlink ⊢
      refine ⟨hlink, h.built, h.inputs, h.numPis, h.outputs, h.numPos, by simpa using h.elen, h.small, h.mlen, h.mapped, ?_, ?_⟩
      · intro a b hab
        simp only at hab
        rw [List.getElem?_set] at hab
        split at hab
        · next hta =>
          split at hab
          · obtain rfl := Option.some.inj hab
            subst hta
            exact Or.inr ⟨tv, hlt, hsame⟩
          · cases hab
        · exact h.reps a b hab
      · intro x y hxy w hw
        rcases set_link hxy with ⟨rfl, rfl⟩ | hxy
        · simp only
          rw [hL.same h.sound hw _ rfl _ hte]
          exact (hsame w hw).symm
        · exact h.sound x y hxy w hw

theorem look_val {m : SMap} {s t : Sig} (h : m[s.index]? = some (some t)) : look m s = some (t.xorb s.compl) := by
  simp [look, h]

/-- a gate whose representative is neither constant nor input, up to the last part of the loop body -/
theorem deriveNode_gate {N : Aig} (hN : WF N) {repr : List Nat} (hR : ReprOk N repr) {C : Choice} {m : SMap} {n r : Nat}
    {a b : Sig} (g : N.IsGate n a b) (h : Der N C m n) (hr : repr[n]? = some r) (hci : ¬ (r = 0 ∨ N.isCi r = true)) :
    ∃ (N' : Aig) (t : Sig), Aig.Ext C.net N' ∧ deriveNode N repr (C, m) n = deriveLink { C with net := N' } (m.set n (some t)) n r t ∧
      Der N { C with net := N' } (m.set n (some t)) (n + 1) := by
  obtain ⟨l1, l2, l3, l4⟩ := hN.isGate_lt g
  have hrn := hR.le n r hr
  have hk : N.kids n = some (a, b) := by
    obtain ⟨_, _, nd, h1, _, rfl, rfl⟩ := g
    simp [Aig.kids, h1]
  have hnm : n < m.length := by rw [h.mlen]; exact l4
  have hget : ∀ (t : Sig) (x : Nat), (m.set n (some t))[x]? = if n = x then some (some t) else m[x]? := by
    intro t x
    by_cases hx : n = x
    · subst hx; rw [List.getElem?_set_self hnm, if_pos rfl]
    · rw [List.getElem?_set, if_neg hx, if_neg hx]
  rw [deriveNode, hr, hk]; dsimp only
  rw [if_neg (by omega)]
  rw [if_neg hci]
  obtain ⟨sa, hsa, va, vala⟩ := h.mapped a.index (by omega)
  obtain ⟨sb, hsb, vb, valb⟩ := h.mapped b.index (by omega)
  rw [look_val hsa, look_val hsb]
  dsimp only [Option.bind_some]
  obtain ⟨a', ea, va', _, vala'⟩ := reprSig_spec h.rlen h.reps (s := sa.xorb a.compl) va
  obtain ⟨b', eb, vb', _, valb'⟩ := reprSig_spec h.rlen h.reps (s := sb.xorb b.compl) vb
  rw [ea, eb]; dsimp only
  have hs := Aig.createAnd_spec h.built.wf va' vb'
  have hlen : (C.net.createAnd a' b').1.nodes.length ≤ C.net.nodes.length + 1 := by
    rcases Aig.createAnd_cases C.net a' b' with e | ⟨c, d, _, _, _, _, _, e⟩
    · rw [e]; omega
    · rw [e, Aig.addAnd_length]
  have hsmall := h.small
  have helen := h.elen
  have hlk := Linked.grow h.linked (hs.built h.built) hs.ext (by rw [helen]; omega)
  have hrep := reps_grow hs.ext h.reps
  have hsnd := sound_grow h.linked.inv hs.ext h.sound
  have hrl := h.linked.inv.lenr
  obtain ⟨t, et, tv, tval⟩ := reprLoop_spec (C := { C with net := (C.net.createAnd a' b').1 }) (by simp only; omega) hrep
    ((C.net.createAnd a' b').1.nodes.length + 1) _ hs.valid (by have := hs.valid; unfold Aig.Valid at this; omega)
  rw [et]; dsimp only
  have hder : Der N { C with net := (C.net.createAnd a' b').1 } (m.set n (some t)) (n + 1) := by
    refine ⟨hlk, hs.built h.built, by simp only [hs.inputs, h.inputs], by simp only [hs.numPis, h.numPis],
      by simp only [hs.outputs, h.outputs], by simp only [hs.numPos, h.numPos], helen, by simp only; omega, by simpa using h.mlen, ?_,
      hrep, hsnd⟩
    intro x hx
    rw [hget]
    by_cases hnx : n = x
    · subst hnx
      refine ⟨_, if_pos rfl, tv, ?_⟩
      intro v w hv hw hxi
      have hw' := hs.ext.models hw
      rw [tval w hw, hs.val w hw, vala' w hw', valb' w hw', hv.gate n a b g, ]
      have e1 := vala v w hv hw' hxi
      have e2 := valb v w hv hw' hxi
      simp only [Sig.val, Sig.xorb] at e1 e2 ⊢
      rw [← e1, ← e2]
      cases w sa.index <;> cases w sb.index <;> cases sa.compl <;> cases sb.compl <;> cases a.compl <;> cases b.compl <;> rfl
    · rw [if_neg hnx]
      obtain ⟨s, h1, h2, h3⟩ := h.mapped x (by omega)
      exact ⟨s, h1, hs.ext.valid h2, fun v w hv hw hxi => h3 v w hv (hs.ext.models hw) hxi⟩
  exact ⟨_, t, hs.ext, rfl, hder⟩

theorem deriveNode_spec {N : Aig} (hN : WF N) (hi : InputsFirst N) {repr : List Nat} (hR : ReprOk N repr) {C : Choice} {m : SMap} {n : Nat}
    {a b : Sig} (g : N.IsGate n a b) (h : Der N C m n) :
    ∃ st, deriveNode N repr (C, m) n = some st ∧ Der N st.1 st.2 (n + 1) := by
  obtain ⟨l1, l2, l3, l4⟩ := hN.isGate_lt g
  have hnr : n < repr.length := by rw [hR.len]; exact l4
  have hr : repr[n]? = some repr[n] := List.getElem?_eq_getElem hnr
  generalize repr[n] = r at hr
  have hrn := hR.le n r hr
  have hk : N.kids n = some (a, b) := by
    obtain ⟨_, _, nd, h1, _, rfl, rfl⟩ := g
    simp [Aig.kids, h1]
  have hnm : n < m.length := by rw [h.mlen]; exact l4
  have hget : ∀ (t : Sig) (x : Nat), (m.set n (some t))[x]? = if n = x then some (some t) else m[x]? := by
    intro t x
    by_cases hx : n = x
    · subst hx; rw [List.getElem?_set_self hnm, if_pos rfl]
    · rw [List.getElem?_set, if_neg hx, if_neg hx]
  by_cases hci : r = 0 ∨ N.isCi r = true
  · rw [deriveNode, hr, hk]; dsimp only
    rw [if_neg (by omega), if_pos hci]
    have hne : r ≠ n := by
      rintro rfl
      rcases hci with h0 | hc
      · exact g.1 h0
      · rw [g.not_ci hN] at hc; cases hc
    obtain ⟨s, hs, sv, sval⟩ := h.mapped r (by omega)
    rw [look_val (s := ⟨r, Bool.xor (N.phaseOf n) (N.phaseOf r)⟩) hs]
    refine ⟨_, rfl, ?_⟩
    refine ⟨h.linked, h.built, h.inputs, h.numPis, h.outputs, h.numPos, h.elen, Nat.le_succ_of_le h.small, by simpa using h.mlen, ?_,
      h.reps, h.sound⟩
    intro x hx
    simp only
    rw [hget]
    by_cases hnx : n = x
    · subst hnx
      refine ⟨_, if_pos rfl, sv, ?_⟩
      intro v w hv hw hxi
      have e1 := sval v w hv hw hxi
      have e2 := hR.same n r hr v hv
      rw [← e1] at e2
      simp only [Sig.val, Sig.xorb] at e2 ⊢
      revert e2
      cases v n <;> cases w s.index <;> cases s.compl <;> cases N.phaseOf n <;> cases N.phaseOf r <;> simp
    · rw [if_neg hnx]; exact h.mapped x (by omega)
  · obtain ⟨N', t, _, e, hder⟩ := deriveNode_gate hN hR g h hr hci
    obtain ⟨C', e1, e2⟩ := deriveLink_spec hN hi hR hder hr (by rw [hget, if_pos rfl])
    exact ⟨_, e.trans e1, e2⟩

theorem deriveNodes_spec {N : Aig} (hN : WF N) (hi : InputsFirst N) {repr : List Nat} (hR : ReprOk N repr) : ∀ (k n : Nat) (C : Choice) (m : SMap),
    N.inputs.length < n → n + k ≤ N.nodes.length → Der N C m n →
    ∃ st, deriveNodes N repr (List.range' n k) (C, m) = some st ∧ Der N st.1 st.2 (n + k)
  | 0, n, C, m, _, hk, h => ⟨(C, m), rfl, h⟩
  | k + 1, n, C, m, hn, hk, h => by
      have hl : n < N.nodes.length := by omega
      obtain ⟨st, e, h'⟩ := deriveNode_spec hN hi hR
        (hN.isGate_of (n := n) (by omega) (by rw [hi.mem]; omega) (List.getElem?_eq_getElem hl)) h
      obtain ⟨st', e', h''⟩ := deriveNodes_spec hN hi hR k (n + 1) st.1 st.2 (by omega) (by omega) h'
      refine ⟨st', ?_, by rw [show n + (k + 1) = n + 1 + k by omega]; exact h''⟩
      rw [List.range'_succ, deriveNodes, e]; exact e'

theorem inputs_lt_nodes {N : Aig} (hN : WF N) (hi : InputsFirst N) : N.inputs.length < N.nodes.length := by
  by_cases h0 : N.inputs.length = 0
  · rw [h0]; exact hN.pos
  · exact (hN.inputs_lt (n := N.inputs.length) (by rw [hi.mem]; omega)).2

theorem gates_range {N : Aig} (hN : WF N) (hi : InputsFirst N) :
    N.gates = List.range' (N.inputs.length + 1) (N.nodes.length - (N.inputs.length + 1)) := by
  have hk := inputs_lt_nodes hN hi
  have hs1 : N.gates.Pairwise (· < ·) := by
    unfold Aig.gates
    exact List.Pairwise.filter _ List.pairwise_lt_range
  have hs2 : (List.range' (N.inputs.length + 1) (N.nodes.length - (N.inputs.length + 1))).Pairwise (· < ·) := List.pairwise_lt_range'
  refine List.Perm.eq_of_pairwise (fun a b _ _ h1 h2 => by omega) hs1 hs2 ?_
  refine (List.perm_ext_iff_of_nodup (hs1.imp (fun h => by omega)) (hs2.imp (fun h => by omega))).2 fun n => ?_
  rw [hN.mem_gates, List.mem_range'_1]
  constructor
  · rintro ⟨a, b, g⟩
    have h1 := g.1
    have h2 := g.2.1
    have h3 := (hN.isGate_lt g).2.2.2
    rw [hi.mem] at h2
    omega
  · rintro ⟨h1, h2⟩
    have hl : n < N.nodes.length := by omega
    exact ⟨_, _, hN.isGate_of (n := n) (by omega) (by rw [hi.mem]; omega) (List.getElem?_eq_getElem hl)⟩

theorem start_der {N : Aig} (hN : WF N) (hi : InputsFirst N) : Der N (start N).1 (start N).2 (N.inputs.length + 1) := by
  have h := start_spec hN hi
  have hk := inputs_lt_nodes hN hi
  have hlink : Linked (start N).1 := by
    refine Linked.init (N := (start N).1.net) (size := N.nodes.length) h.built ?_
    rw [h.nodes]; omega
  refine ⟨hlink, h.built, h.inputs, h.numPis, h.outputs, h.numPos, by rw [h.equivs]; simp, by rw [h.nodes], h.mlen, ?_, ?_, ?_⟩
  · intro x hx
    refine ⟨_, h.low x (by omega), by unfold Aig.Valid; rw [h.nodes]; exact hx, ?_⟩
    intro v w hv hw hxi
    simp only [Sig.val, Bool.false_xor]
    by_cases h0 : x = 0
    · subst h0; rw [hv.const, hw.const]
    · exact (hxi x (hi.mem.2 ⟨by omega, by omega⟩)).symm
  · intro a b hab
    rw [h.reprs, List.getElem?_range] at hab
    · exact Or.inl (by simpa using hab.symm)
    · have := (List.getElem?_eq_some_iff.1 hab).1
      simpa using this
  · intro a b hab
    rw [h.equivs, List.getElem?_replicate] at hab
    split at hab <;> simp at hab

/-- what the network has to be before the outputs are added -/
structure OutInv (N : Aig) (C : Choice) (m : SMap) : Prop where
  linked : Linked C
  built : C.net.Built
  inputs : C.net.inputs = N.inputs
  numPis : C.net.numPis = N.inputs.length
  mapped : ∀ x : Nat, x < N.nodes.length → ∃ s, m[x]? = some (some s) ∧ C.net.Valid s ∧
    ∀ v w, N.Models v → C.net.Models w → (∀ i ∈ N.inputs, v i = w i) → s.val w = v x
  reps : Reps C
  sound : C.Sound
  elen : C.equivs.length = N.nodes.length

theorem deriveOutputs_spec {N : Aig} {m : SMap} : ∀ (l : List Sig) (C : Choice), OutInv N C m → (∀ o ∈ l, N.Valid o) →
    ∃ C' outs, deriveOutputs m l C = some C' ∧ OutInv N C' m ∧ C'.net.outputs = C.net.outputs ++ outs ∧
      C'.net.numPos = C.net.numPos + l.length ∧ (∀ w, C'.net.Models w → C.net.Models w) ∧
      List.Forall₂ (fun o s => ∀ v w, N.Models v → C'.net.Models w → (∀ i ∈ N.inputs, v i = w i) → Sig.val w s = Sig.val v o) l outs
  | [], C, h, _ => ⟨C, [], rfl, h, by simp, by simp, fun _ hw => hw, .nil⟩
  | o :: l, C, h, hv => by
      obtain ⟨s, hs, sv, sval⟩ := h.mapped o.index (hv o List.mem_cons_self)
      have hl := h.linked.inv.len
      have hlr := h.linked.inv.lenr
      obtain ⟨t, et, tv, _, tval⟩ := reprSig_spec (by omega) h.reps (s := s.xorb o.compl) sv
      have he := Aig.ext_createPo C.net t
      have hn : (C.net.createPo t).nodes.length = C.net.nodes.length := by simp [Aig.createPo, Aig.incFo]
      have h' : OutInv N { C with net := C.net.createPo t } m := by
        refine ⟨.grow h.linked (.po h.built tv) he (by rw [hn]; exact hl), .po h.built tv, h.inputs, h.numPis, ?_,
          reps_grow he h.reps, sound_grow h.linked.inv he h.sound, h.elen⟩
        intro x hx
        obtain ⟨s, h1, h2, h3⟩ := h.mapped x hx
        exact ⟨s, h1, he.valid h2, fun v w hv hw hxi => h3 v w hv (he.models hw) hxi⟩
      obtain ⟨C', outs, e, hO, h1, h2, h3, h4⟩ := deriveOutputs_spec l _ h' (fun o' ho' => hv o' (List.mem_cons_of_mem _ ho'))
      refine ⟨C', t :: outs, ?_, hO, ?_, ?_, fun w hw => he.models (h3 w hw), .cons ?_ h4⟩
      · rw [deriveOutputs, look_val hs]; dsimp only [Option.bind_some]; rw [et]; exact e
      · rw [h1]; simp [Aig.createPo]
      · rw [h2]; simp [Aig.createPo, Aig.incFo]; omega
      · intro v w hv hw hxi
        have hw' := he.models (h3 w hw)
        have e1 := sval v w hv hw' hxi
        rw [tval w hw']
        simp only [Sig.val, Sig.xorb] at e1 ⊢
        rw [← e1]
        cases w s.index <;> cases s.compl <;> cases o.compl <;> rfl

theorem deriveRaw_spec {N : Aig} (hN : WF N) (hi : InputsFirst N) {repr : List Nat} (hR : ReprOk N repr) :
    ∃ C, deriveRaw N repr = some C ∧ Linked C ∧ C.net.Built ∧ C.net.inputs = N.inputs ∧ C.net.numPis = N.inputs.length ∧
      C.net.numPos = N.outputs.length ∧ C.Sound ∧ C.equivs.length = N.nodes.length ∧
      List.Forall₂ (fun o s => ∀ v w, N.Models v → C.net.Models w → (∀ i ∈ N.inputs, v i = w i) → Sig.val w s = Sig.val v o) N.outputs C.net.outputs := by
  have hk := inputs_lt_nodes hN hi
  obtain ⟨st, e, h⟩ := deriveNodes_spec hN hi hR (N.nodes.length - (N.inputs.length + 1)) (N.inputs.length + 1) (start N).1 (start N).2
    (by omega) (by omega) (start_der hN hi)
  rw [show N.inputs.length + 1 + (N.nodes.length - (N.inputs.length + 1)) = N.nodes.length by omega] at h
  obtain ⟨C, outs, e2, h2, h3, h4, _, h5⟩ := deriveOutputs_spec (m := st.2) N.outputs st.1
    ⟨h.linked, h.built, h.inputs, h.numPis, h.mapped, h.reps, h.sound, h.elen⟩ hN.outputs
  rw [h.outputs, List.nil_append] at h3
  subst h3
  refine ⟨C, ?_, h2.linked, h2.built, h2.inputs, h2.numPis, by rw [h4, h.numPos]; omega, h2.sound, h2.elen, h5⟩
  rw [deriveRaw, gates_range hN hi]
  rw [show start N = ((start N).1, (start N).2) from rfl, e]
  exact e2

end Verif.Choice
