import Verif.Aig.CleanupProof
import Verif.Props.AigInv

set_option autoImplicit false

/-!
# C14: cleanup_dangling preserves the outputs
-/

namespace Verif.Aig

open Topo (Traversable Tfi FaninsFirst)
open RefDeref (aigKids)

theorem IsGate.not_ci {N : Aig} (h : WF N) {n a b} (g : N.IsGate n a b) : N.isCi n = false := by
  have := h.isGate_lt g
  obtain ⟨_, _, nd, hnd, _, rfl, rfl⟩ := g
  simp only [isCi, hnd, beq_eq_false_iff_ne, ne_eq]
  intro e; rw [e] at this; omega

theorem WF.isGate_of {N : Aig} (h : WF N) {n : Nat} {nd : Node} (h0 : n ≠ 0) (hi : n ∉ N.inputs)
    (hn : N.nodes[n]? = some nd) : N.IsGate n nd.c0 nd.c1 :=
  ⟨h0, hi, nd, hn, (h.gate n nd hn h0 hi).2.2.2, rfl, rfl⟩

theorem WF.ci_input {N : Aig} (h : WF N) {n : Nat} (h0 : n ≠ 0) (hc : N.isCi n = true) : n ∈ N.inputs := by
  by_contra hi
  unfold isCi at hc
  split at hc
  · rename_i nd hnd
    have := (h.isGate_of h0 hi hnd).not_ci h
    simp only [isCi, hnd] at this
    rw [this] at hc; cases hc
  · cases hc

theorem Tfi_lt {N : Aig} (h : WF N) {a b : Nat} (ht : Tfi (aigKids N) a b) (ha : a < N.nodes.length) :
    b < N.nodes.length := by
  induction ht with
  | refl => exact ha
  | @step n k m hk _ ih =>
    apply ih
    simp only [aigKids] at hk
    split at hk
    · simp at hk
    · rename_i hc
      simp only [not_or, Bool.not_eq_true] at hc
      split at hk
      · rename_i nd hnd
        have hi : n ∉ N.inputs := by
          intro hi
          obtain ⟨k, hk⟩ := List.getElem?_of_mem hi
          obtain ⟨_, nd', hnd', e1, e2, _⟩ := h.input k n hk
          have := hc.2; simp [isCi, hnd', e1, e2] at this
        have := h.isGate_lt (h.isGate_of hc.1 hi hnd)
        simp only [List.mem_cons, List.not_mem_nil, or_false] at hk
        rcases hk with rfl | rfl <;> omega
      · simp at hk

/-- Every constructed network can be read. -/
theorem Built.readable {N : Aig} (h : Built N) : Readable N id :=
  ⟨Topo.C15_built N h, fun _ h0 hc => h.wf.ci_input h0 hc, fun o ho _ ht => Tfi_lt h.wf ht (h.wf.outputs o ho)⟩

theorem Models.live {N : Aig} (h : WF N) {v} (hv : N.Models v) : LiveModels N v :=
  ⟨hv.const, fun _ _ n _ h0 hi _ hnd => hv.gate n _ _ (h.isGate_of h0 hi hnd)⟩

theorem cleanup_core (N : Aig) (hN : Source N) (hpi : N.numPis ≤ N.inputs.length) (f : Nat) (order : List Nat)
    (e1 : Topo.topoView N f = some order) :
    ∃ D m, cleanupDangling N f = some D ∧ Built D ∧ D.numPis = N.numPis ∧ D.inputs.length = N.numPis ∧
      D.numPos = (N.outputs.take N.numPos).length ∧ D.outputs = (N.outputs.take N.numPos).map (SigMap.img m) ∧
      ∀ x v v', LiveModels N v → (∀ k n, N.inputs[k]? = some n → v n = if k < N.numPis then x k else false) →
        D.Consistent x v' → D.outputs.map (·.val v') = (N.outputs.take N.numPos).map (·.val v) := by
  obtain ⟨h1, h2, h3, h4, h5, h6, _, h7, h8, h9, h10⟩ := cloneInputs_spec N.numPis Aig.empty .empty rfl
  have i0 : Aig.empty.inputs.length = 0 := rfl
  have i1 : Aig.empty.numPis = 0 := rfl
  have i2 : Aig.empty.outputs = [] := rfl
  have i3 : Aig.empty.numPos = 0 := rfl
  rw [i0] at h4 h10
  rw [i1] at h3
  rw [i2] at h5
  rw [i3] at h6
  obtain ⟨D, m, e, g, hval, hv⟩ := cleanupImpl_core (D0 := (cloneInputs N.numPis Aig.empty).1) hN h1.wf h2 hpi
    (fun s hs => (h9 s hs).1) e1
  obtain ⟨o1, o2, o3, o4, o5, _, o6, _⟩ := cloneOutputs_spec ((N.outputs.take N.numPos).map m.img) D (g.built h1)
    (fun s hs => by
      rw [List.mem_map] at hs
      obtain ⟨t, _, rfl⟩ := hs
      exact img_valid (hval _))
  refine ⟨cloneOutputs D ((N.outputs.take N.numPos).map m.img), m, ?_, o1, ?_, ?_, ?_, ?_, ?_⟩
  · simp only [cleanupDangling, e]
  · rw [o5, g.numPis, h3]; omega
  · rw [o4, g.inputs, h4]; omega
  · rw [o3, g.numPos, h6, List.length_map]; omega
  · rw [o2, g.outputs, h5, List.nil_append]
  · intro x v v' hl hin hc
    rw [o2, g.outputs, h5, List.nil_append, List.map_map]
    apply List.map_congr_left
    intro o ho
    refine hv v v' hl (o6.models hc.models) ?_ ?_ o (List.mem_of_mem_take ho)
    · intro k n s hk hs
      have hkl : k < N.numPis := by rw [← h2]; exact lt_of_getElem? hs
      rw [hin k n hk, if_pos hkl]
      have h11 := h10 k s hs
      rw [Nat.zero_add] at h11
      have h12 := hc.input k s.index (by rw [o4, g.inputs]; exact h11)
      have h13 := (h9 s (List.mem_of_getElem? hs)).2
      simp [Sig.val, h13, h12]
    · intro k n hk hle
      rw [hin k n hk, if_neg (by omega)]

theorem cleanup_main (N : Aig) (r : Nat → Nat) (hN : Readable N r) (hpi : N.numPis ≤ N.inputs.length) (f : Nat)
    (hf : ∀ o ∈ N.outputs, r o.index < f) :
    ∃ D m, cleanupDangling N f = some D ∧ Built D ∧ D.numPis = N.numPis ∧ D.inputs.length = N.numPis ∧
      D.numPos = (N.outputs.take N.numPos).length ∧ D.outputs = (N.outputs.take N.numPos).map (SigMap.img m) ∧
      ∀ x v v', LiveModels N v → (∀ k n, N.inputs[k]? = some n → v n = if k < N.numPis then x k else false) →
        D.Consistent x v' → D.outputs.map (·.val v') = (N.outputs.take N.numPos).map (·.val v) := by
  obtain ⟨order, _, e1, _⟩ := Topo.C15_topo N r hN.trav f hf
  exact cleanup_core N hN.source hpi f order e1

/-- C14 for any acyclic network without registers, in whatever index order and with dead nodes allowed
(this is the situation at the end of the optimisation passes): `cleanup_dangling` terminates and returns a
constructed network with the same numbers of inputs and outputs, and for every input assignment `x` the
outputs have the values they have in any valuation `v` of the source that respects the gates reachable
from the outputs. -/
theorem C14_function_partial (N : Aig) (r : Nat → Nat) (hN : Readable N r) (hpi : N.inputs.length = N.numPis)
    (hpo : N.outputs.length = N.numPos) (f : Nat) (hf : ∀ o ∈ N.outputs, r o.index < f) :
    ∃ D, cleanupDangling N f = some D ∧ Built D ∧ D.numPis = N.numPis ∧ D.inputs.length = N.inputs.length ∧
      D.numPos = N.numPos ∧ D.outputs.length = N.outputs.length ∧
      ∀ x v v', LiveModels N v → (∀ (k n : Nat), N.inputs[k]? = some n → v n = x k) → D.Consistent x v' →
        D.outputs.map (·.val v') = N.outputs.map (·.val v) := by
  obtain ⟨D, m, e, h1, h2, h3, h4, h5, h6⟩ := cleanup_main N r hN (by omega) f hf
  rw [List.take_of_length_le (by omega)] at h4 h5 h6
  refine ⟨D, e, h1, h2, by omega, by omega, by rw [h5, List.length_map], ?_⟩
  intro x v v' hv hin hc
  apply h6 x v v' hv _ hc
  intro k n hk
  rw [hin k n hk, if_pos]
  have := lt_of_getElem? hk; omega

/-- C14 for any network without registers on which `cleanup_dangling` comes back, cyclic in its unused part
or not: the result is a constructed network with the same numbers of inputs and outputs and the same output
values. -/
theorem C14_returns_partial (N : Aig) (hN : Source N) (hpi : N.inputs.length = N.numPis)
    (hpo : N.outputs.length = N.numPos) (f : Nat) (D : Aig) (e : cleanupDangling N f = some D) :
    Built D ∧ D.numPis = N.numPis ∧ D.inputs.length = N.inputs.length ∧
      D.numPos = N.numPos ∧ D.outputs.length = N.outputs.length ∧
      ∀ x v v', LiveModels N v → (∀ (k n : Nat), N.inputs[k]? = some n → v n = x k) → D.Consistent x v' →
        D.outputs.map (·.val v') = N.outputs.map (·.val v) := by
  obtain ⟨order, e1⟩ : ∃ order, Topo.topoView N f = some order := by
    cases ho : Topo.topoView N f with
    | some order => exact ⟨order, rfl⟩
    | none =>
      simp only [cleanupDangling, cleanupImpl, ho] at e
      split at e
      · simp at e
      · rename_i h
        split at h <;> simp_all
  obtain ⟨D', m, e', h1, h2, h3, h4, h5, h6⟩ := cleanup_core N hN (by omega) f order e1
  rw [e] at e'
  obtain rfl := Option.some.inj e'
  rw [List.take_of_length_le (by omega)] at h4 h5 h6
  refine ⟨h1, h2, by omega, by omega, by rw [h5, List.length_map], ?_⟩
  intro x v v' hv hin hc
  apply h6 x v v' hv _ hc
  intro k n hk
  rw [hin k n hk, if_pos]
  have := lt_of_getElem? hk; omega

/-- C14 for constructed networks without registers: every output computes the same function. -/
theorem C14_built_partial (N : Aig) (hN : Built N) (hpi : N.inputs.length = N.numPis)
    (hpo : N.outputs.length = N.numPos) (f : Nat) (hf : N.size ≤ f) :
    ∃ D, cleanupDangling N f = some D ∧ Built D ∧ D.numPis = N.numPis ∧ D.inputs.length = N.inputs.length ∧
      D.numPos = N.numPos ∧ D.outputs.length = N.outputs.length ∧
      ∀ x v v', N.Consistent x v → D.Consistent x v' →
        D.outputs.map (·.val v') = N.outputs.map (·.val v) := by
  obtain ⟨D, e, h1, h2, h3, h4, h5, h6⟩ := C14_function_partial N id hN.readable hpi hpo f (fun o ho => by
    have := hN.wf.outputs o ho; simp only [Valid, size, id] at *; omega)
  exact ⟨D, e, h1, h2, h3, h4, h5, fun x v v' hv hv' => h6 x v v' (hv.models.live hN.wf) hv.input hv'⟩

/-! ### no dangling gates -/

/-- `m` is in the transitive fanin cone of `n`, through gates of `N`. -/
inductive InCone (N : Aig) : Nat → Nat → Prop
  | refl (n) : InCone N n n
  | step {n a b k m} : N.IsGate n a b → (k = a.index ∨ k = b.index) → InCone N k m → InCone N n m

/-- the copy is an isomorphism -/
structure Iso (N D : Aig) (done : List Nat) (m : SigMap) : Prop where
  zero : m 0 = ⟨0, false⟩
  inj : ∀ a ∈ done, ∀ b ∈ done, (m a).index = (m b).index → a = b
  pos : ∀ a, (m a).compl = false
  gate : ∀ n ∈ done, ∀ a b, N.IsGate n a b → ∃ x y, D.IsGate (m n).index x y ∧
    ((x = m.img a ∧ y = m.img b) ∨ (x = m.img b ∧ y = m.img a))
  onto : ∀ g x y, D.IsGate g x y → ∃ n ∈ done, (∃ a b, N.IsGate n a b) ∧ g = (m n).index
  valid : ∀ n, D.Valid (m n)
  count : D.table.length = (done.filter fun n => n != 0 && !N.isCi n).length

theorem img_index (m : SigMap) (s : Sig) : (m.img s).index = (m s.index).index := by
  unfold SigMap.img; split <;> simp [Sig.not]

theorem img_compl (m : SigMap) (s : Sig) (h : (m s.index).compl = false) : (m.img s).compl = s.compl := by
  unfold SigMap.img
  cases hc : s.compl <;> simp [Sig.not, h]

theorem img_inj {N D : Aig} {done m} (h : Iso N D done m) {s t : Sig} (hs : s.index ∈ done) (ht : t.index ∈ done)
    (e : m.img s = m.img t) : s = t := by
  have e1 := congrArg Sig.index e
  rw [img_index, img_index] at e1
  have e2 := congrArg Sig.compl e
  rw [img_compl _ _ (h.pos _), img_compl _ _ (h.pos _)] at e2
  have := h.inj _ hs _ ht e1
  cases s; cases t; simp_all

theorem cloneNodes_iso {N : Aig} (hN : Built N) {order : List Nat} (hnd : order.Nodup)
    (hff : FaninsFirst (aigKids N) order) (hlt : ∀ n ∈ order, n < N.nodes.length) :
    ∀ (rest done : List Nat) (D : Aig) (m : SigMap), order = done ++ rest → WF D → (0 ∈ done) →
      (∀ n ∈ N.inputs, n ∈ done) → Iso N D done m → ∀ D' m', cloneNodes N rest D m = some (D', m') →
      Iso N D' order m' ∧ (∀ n ∈ done, m' n = m n) := by
  intro rest
  induction rest with
  | nil =>
    intro done D m e _ _ _ h D' m' hc
    simp only [cloneNodes, Option.some.injEq, Prod.mk.injEq] at hc
    obtain ⟨rfl, rfl⟩ := hc
    rw [e]; simpa using h
  | cons n rest ih =>
    intro done D m e hD h0 hci h D' m' hc
    have hndone : n ∉ done := by
      rw [e] at hnd
      intro hn
      exact (List.nodup_append.1 hnd).2.2 n hn n (by simp) rfl
    have hn0 : n ≠ 0 := by rintro rfl; exact hndone h0
    have hin : n ∉ N.inputs := fun hi => hndone (hci n hi)
    have hncI : N.isCi n = false := by
      cases hc : N.isCi n with
      | false => rfl
      | true => exact absurd (hN.wf.ci_input hn0 hc) hin
    obtain ⟨nd, hnode⟩ : ∃ nd, N.nodes[n]? = some nd :=
      ⟨_, List.getElem?_eq_getElem (hlt n (by rw [e]; simp))⟩
    have hg := hN.wf.isGate_of hn0 hin hnode
    have hglt := hN.wf.isGate_lt hg
    have hf := hff done n rest e
    rw [aigKids_gate hn0 hncI hnode] at hf
    have ha : nd.c0.index ∈ done := hf _ (by simp)
    have hb : nd.c1.index ∈ done := hf _ (by simp)
    rw [cloneNodes, cloneNode, if_neg (by simp [hn0, hncI]), hnode] at hc
    dsimp only at hc
    -- the call allocates a new gate
    have hia : (m.img nd.c0).index ≠ (m.img nd.c1).index := by
      rw [img_index, img_index]
      intro he
      have := h.inj _ ha _ hb he
      omega
    have hnz : ∀ s : Sig, s.index ∈ done → s.index ≠ 0 → (m.img s).index ≠ 0 := by
      intro s hs hs0 hz
      rw [img_index] at hz
      exact hs0 (h.inj _ hs _ h0 (by rw [hz, h.zero]))
    have hza := hnz nd.c0 ha (by omega)
    have hzb := hnz nd.c1 hb (by omega)
    -- no gate of D has these fanins
    have hno : ∀ g, ¬ D.IsGate g (m.img nd.c0) (m.img nd.c1) ∧ ¬ D.IsGate g (m.img nd.c1) (m.img nd.c0) := by
      have key : ∀ g x y, D.IsGate g x y → ¬ ((x = m.img nd.c0 ∧ y = m.img nd.c1) ∨ (x = m.img nd.c1 ∧ y = m.img nd.c0)) := by
        intro g x y hG hxy
        obtain ⟨k, hk, ⟨a, b, hab⟩, rfl⟩ := h.onto g x y hG
        obtain ⟨x', y', hG', hx'⟩ := h.gate k hk a b hab
        obtain ⟨_, _, _, q1, _, rfl, rfl⟩ := hG
        obtain ⟨_, _, _, q2, _, rfl, rfl⟩ := hG'
        rw [q1, Option.some.injEq] at q2
        subst q2
        obtain ⟨pre, post, hpp⟩ := List.append_of_mem hk
        have hkk := hff pre k (post ++ n :: rest) (by rw [e, hpp]; simp)
        have hklt := hN.wf.isGate_lt hab
        have hka : aigKids N k = [a.index, b.index] := by
          have hcik := hab.not_ci hN.wf
          obtain ⟨k0, _, ndk, hndk, _, rfl, rfl⟩ := hab
          exact aigKids_gate k0 hcik hndk
        rw [hka] at hkk
        have hda : a.index ∈ done := by rw [hpp]; have := hkk a.index (by simp); simp [this]
        have hdb : b.index ∈ done := by rw [hpp]; have := hkk b.index (by simp); simp [this]
        have hsame : a = nd.c0 ∧ b = nd.c1 := by
          have hi1 : ∀ {s t : Sig}, s.index ∈ done → t.index ∈ done → m.img s = m.img t → s = t :=
            fun hs ht he => img_inj h hs ht he
          rcases hx' with ⟨q1, q2⟩ | ⟨q1, q2⟩ <;> rcases hxy with ⟨q3, q4⟩ | ⟨q3, q4⟩
          · exact ⟨hi1 hda ha (by rw [← q1, ← q3]), hi1 hdb hb (by rw [← q2, ← q4])⟩
          · have z1 := hi1 hda hb (by rw [← q1, ← q3]); have z2 := hi1 hdb ha (by rw [← q2, ← q4])
            rw [z1, z2] at hklt; omega
          · have z1 := hi1 hda hb (by rw [← q2, ← q4]); have z2 := hi1 hdb ha (by rw [← q1, ← q3])
            rw [z1, z2] at hklt; omega
          · exact ⟨hi1 hda ha (by rw [← q2, ← q4]), hi1 hdb hb (by rw [← q1, ← q3])⟩
        rw [hsame.1, hsame.2] at hab
        exact hndone (hN.wf.uniq _ _ _ _ hab hg ▸ hk)
      exact fun g => ⟨fun hG => key g _ _ hG (Or.inl ⟨rfl, rfl⟩), fun hG => key g _ _ hG (Or.inr ⟨rfl, rfl⟩)⟩
    obtain ⟨c, d, hcd, h1, h2, h3, h4⟩ : ∃ c d, ((c = m.img nd.c0 ∧ d = m.img nd.c1) ∨ (c = m.img nd.c1 ∧ d = m.img nd.c0)) ∧
        c.index ≠ d.index ∧ c.index ≠ 0 ∧ c.index < d.index ∧
        D.createAnd (m.img nd.c0) (m.img nd.c1) = D.addAnd c d := by
      rw [createAnd_eq]
      rcases order_cases (m.img nd.c0) (m.img nd.c1) with ⟨eo, hle⟩ | ⟨eo, hle⟩
      · rw [eo]
        refine ⟨_, _, Or.inl ⟨rfl, rfl⟩, hia, hza, by omega, ?_⟩
        rw [createAndOrd, if_neg hia, if_neg hza]
        cases hh : D.hashFind (m.img nd.c0) (m.img nd.c1) with
        | none => rfl
        | some t => exact absurd (hD.hashFind_some hh) (hno t).1
      · rw [eo]
        refine ⟨_, _, Or.inr ⟨rfl, rfl⟩, Ne.symm hia, hzb, by omega, ?_⟩
        rw [createAndOrd, if_neg (Ne.symm hia), if_neg hzb]
        cases hh : D.hashFind (m.img nd.c1) (m.img nd.c0) with
        | none => rfl
        | some t => exact absurd (hD.hashFind_some hh) (hno t).2
    rw [h4] at hc
    have hs := createAnd_spec hD (a := m.img nd.c0) (b := m.img nd.c1) (img_valid (h.valid _)) (img_valid (h.valid _))
    rw [h4] at hs
    have hL : ∀ k, (m k).index < D.nodes.length := h.valid
    have himg : ∀ s : Sig, s.index ≠ n → (m.set n (D.addAnd c d).2).img s = m.img s := by
      intro s hsn; simp [SigMap.img, SigMap.set, hsn]
    obtain ⟨r1, r2⟩ := ih (done ++ [n]) _ _ (by simp [e]) hs.wf (by simp [h0]) (fun k hk => by simp [hci k hk])
      (by
        refine ⟨?_, ?_, ?_, ?_, ?_, ?_, ?_⟩
        · simp [SigMap.set, Ne.symm hn0, h.zero]
        · intro a ha' b hb' he
          rw [List.mem_append, List.mem_singleton] at ha' hb'
          simp only [SigMap.set] at he
          split at he <;> split at he <;> try simp only [addAnd_sig] at he
          · simp_all
          · have := hL b; omega
          · have := hL a; omega
          · exact h.inj a (by tauto) b (by tauto) he
        · intro a
          simp only [SigMap.set]; split
          · rfl
          · exact h.pos a
        · intro k hk a b hab
          have hkl := hN.wf.isGate_lt hab
          rw [List.mem_append, List.mem_singleton] at hk
          by_cases hkn : k = n
          · subst hkn
            obtain ⟨_, _, nd', hnd', _, rfl, rfl⟩ := hab
            rw [hnode, Option.some.injEq] at hnd'; subst hnd'
            rw [himg _ (by omega), himg _ (by omega)]
            refine ⟨c, d, ?_, hcd⟩
            rw [addAnd_isGate hD]
            exact Or.inr ⟨by simp [SigMap.set], rfl, rfl⟩
          · have hk' := hk.resolve_right hkn
            obtain ⟨x, y, hG, hxy⟩ := h.gate k hk' a b hab
            obtain ⟨pre, post, hpp⟩ := List.append_of_mem hk'
            have hkk := hff pre k (post ++ n :: rest) (by rw [e, hpp]; simp)
            have hka : aigKids N k = [a.index, b.index] := by
              have hcik := hab.not_ci hN.wf
              obtain ⟨k0, _, ndk, hndk, _, rfl, rfl⟩ := hab
              exact aigKids_gate k0 hcik hndk
            rw [hka] at hkk
            have hda : a.index ≠ n := by
              rintro e'; apply hndone; rw [hpp, ← e']; have := hkk a.index (by simp); simp [this]
            have hdb : b.index ≠ n := by
              rintro e'; apply hndone; rw [hpp, ← e']; have := hkk b.index (by simp); simp [this]
            rw [himg _ hda, himg _ hdb]
            refine ⟨x, y, ?_, hxy⟩
            rw [addAnd_isGate hD]
            left; simpa [SigMap.set, hkn] using hG
        · intro g x y hG
          rw [addAnd_isGate hD] at hG
          rcases hG with hG | ⟨rfl, _, _⟩
          · obtain ⟨k, hk, hk2, rfl⟩ := h.onto g x y hG
            refine ⟨k, by simp [hk], hk2, ?_⟩
            have : k ≠ n := by rintro rfl; exact hndone hk
            simp [SigMap.set, this]
          · exact ⟨n, by simp, ⟨_, _, hg⟩, by simp [SigMap.set]⟩
        · intro k
          simp only [SigMap.set]; split
          · exact hs.valid
          · exact hs.ext.valid (h.valid k)
        · rw [List.filter_append, List.length_append, ← h.count]
          simp [hn0, hncI, addAnd]) D' m' hc
    refine ⟨r1, fun k hk => ?_⟩
    rw [r2 k (by simp [hk])]
    have : k ≠ n := by rintro rfl; exact hndone hk
    simp [SigMap.set, this]

theorem cloneNodes_skip {N : Aig} : ∀ (pre rest : List Nat) (D : Aig) (m : SigMap),
    (∀ n ∈ pre, n = 0 ∨ N.isCi n = true) → cloneNodes N (pre ++ rest) D m = cloneNodes N rest D m := by
  intro pre
  induction pre with
  | nil => intros; rfl
  | cons n pre ih =>
    intro rest D m h
    rw [List.cons_append, cloneNodes, cloneNode, if_pos (h n (by simp))]
    exact ih rest D m fun k hk => h k (by simp [hk])

/-- The copy is isomorphic to the part of the source that is reachable from the outputs. -/
theorem cleanupImpl_iso (N : Aig) (hN : Built N) (hpi : N.inputs.length = N.numPis) (f : Nat) (hf : N.size ≤ f)
    (D : Aig) (m : SigMap)
    (hc : cleanupImpl N (cloneInputs N.numPis Aig.empty).1 (cloneInputs N.numPis Aig.empty).2 f = some (D, m)) :
    ∃ order : List Nat, order.Nodup ∧ Iso N D order m ∧ (∀ n ∈ order, n < N.nodes.length) ∧
      (∀ n, n ∈ order ↔ n = 0 ∨ n ∈ N.inputs ∨ ∃ o ∈ N.outputs, Tfi (aigKids N) o.index n) := by
  obtain ⟨h1, h2, h3, h4, h5, h6, ht, h7, h8, h9, h10⟩ := cloneInputs_spec N.numPis Aig.empty .empty rfl
  have i0 : Aig.empty.inputs.length = 0 := rfl
  have i1 : Aig.empty.table = [] := rfl
  rw [i0] at h10
  rw [i1] at ht
  have hR := hN.readable
  obtain ⟨order, rest, e1, e2, h11, h12, h13⟩ := Topo.C15_topo N id hR.trav f (fun o ho => by
    have := hN.wf.outputs o ho; simp only [Valid, size, id] at *; omega)
  obtain ⟨m0, e0, g1, g2⟩ := mapLeaves_spec (N.inputs.take N.numPis) (cloneInputs N.numPis Aig.empty).2
    (fun _ => ⟨0, false⟩) (hR.trav.inputsNodup.sublist (List.take_sublist _ _)) (by simp [h2, hpi])
  rw [cleanupImpl, e0, e1] at hc
  dsimp only at hc
  rw [List.take_of_length_le (by omega)] at g1 g2
  rw [e2, cloneNodes_skip _ _ _ _ (by
    intro n hn
    rcases List.mem_cons.1 hn with h | h
    · exact Or.inl h
    · exact Or.inr (hR.trav.inputs n h).2)] at hc
  have hlt : ∀ n ∈ order, n < N.nodes.length := by
    intro n hn
    rcases (h13 n).1 hn with rfl | h | ⟨o, ho, ht⟩
    · exact hN.wf.pos
    · exact (hN.wf.inputs_lt h).2
    · exact hR.valid o ho n ht
  have h0i : 0 ∉ N.inputs := fun h => (hR.trav.inputs 0 h).1 rfl
  -- images of the inputs
  have himg : ∀ n ∈ N.inputs, ∃ k : Nat, N.inputs[k]? = some n ∧ (cloneInputs N.numPis Aig.empty).1.inputs[k]? = some (m0 n).index ∧
      m0 n ∈ (cloneInputs N.numPis Aig.empty).2 := by
    intro n hn
    obtain ⟨k, hk⟩ := List.getElem?_of_mem hn
    obtain ⟨s, hs⟩ : ∃ s, (cloneInputs N.numPis Aig.empty).2[k]? = some s :=
      ⟨_, List.getElem?_eq_getElem (by rw [h2]; have := lt_of_getElem? hk; omega)⟩
    have := g2 k n s hk hs
    subst this
    exact ⟨k, hk, by simpa using h10 k _ hs, List.mem_of_getElem? hs⟩
  have hz : m0 0 = ⟨0, false⟩ := g1 0 h0i
  have hnog : ∀ g x y, ¬ (cloneInputs N.numPis Aig.empty).1.IsGate g x y := by
    intro g x y hG
    have : g ∈ (cloneInputs N.numPis Aig.empty).1.table := (h1.wf.table g).2 ⟨hG.1, hG.2.1, (h1.wf.isGate_lt hG).2.2.2⟩
    rw [ht] at this; cases this
  obtain ⟨r1, _⟩ := cloneNodes_iso hN h11 h12 hlt rest (0 :: N.inputs) _ m0 e2 h1.wf (by simp)
    (fun n hn => by simp [hn]) (by
      refine ⟨hz, ?_, ?_, ?_, ?_, ?_, ?_⟩
      · intro a ha b hb he
        rcases List.mem_cons.1 ha with rfl | ha <;> rcases List.mem_cons.1 hb with rfl | hb
        · rfl
        · obtain ⟨k, _, hk, _⟩ := himg b hb
          have := (h1.wf.inputs_lt (List.mem_of_getElem? hk)).1
          rw [hz] at he; simp at he; omega
        · obtain ⟨k, _, hk, _⟩ := himg a ha
          have := (h1.wf.inputs_lt (List.mem_of_getElem? hk)).1
          rw [hz] at he; simp at he; omega
        · obtain ⟨k, hk1, hk, _⟩ := himg a ha
          obtain ⟨j, hj1, hj, _⟩ := himg b hb
          rw [← he] at hj
          have hkj : k = j := (List.getElem?_inj (lt_of_getElem? hk) h1.wf.inputsNodup).1 (hk.trans hj.symm)
          subst hkj
          rw [hk1, Option.some.injEq] at hj1; exact hj1
      · intro a
        by_cases ha : a ∈ N.inputs
        · obtain ⟨_, _, _, h⟩ := himg a ha; exact (h9 _ h).2
        · rw [g1 a ha]
      · intro n hn a b hab
        rcases List.mem_cons.1 hn with rfl | hn
        · exact absurd rfl hab.1
        · exact absurd hn hab.2.1
      · intro g x y hG; exact absurd hG (hnog g x y)
      · intro a
        by_cases ha : a ∈ N.inputs
        · obtain ⟨_, _, _, h⟩ := himg a ha; exact (h9 _ h).1
        · rw [g1 a ha]; exact h1.wf.pos
      · rw [ht, List.filter_eq_nil_iff.2]
        intro n hn
        rcases List.mem_cons.1 hn with rfl | hn
        · simp
        · simp [(hR.trav.inputs n hn).2]) D m hc
  exact ⟨order, h11, r1, hlt, h13⟩

/-- C14, second half, for constructed networks without registers: the result has no gate outside the
transitive fanin of the outputs and is never larger than the source. -/
theorem C14_no_dangling_partial (N : Aig) (hN : Built N) (hpi : N.inputs.length = N.numPis)
    (hpo : N.outputs.length = N.numPos) (f : Nat) (hf : N.size ≤ f) (D : Aig) (hD : cleanupDangling N f = some D) :
    (∀ g x y, D.IsGate g x y → ∃ o ∈ D.outputs, InCone D o.index g) ∧ D.numGates ≤ N.numGates ∧ D.size ≤ N.size := by
  rw [cleanupDangling] at hD
  split at hD
  · cases hD
  rename_i D1 m hc
  cases hD
  have hf' : ∀ o ∈ N.outputs, id o.index < f := fun o ho => by
    have := hN.wf.outputs o ho; simp only [Valid, size, id] at *; omega
  obtain ⟨order, h1, h2, h3, h4⟩ := cleanupImpl_iso N hN hpi f hf D1 m hc
  obtain ⟨c1, c2, c3, c4, c5, c6, ct, c7, c8, c9, c10⟩ := cloneInputs_spec N.numPis Aig.empty .empty rfl
  obtain ⟨D2, m2, ec, gr, hval, _⟩ := cleanupImpl_spec (D0 := (cloneInputs N.numPis Aig.empty).1) hN.readable c1.wf c2
    (by omega) (fun s hs => (c9 s hs).1) hf'
  rw [hc] at ec; cases ec
  rw [List.take_of_length_le (by omega)]
  obtain ⟨o1, o2, o3, o4, o5, o6, o7, o8⟩ := cloneOutputs_spec (N.outputs.map m.img) D1 (gr.built c1)
    (fun s hs => by
      rw [List.mem_map] at hs
      obtain ⟨t, _, rfl⟩ := hs
      exact img_valid (hval _))
  have hout : (cloneOutputs D1 (N.outputs.map m.img)).outputs = N.outputs.map m.img := by
    rw [o2, gr.outputs, c5]; rfl
  -- cones are preserved
  have hcone : ∀ a b, Tfi (aigKids N) a b → a ∈ order →
      InCone (cloneOutputs D1 (N.outputs.map m.img)) (m a).index (m b).index := by
    intro a b hab
    induction hab with
    | refl n => intro _; exact .refl _
    | @step n k l hk hkl ih =>
      intro hn
      have hgate : ∃ a b, N.IsGate n a b ∧ (k = a.index ∨ k = b.index) := by
        simp only [aigKids] at hk
        split at hk
        · simp at hk
        · rename_i hcn
          simp only [not_or, Bool.not_eq_true] at hcn
          split at hk
          · rename_i nd hnd
            have hi : n ∉ N.inputs := fun hi => by
              have := (hN.readable.trav.inputs n hi).2; rw [hcn.2] at this; cases this
            exact ⟨_, _, hN.wf.isGate_of hcn.1 hi hnd, by simpa using hk⟩
          · simp at hk
      obtain ⟨a, b, hab, hkab⟩ := hgate
      have hko : k ∈ order := by
        rcases (h4 n).1 hn with rfl | hi | ⟨o, ho, hot⟩
        · exact absurd rfl hab.1
        · exact absurd hi hab.2.1
        · exact (h4 k).2 (Or.inr (Or.inr ⟨o, ho, hot.trans (.step hk (.refl _))⟩))
      obtain ⟨x, y, hG, hxy⟩ := h2.gate n hn a b hab
      refine InCone.step ((o8 _ _ _).2 hG) ?_ (ih hko)
      rcases hxy with ⟨rfl, rfl⟩ | ⟨rfl, rfl⟩ <;> rw [img_index, img_index] <;> rcases hkab with rfl | rfl <;> simp
  have hsize : (cloneOutputs D1 (N.outputs.map m.img)).table.length ≤ N.table.length := by
    rw [o6, h2.count]
    have : (order.filter fun n => n != 0 && !N.isCi n) ⊆ N.table := by
      intro n hn
      rw [List.mem_filter] at hn
      rw [hN.wf.table]
      simp only [Bool.and_eq_true, bne_iff_ne, ne_eq, Bool.not_eq_true'] at hn
      refine ⟨hn.2.1, fun hi => ?_, h3 n hn.1⟩
      have := (hN.readable.trav.inputs n hi).2; rw [hn.2.2] at this; cases this
    exact ((h1.filter _).subperm this).length_le
  refine ⟨?_, hsize, ?_⟩
  · intro g x y hG
    rw [o8] at hG
    obtain ⟨n, hn, ⟨a, b, hab⟩, rfl⟩ := h2.onto g x y hG
    rcases (h4 n).1 hn with rfl | hi | ⟨o, ho, hot⟩
    · exact absurd rfl hab.1
    · exact absurd hi hab.2.1
    · refine ⟨m.img o, by rw [hout]; exact List.mem_map_of_mem ho, ?_⟩
      rw [img_index]
      exact hcone _ _ hot ((h4 _).2 (Or.inr (Or.inr ⟨o, ho, .refl _⟩)))
  · have q1 := (C08_sizes _ o1).2
    have q2 := (C08_sizes _ hN).2
    have i0 : Aig.empty.inputs.length = 0 := rfl
    rw [o4, gr.inputs, c4, i0] at q1
    simp only [numGates] at q1 q2
    omega

/-! ### a network with a dangling gate -/

/-- inputs 1, 2; gate 3 = 1 ∧ 2 is dangling, gate 4 = ¬1 ∧ 2 drives the only output, complemented. -/
def dangling : Aig :=
  let N := (Aig.empty.createPi.1.createPi).1
  let N := (N.createAnd ⟨1, false⟩ ⟨2, false⟩).1
  let N := (N.createAnd ⟨1, true⟩ ⟨2, false⟩).1
  N.createPo ⟨4, true⟩

theorem dangling_built : Built dangling := by
  refine Built.po (Built.and (Built.and (Built.pi (Built.pi .empty)) ?_ ?_) ?_ ?_) ?_ <;> decide

example : ∃ D, cleanupDangling dangling 9 = some D ∧ Built D ∧ D.numPis = 2 ∧ D.outputs.length = 1 ∧
    D.numGates ≤ dangling.numGates := by
  obtain ⟨D, e, h1, h2, _, _, h3, _⟩ := C14_built_partial dangling dangling_built (by decide) (by decide) 9 (by decide)
  exact ⟨D, e, h1, h2, h3, (C14_no_dangling_partial dangling dangling_built (by decide) (by decide) 9 (by decide) D e).2.1⟩

example : (cleanupDangling dangling 9).map (fun D => (D.numGates, D.size, D.outputs)) =
    some (1, 4, [⟨3, true⟩]) := by decide

/-- The claim is not limited to networks in index order: `Readable` only needs some order. -/
example : Readable dangling id := dangling_built.readable

/-! ### registers -/

/-- input 1, register output 2, gate 3 = 1 ∧ 2 drives the output and gate 4 = ¬1 ∧ 2 the register. -/
def sequential : Aig :=
  let N := (Aig.empty.createPi.1.createRo).1
  let N := (N.createAnd ⟨1, false⟩ ⟨2, false⟩).1
  let N := (N.createAnd ⟨1, true⟩ ⟨2, false⟩).1
  (N.createPo ⟨3, false⟩).createRi ⟨4, false⟩ (-1)

/-- C14 does not hold with registers: there is a constructed network with one register whose output,
which depends on the register, is constant 0 after `cleanup_dangling`, and the register is gone. -/
theorem C14_violated_registers : ∃ N D, Built N ∧ cleanupDangling N N.size = some D ∧
    D.inputs.length < N.inputs.length ∧ D.outputs.length < N.outputs.length ∧
    ∃ x v v', N.Consistent x v ∧ D.Consistent x v' ∧
      (N.outputs[0]?).map (·.val v) = some true ∧ (D.outputs[0]?).map (·.val v') = some false := by
  have hB : Built sequential := by
    refine Built.ri (Built.po (Built.and (Built.and (Built.ro (Built.pi .empty)) ?_ ?_) ?_ ?_) ?_) ?_ <;> decide
  refine ⟨sequential, (Aig.empty.createPi.1).createPo ⟨0, false⟩, hB, by decide, by decide, by decide,
    fun _ => true, _, _, hB.wf.consistent_value _, (Built.wf (.po (.pi .empty) (by decide))).consistent_value _, ?_, ?_⟩
  · have hc := hB.wf.consistent_value (fun _ => true)
    have h1 := hc.input 0 1 (by decide)
    have h2 := hc.input 1 2 (by decide)
    have h3 := hc.models.gate 3 ⟨1, false⟩ ⟨2, false⟩ ⟨by decide, by decide, _, by rfl, rfl, rfl, rfl⟩
    simp only [show sequential.outputs[0]? = some ⟨3, false⟩ by decide, Option.map_some, Sig.val, Bool.false_xor] at *
    rw [h3, h1, h2]; rfl
  · have hc := (Built.wf (.po (.pi .empty) (f := ⟨0, false⟩) (by decide))).consistent_value (fun _ => true)
    simp only [show ((Aig.empty.createPi.1).createPo ⟨0, false⟩).outputs[0]? = some ⟨0, false⟩ by decide,
      Option.map_some, Sig.val, Bool.false_xor]
    rw [hc.models.const]

end Verif.Aig
