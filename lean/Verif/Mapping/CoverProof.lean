import Verif.Mapping.ChoiceProof

set_option autoImplicit false

/-!
# The cover derived by the LUT mapper (helper lemmas)
-/

namespace Verif.Mapper
open Cuts
open RefDeref (aigKids)
open Topo (Tfi FaninsFirst)

variable {β : Type}

/-! ### order -/

/-- the position of an input in the list of inputs is smaller than its index -/
theorem input_pos {N : Aig} (hN : N.Built) : ∀ (k n : Nat), N.inputs[k]? = some n → k < n := by
  have hlen : ∀ {N : Aig}, N.Built → N.inputs.length < N.nodes.length := by
    intro N hN
    have hnd : (0 :: N.inputs).Nodup := by
      refine List.nodup_cons.2 ⟨fun h => ?_, hN.wf.inputsNodup⟩
      obtain ⟨k, hk⟩ := List.mem_iff_getElem?.1 h
      exact absurd (hN.wf.input k 0 hk).1 (by omega)
    have hsub : (0 :: N.inputs) ⊆ List.range N.nodes.length := by
      intro x hx
      rw [List.mem_range]
      rcases List.mem_cons.1 hx with rfl | hx
      · exact hN.wf.pos
      · obtain ⟨k, hk⟩ := List.mem_iff_getElem?.1 hx
        obtain ⟨_, nd, hnd, _⟩ := hN.wf.input k x hk
        exact Aig.lt_of_getElem? hnd
    have := (List.subperm_of_subset hnd hsub).length_le
    simp at this
    omega
  have happ : ∀ {N : Aig}, N.Built → (∀ (k n : Nat), N.inputs[k]? = some n → k < n) →
      ∀ (k n : Nat), (N.inputs ++ [N.nodes.length])[k]? = some n → k < n := by
    intro N hb ih k n h
    rw [List.getElem?_append] at h
    split at h
    · exact ih k n h
    · have hl := hlen hb
      rw [List.getElem?_singleton] at h
      split at h
      · have := Option.some.inj h; omega
      · simp at h
  induction hN with
  | empty => intro k n h; simp [Aig.empty] at h
  | pi hb ih => exact happ hb ih
  | ro hb ih => exact happ hb ih
  | po hb _ ih => exact ih
  | ri hb _ ih => exact ih
  | @and N a b hb ha hb' ih =>
    have : (N.createAnd a b).1.inputs = N.inputs := (Aig.createAnd_spec hb.wf ha hb').inputs
    rw [this]; exact ih

/-- no choices -/
def NoChoice (C : Choice) : Prop := C.equivs = List.replicate C.net.nodes.length none

theorem NoChoice.get {C : Choice} (h : NoChoice C) {n : Nat} (hn : n < C.net.nodes.length) : C.equivs[n]? = some none := by
  rw [h, List.getElem?_replicate, if_pos hn]

theorem kids_lt {N : Aig} (hN : N.Built) {n : Nat} {nd : Node} (h0 : n ≠ 0) (hnd : N.nodes[n]? = some nd) :
    nd.c0.index < n ∧ nd.c1.index < n := by
  by_cases hin : n ∈ N.inputs
  · obtain ⟨k, hk⟩ := List.mem_iff_getElem?.1 hin
    obtain ⟨_, nd', hnd', e0, e1, _⟩ := hN.wf.input k n hk
    rw [hnd] at hnd'
    obtain rfl := Option.some.inj hnd'
    have := input_pos hN k n hk
    rw [e0, e1]
    simp only [Sig.ofData]
    omega
  · have := hN.wf.gate n nd hnd h0 hin
    omega

theorem NoChoice.ordered {C : Choice} (h : NoChoice C) : C.Ordered := by
  refine ⟨by rw [h]; simp, fun n m e => ?_⟩
  rw [h] at e
  exact absurd (List.mem_replicate.1 (List.mem_of_getElem? e)).2 (by simp)

theorem NoChoice.sound {C : Choice} (h : NoChoice C) : C.Sound := by
  intro n m e
  rw [h] at e
  exact absurd (List.mem_replicate.1 (List.mem_of_getElem? e)).2 (by simp)

theorem NoChoice.deps {C : Choice} (h : NoChoice C) (n : Nat) : C.deps n = aigKids C.net n := by
  rw [Choice.deps]
  split
  · rename_i m e
    have := h.ordered.lt n m e
    rw [h] at e
    exact absurd (List.mem_replicate.1 (List.mem_of_getElem? e)).2 (by simp)
  · simp

/-- state of the search with the nodes on the stack `S` -/
structure DfsInv (C : Choice) (S : List Nat) (s : TopoSt) : Prop where
  vis : ∀ m, s.vis m = true ↔ m = 0 ∨ m ∈ s.order ∨ m ∈ S
  first : FaninsFirst C.deps s.order
  lt : ∀ m ∈ s.order, m < C.net.nodes.length
  nodup : s.order.Nodup
  stack : ∀ m ∈ S, m ∉ s.order

theorem dfs_spec {C : Choice} (hN : C.net.Built) (hO : C.Ordered) : ∀ (f n : Nat) (S : List Nat) (s : TopoSt), n < f →
    n < C.net.nodes.length → (∀ x ∈ S, n < x) → DfsInv C S s →
    ∃ s', dfs C f n s = some s' ∧ DfsInv C S s' ∧ (∀ m ∈ s.order, m ∈ s'.order) ∧ (n = 0 ∨ n ∈ s'.order) ∧
      ∀ m ∈ s'.order, m ∈ s.order ∨ m ≤ n := by
  intro f
  induction f with
  | zero => intro n S s h; omega
  | succ f ih =>
    intro n S s hf hn hS h
    rw [dfs]
    by_cases hv : s.vis n = true
    · rw [if_pos hv]
      refine ⟨s, rfl, h, fun _ h => h, ?_, fun _ h => Or.inl h⟩
      rcases (h.vis n).1 hv with h | h | h
      · exact Or.inl h
      · exact Or.inr h
      · have := hS n h; omega
    · rw [if_neg hv]
      obtain ⟨nd, hnd⟩ : ∃ nd, C.net.nodes[n]? = some nd := ⟨_, List.getElem?_eq_getElem hn⟩
      obtain ⟨e, he⟩ : ∃ e, C.equivs[n]? = some e := ⟨_, List.getElem?_eq_getElem (Nat.lt_of_lt_of_le hn hO.len)⟩
      rw [he, hnd]
      dsimp only
      have h0 : n ≠ 0 := fun e => hv ((h.vis n).2 (Or.inl e))
      have hk := kids_lt hN h0 hnd
      suffices key : ∀ s0, DfsInv C S s0 → (∀ m ∈ s.order, m ∈ s0.order) → (∀ m, e = some m → m ∈ s0.order) →
          (∀ m ∈ s0.order, m ∈ s.order ∨ m < n) →
          ∃ s', (match dfs C f nd.c0.index (s0.mark n) with
            | none => none
            | some s =>
              match dfs C f nd.c1.index s with
              | none => none
              | some s => some { s with order := s.order ++ [n] }) = some s' ∧ DfsInv C S s' ∧
            (∀ m ∈ s.order, m ∈ s'.order) ∧ (n = 0 ∨ n ∈ s'.order) ∧ ∀ m ∈ s'.order, m ∈ s.order ∨ m ≤ n by
        cases e with
        | none => exact key s h (fun _ h => h) (by simp) (fun _ h => Or.inl h)
        | some m =>
          have hm := hO.lt n m he
          obtain ⟨s1, e1, i1, p1, q1, t1⟩ := ih m S s (by omega) (by omega) (fun x hx => by have := hS x hx; omega) h
          dsimp only
          rw [e1]
          refine key s1 i1 p1 (fun k hk => ?_) (fun k hk => (t1 k hk).imp id fun h => by omega)
          obtain rfl := Option.some.inj hk
          exact q1.resolve_left (by omega)
      intro s0 i0 p0 q0 t0
      have hn0 : n ∉ s0.order := fun hx => by
        rcases t0 n hx with hx | hx
        · exact hv ((h.vis n).2 (Or.inr (Or.inl hx)))
        · omega
      have hm : DfsInv C (n :: S) (s0.mark n) := by
        refine ⟨fun m => ?_, i0.first, i0.lt, i0.nodup, fun m hm => ?_⟩
        rotate_left
        · rcases List.mem_cons.1 hm with rfl | hm
          · exact hn0
          · exact i0.stack m hm
        simp only [TopoSt.mark, List.mem_cons]
        by_cases e : m = n
        · simp [e]
        · simp [e, i0.vis]
      obtain ⟨s1, e1, i1, p1, q1, t1⟩ := ih nd.c0.index (n :: S) (s0.mark n) (by omega) (by omega) (by
        intro x hx
        rcases List.mem_cons.1 hx with rfl | hx
        · exact hk.1
        · have := hS x hx; omega) hm
      rw [e1]
      dsimp only
      obtain ⟨s2, e2, i2, p2, q2, t2⟩ := ih nd.c1.index (n :: S) s1 (by omega) (by omega) (by
        intro x hx
        rcases List.mem_cons.1 hx with rfl | hx
        · exact hk.2
        · have := hS x hx; omega) i1
      rw [e2]
      refine ⟨_, rfl, ⟨fun m => ?_, ?_, ?_, ?_, ?_⟩, ?_, Or.inr (by simp), ?_⟩
      · rw [i2.vis m]
        simp only [List.mem_cons, List.mem_append, List.not_mem_nil, or_false]
        tauto
      · refine i2.first.snoc ?_
        intro m hm
        rw [Choice.deps, List.mem_append, he] at hm
        rcases hm with hm | hm
        · by_cases hci : C.net.isCi n = true
          · simp [aigKids, hci] at hm
          · have hci' : C.net.isCi n = false := by simpa using hci
            have hin : n ∉ C.net.inputs := by
              intro hin
              obtain ⟨k, hk'⟩ := List.mem_iff_getElem?.1 hin
              obtain ⟨_, nd', hnd', e0, e1, _⟩ := hN.wf.input k n hk'
              simp [Aig.isCi, hnd', e0, e1] at hci'
            have hg := hN.wf.gate n nd hnd h0 hin
            rw [Aig.aigKids_gate h0 hci' hnd] at hm
            simp only [List.mem_cons, List.not_mem_nil, or_false] at hm
            rcases hm with rfl | rfl
            · rcases q1 with q1 | q1
              · omega
              · exact p2 _ q1
            · rcases q2 with q2 | q2
              · omega
              · exact q2
        · cases e with
          | none => simp at hm
          | some k =>
            rw [List.mem_singleton] at hm
            subst hm
            exact p2 _ (p1 _ (q0 m rfl))
      · intro m hm
        rcases List.mem_append.1 hm with hm | hm
        · exact i2.lt m hm
        · rw [List.mem_singleton.1 hm]; exact hn
      · refine List.nodup_append.2 ⟨i2.nodup, by simp, fun x hx y hy => ?_⟩
        rw [List.mem_singleton.1 hy]
        rintro rfl
        exact i2.stack x (by simp) hx
      · intro m hm hmo
        rcases List.mem_append.1 hmo with hmo | hmo
        · exact i2.stack m (by simp [hm]) hmo
        · have := hS m hm
          rw [List.mem_singleton.1 hmo] at this; omega
      · intro m hm
        exact List.mem_append_left _ (p2 m (p1 m (p0 m hm)))
      · intro m hm
        rcases List.mem_append.1 hm with hm | hm
        · rcases t2 m hm with hm | hm
          · rcases t1 m hm with hm | hm
            · exact (t0 m hm).imp id fun h => by omega
            · exact Or.inr (by omega)
          · exact Or.inr (by omega)
        · rw [List.mem_singleton.1 hm]; exact Or.inr (by omega)

theorem topologize_inv {C : Choice} (hN : C.net.Built) (hO : C.Ordered) :
    ∃ order, topologize C = some order ∧ FaninsFirst (C.deps) order ∧ (∀ m ∈ order, m < C.net.nodes.length) ∧
      (∀ o ∈ C.net.outputs, o.index = 0 ∨ o.index ∈ order) ∧ order.Nodup := by
  have hall : ∀ (l : List Sig) (s : TopoSt), (∀ o ∈ l, o.index < C.net.nodes.length) → DfsInv C [] s →
      ∃ s', dfsAll C (C.net.nodes.length + 1) l s = some s' ∧ DfsInv C [] s' ∧ (∀ m ∈ s.order, m ∈ s'.order) ∧
        ∀ o ∈ l, o.index = 0 ∨ o.index ∈ s'.order := by
    intro l
    induction l with
    | nil => intro s _ h; exact ⟨s, rfl, h, fun _ h => h, by simp⟩
    | cons o l ih =>
      intro s hl h
      have ho := hl o (by simp)
      obtain ⟨s1, e1, i1, p1, q1, _⟩ := dfs_spec hN hO (C.net.nodes.length + 1) o.index [] s (by omega) ho (by simp) h
      obtain ⟨s2, e2, i2, p2, q2⟩ := ih s1 (fun x hx => hl x (by simp [hx])) i1
      refine ⟨s2, by rw [dfsAll, e1]; exact e2, i2, fun m hm => p2 m (p1 m hm), ?_⟩
      intro x hx
      rcases List.mem_cons.1 hx with rfl | hx
      · rcases q1 with q1 | q1
        · exact Or.inl q1
        · exact Or.inr (p2 _ q1)
      · exact q2 x hx
  obtain ⟨s, e, i, _, q⟩ := hall C.net.outputs (TopoSt.mark ⟨fun _ => false, []⟩ 0) (fun o ho => hN.wf.outputs o ho)
    ⟨fun m => by simp [TopoSt.mark], fun l1 n l2 e => by simp [TopoSt.mark] at e, by simp [TopoSt.mark],
      by simp [TopoSt.mark], by simp⟩
  exact ⟨s.order, by rw [topologize, e]; rfl, i.first, i.lt, q, i.nodup⟩

theorem topologize_spec {C : Choice} (hN : C.net.Built) (hO : C.Ordered) :
    ∃ order, topologize C = some order ∧ FaninsFirst (C.deps) order ∧ (∀ m ∈ order, m < C.net.nodes.length) ∧
      ∀ o ∈ C.net.outputs, o.index = 0 ∨ o.index ∈ order := by
  obtain ⟨order, h1, h2, h3, h4, _⟩ := topologize_inv hN hO
  exact ⟨order, h1, h2, h3, h4⟩

/-! ### rounds -/

theorem gate_of {N : Aig} (hN : N.Built) {n : Nat} (hn : n < N.nodes.length) (h0 : n ≠ 0) (hci : N.isCi n = false) :
    ∃ nd, N.nodes[n]? = some nd ∧ N.IsGate n nd.c0 nd.c1 := by
  obtain ⟨nd, hnd⟩ : ∃ nd, N.nodes[n]? = some nd := ⟨_, List.getElem?_eq_getElem hn⟩
  refine ⟨nd, hnd, hN.wf.isGate_of h0 ?_ hnd⟩
  intro hin
  obtain ⟨k, hk'⟩ := List.mem_iff_getElem?.1 hin
  obtain ⟨_, nd', hnd', e0, e1, _⟩ := hN.wf.input k n hk'
  simp [Aig.isCi, hnd', e0, e1] at hci

/-- a node's strict fanin cone precedes it -/
theorem _root_.Verif.Topo.FaninsFirst.before {kids : Nat → List Nat} {order pre post : List Nat} {n l : Nat} (h : FaninsFirst kids order)
    (e : order = pre ++ n :: post) (ht : Tfi kids n l) (hne : l ≠ n) : l ∈ pre := by
  have hpre : FaninsFirst kids pre := by
    intro l1 k l2 e' m hm
    exact h l1 k (l2 ++ n :: post) (by rw [e, e']; simp) m hm
  cases ht with
  | refl => exact absurd rfl hne
  | step hk ht => exact hpre.mem (h pre n post e _ hk) ht

theorem mapRound_spec {p : CutPs} (hp : PsOk p) {C : Choice} (hN : C.net.Built) (hO : C.Ordered) (hS : C.Sound) (H : Nat → Heur β) (first : Bool) :
    ∀ (l pre : List Nat) (st st' : MapSt β), FaninsFirst (C.deps) (pre ++ l) → (∀ m ∈ l, m < C.net.nodes.length) →
    StInv p C st → (∀ m ∈ pre, Done p C st m) → (∀ m, m = 0 ∨ m ∈ C.net.inputs → Done p C st m) →
    (first = true ∨ ∀ m ∈ l, Done p C st m) → mapRound p C H first l st = some st' →
    StInv p C st' ∧ (∀ m ∈ l, Done p C st' m) ∧ ∀ m, Done p C st m → Done p C st' m := by
  intro l
  induction l with
  | nil =>
    intro pre st st' _ _ hi _ _ _ e
    obtain rfl := Option.some.inj e
    exact ⟨hi, by simp, fun _ h => h⟩
  | cons n l ih =>
    intro pre st st' hff hlt hi hpre hbase hfirst e
    have hn := hlt n (by simp)
    rw [mapRound] at e
    have hstep : ∀ st1, mapNode p C (H n) first st n = some st1 → StInv p C st1 ∧ Done p C st1 n ∧
        ∀ m, Done p C st m → Done p C st1 m := by
      intro st1 e1
      rw [mapNode] at e1
      by_cases hc : C.net.isCi n = true ∨ n = 0
      · rw [if_pos hc] at e1
        obtain rfl := Option.some.inj e1
        refine ⟨hi, hbase n ?_, fun _ h => h⟩
        by_cases h0 : n = 0
        · exact Or.inl h0
        · exact Or.inr (hN.wf.ci_input h0 (by tauto))
      · rw [if_neg hc] at e1
        rw [not_or] at hc
        have hci : C.net.isCi n = false := by simpa using hc.1
        obtain ⟨nd, hnd, hg⟩ := gate_of hN hn hc.2 hci
        have hk := deps_of_gate hN hg
        cases hm : mapAnd p C.net (H n) first st n with
        | none => rw [hm] at e1; simp at e1
        | some st2 =>
          obtain ⟨i2, d2, m2⟩ := mapAnd_spec hp hN hg (H n) first hi (hpre _ (hff pre n l rfl _ hk.1)) (hpre _ (hff pre n l rfl _ hk.2))
            (hfirst.imp id fun h => h n (by simp)) hm
          obtain ⟨e, he⟩ : ∃ e, C.equivs[n]? = some e := ⟨_, List.getElem?_eq_getElem (Nat.lt_of_lt_of_le hn hO.len)⟩
          rw [hm, he] at e1
          dsimp only at e1
          by_cases hr : e.isSome = true ∧ C.net.fanoutSize n > 0
          · rw [if_pos hr] at e1
            obtain ⟨k, rfl⟩ := Option.isSome_iff_exists.1 hr.1
            obtain ⟨i3, d3, m3⟩ := mapChoice_spec hp hO hS he (H n) first i2 d2 (by
              intro x hx ht
              exact m2 x (hpre x (hff.before rfl ht (by omega)))) e1
            exact ⟨i3, d3, fun x hx => m3 x (m2 x hx)⟩
          · rw [if_neg hr] at e1
            obtain rfl := Option.some.inj e1
            exact ⟨i2, d2, m2⟩
    cases hm : mapNode p C (H n) first st n with
    | none => rw [hm] at e; simp at e
    | some st1 =>
      rw [hm] at e
      obtain ⟨i1, d1, m1⟩ := hstep st1 hm
      obtain ⟨i2, d2, m2⟩ := ih (pre ++ [n]) st1 st' (by rw [List.append_assoc]; exact hff) (fun m hm => hlt m (by simp [hm])) i1
        (by
          intro m hm
          rcases List.mem_append.1 hm with hm | hm
          · exact m1 m (hpre m hm)
          · rw [List.mem_singleton.1 hm]; exact d1)
        (fun m hm => m1 m (hbase m hm)) (hfirst.imp id fun h m hm => m1 m (h m (by simp [hm]))) e
      refine ⟨i2, ?_, fun m hm => m2 m (m1 m hm)⟩
      intro m hm
      rcases List.mem_cons.1 hm with rfl | hm
      · exact m2 _ d1
      · exact d2 m hm

theorem mapRounds_spec {p : CutPs} (hp : PsOk p) {C : Choice} (hN : C.net.Built) (hO : C.Ordered) (hS : C.Sound) (H : Nat → Nat → Heur β)
    {order : List Nat} (hff : FaninsFirst (C.deps) order) (hlt : ∀ m ∈ order, m < C.net.nodes.length) :
    ∀ (l : List Bool) (k : Nat) (st st' : MapSt β), StInv p C st →
    (∀ m, m = 0 ∨ m ∈ C.net.inputs → Done p C st m) → (l.head? = some true ∨ ∀ m ∈ order, Done p C st m) →
    mapRounds p C H order k l st = some st' →
    StInv p C st' ∧ (∀ m ∈ order, Done p C st' m) := by
  intro l
  induction l with
  | nil =>
    intro k st st' hi _ hd e
    obtain rfl := Option.some.inj e
    exact ⟨hi, by simpa using hd⟩
  | cons first l ih =>
    intro k st st' hi hb hd e
    rw [mapRounds] at e
    cases hm : mapRound p C (H k) first order st with
    | none => rw [hm] at e; simp at e
    | some st1 =>
      rw [hm] at e
      obtain ⟨i1, d1, m1⟩ := mapRound_spec hp hN hO hS (H k) first order [] st st1 hff hlt hi (by simp) hb
        (hd.imp (fun h => by simpa using h) id) hm
      exact ih (k + 1) st1 st' i1 (fun m hm => m1 m (hb m hm)) (Or.inr d1) e

theorem initCuts_spec {p : CutPs} {C : Choice} : ∀ (l : List Nat) (st : MapSt β), StInv p C st → l.Nodup →
    (∀ n ∈ l, n < C.net.nodes.length ∧ (∀ a b, ¬ C.net.IsGate n a b) ∧ ∀ s, st.sets[n]? = some s → s.len = 0) →
    ∃ st', initCuts l st = some st' ∧ StInv p C st' ∧ (∀ n ∈ l, Done p C st' n) ∧ ∀ m, Done p C st m → m ∉ l → Done p C st' m := by
  intro l
  induction l with
  | nil => intro st hi _ _; exact ⟨st, rfl, hi, by simp, fun _ h _ => h⟩
  | cons n l ih =>
    intro st hi hnd hl
    rw [List.nodup_cons] at hnd
    obtain ⟨hn, hng, hs0⟩ := hl n (by simp)
    have hnl : n < st.sets.length := by rw [hi.len]; exact hn
    have hsn := List.getElem?_eq_getElem hnl
    have hlen := hs0 _ hsn
    have hinv := hi.sets n _ hsn
    obtain ⟨s', d, ea, a1, a2, a3⟩ := addCut_spec [n] (fun d : FData β => { d with func := 2 }) hinv (by rw [hlen]; decide)
    have hv : s'.view = [⟨[n], signature [n], { d with func := 2 }⟩] := by
      rw [a2, CutSet.view, hlen]; simp
    have hu : st.addUnit n = some { st with sets := st.sets.set n s' } := by
      rw [MapSt.addUnit, hsn]
      dsimp only
      rw [CutSet.addFixed, ea]
    have hf := first_eq (st := { st with sets := st.sets.set n s' }) (n := n) (by simp [hnl]) a1 hv
    have hbl : n < st.best.length := by rw [hi.blen]; exact hn
    have hsb : MapSt.setBest { st with sets := st.sets.set n s' } n =
        some { st with sets := st.sets.set n s', best := st.best.set n ⟨[n], signature [n], { d with func := 2 }⟩ } := by
      rw [MapSt.setBest, hf]
      dsimp only
      rw [if_pos hbl]
    have hok : MapOk p C st.cache n (⟨[n], signature [n], { d with func := 2 }⟩ : Cut (FData β)) :=
      ⟨fun k => unit_ok hi.unit n _ rfl, by simp [Tfi.refl], Or.inl rfl⟩
    obtain ⟨st2, e2, i2, d2, m2⟩ := ih { st with sets := st.sets.set n s', best := st.best.set n ⟨[n], signature [n], { d with func := 2 }⟩ }
      ⟨by simpa using hi.len, by simpa using hi.blen, hi.cache, hi.unit, by
        intro m s hs
        by_cases hmn : m = n
        · subst hmn
          simp only [List.getElem?_set_self hnl, Option.some.injEq] at hs
          subst hs; exact a1
        · rw [getElem?_set_other hmn] at hs; exact hi.sets m s hs⟩ hnd.2
      (by
        intro m hm
        obtain ⟨g1, g2, g3⟩ := hl m (by simp [hm])
        refine ⟨g1, g2, fun s hs => g3 s ?_⟩
        rw [getElem?_set_other (by rintro rfl; exact hnd.1 hm)] at hs
        exact hs)
    have hdn : Done p C { st with sets := st.sets.set n s', best := st.best.set n (⟨[n], signature [n], { d with func := 2 }⟩ : Cut (FData β)) } n :=
      ⟨s', _, by simp [hnl], by simp only [List.getElem?_set_self hbl], a1, by rw [hv]; simpa using hok, by rw [hv]; simp,
        Or.inl (by rw [hv]; simp [maxCutNum]), hok, fun _ a b hg => absurd hg (hng a b)⟩
    refine ⟨st2, ?_, i2, ?_, ?_⟩
    · rw [initCuts, hu]
      dsimp only
      rw [hsb]
      exact e2
    · intro m hm
      rcases List.mem_cons.1 hm with rfl | hm
      · exact m2 _ hdn hnd.1
      · exact d2 m hm
    · intro m hd hm
      rw [List.mem_cons, not_or] at hm
      exact m2 m (hd.of_eq (getElem?_set_other hm.1) (getElem?_set_other hm.1) fun _ _ h => h) hm.2

/-! ### marking -/

/-- the best cuts used by the marking -/
structure MarkOk (C : Choice) (best : List (Cut (FData β))) (order : List Nat) : Prop where
  lt : ∀ n ∈ order, n < C.net.nodes.length
  leaf : ∀ n ∈ order, n ≠ 0 → C.net.isCi n = false → ∃ c, best[n]? = some c ∧
    (c.leaves = [n] ∨ ∀ x ∈ c.leaves, x < n ∧ (x = 0 ∨ x ∈ order) ∧ Tfi C.deps n x)

/-- what a marking step from the nodes `S` does: marks stay, new marks are closed under the best cuts and below `S` -/
structure Marked (C : Choice) (best : List (Cut (FData β))) (order : List Nat) (S : List Nat) (r r' : Nat → Nat) : Prop where
  keep : ∀ k, r k ≠ 0 → r' k ≠ 0
  new : ∀ k, r k = 0 → r' k ≠ 0 → (k = 0 ∨ k ∈ order) ∧
    (k ≠ 0 → C.net.isCi k = false → ∀ c, best[k]? = some c → ∀ x ∈ c.leaves, r' x ≠ 0)
  src : ∀ k, r k = 0 → r' k ≠ 0 → ∃ s ∈ S, Tfi (C.deps) s k

theorem Marked.refl (C : Choice) (best : List (Cut (FData β))) (order S : List Nat) (r : Nat → Nat) : Marked C best order S r r :=
  ⟨fun _ h => h, fun _ h h' => absurd h h', fun _ h h' => absurd h h'⟩

theorem Marked.trans {C : Choice} {best : List (Cut (FData β))} {order S S' T : List Nat} {r r1 r2 : Nat → Nat}
    (h : Marked C best order S r r1) (h' : Marked C best order S' r1 r2) (hs : S ⊆ T) (hs' : S' ⊆ T) : Marked C best order T r r2 := by
  refine ⟨fun k hk => h'.keep k (h.keep k hk), fun k hk hk2 => ?_, fun k hk hk2 => ?_⟩
  · by_cases h1 : r1 k = 0
    · exact h'.new k h1 hk2
    · obtain ⟨a, b⟩ := h.new k hk h1
      exact ⟨a, fun h0 hc c hb x hx => h'.keep x (b h0 hc c hb x hx)⟩
  · by_cases h1 : r1 k = 0
    · obtain ⟨s, m, t⟩ := h'.src k h1 hk2
      exact ⟨s, hs' m, t⟩
    · obtain ⟨s, m, t⟩ := h.src k hk h1
      exact ⟨s, hs m, t⟩

theorem markAll_spec {C : Choice} {best : List (Cut (FData β))} {order : List Nat}
    {rec : Nat → (Nat → Nat) → Option (Nat → Nat)} {P : Nat → Prop}
    (hrec : ∀ n r, P n → ∃ r', rec n r = some r' ∧ r' n ≠ 0 ∧ Marked C best order [n] r r') :
    ∀ (l : List Nat) (r : Nat → Nat), (∀ n ∈ l, P n) →
    ∃ r', markAll rec l r = some r' ∧ (∀ n ∈ l, r' n ≠ 0) ∧ Marked C best order l r r' := by
  intro l
  induction l with
  | nil => intro r _; exact ⟨r, rfl, by simp, Marked.refl _ _ _ _ _⟩
  | cons n l ih =>
    intro r hl
    obtain ⟨r1, e1, n1, m1⟩ := hrec n r (hl n (by simp))
    obtain ⟨r2, e2, n2, m2⟩ := ih r1 fun x hx => hl x (by simp [hx])
    refine ⟨r2, by rw [markAll, e1]; exact e2, ?_, m1.trans m2 (by simp) (List.subset_cons_self _ _)⟩
    intro x hx
    rcases List.mem_cons.1 hx with rfl | hx
    · exact m2.keep _ n1
    · exact n2 x hx

theorem markRec_spec {C : Choice} (hpos : 0 < C.net.nodes.length) {best : List (Cut (FData β))} {order : List Nat} (hb : MarkOk C best order) :
    ∀ (f n : Nat) (r : Nat → Nat), n < f ∧ (n = 0 ∨ n ∈ order) →
    ∃ r', markRec C.net best f n r = some r' ∧ r' n ≠ 0 ∧ Marked C best order [n] r r' := by
  intro f
  induction f with
  | zero => intro n r h; omega
  | succ f ih =>
    intro n r ⟨hf, hn⟩
    have hlt : n < C.net.nodes.length := by
      rcases hn with rfl | hn
      · exact hpos
      · exact hb.lt n hn
    rw [markRec, if_neg (by omega)]
    dsimp only
    by_cases hc : r n ≠ 0 ∨ C.net.isCi n = true ∨ n = 0
    · rw [if_pos hc]
      refine ⟨_, rfl, by simp [setRef], ?_, ?_, ?_⟩
      · intro k hk
        simp only [setRef]
        split
        · omega
        · exact hk
      · intro k hk hk'
        simp only [setRef] at hk'
        by_cases e : k = n
        · subst e
          refine ⟨hn, fun h0 hci => ?_⟩
          rcases hc with hc | hc | hc
          · exact absurd hk hc
          · rw [hci] at hc; simp at hc
          · exact absurd hc h0
        · rw [if_neg e] at hk'; exact absurd hk hk'
      · intro k hk hk'
        simp only [setRef] at hk'
        by_cases e : k = n
        · subst e; exact ⟨k, by simp, .refl _⟩
        · rw [if_neg e] at hk'; exact absurd hk hk'
    · rw [if_neg hc]
      simp only [not_or, Decidable.not_not] at hc
      obtain ⟨hr0, hci, h0⟩ := hc
      have hno : n ∈ order := hn.resolve_left h0
      obtain ⟨c, ec, hleaf⟩ := hb.leaf n hno h0 (by simpa using hci)
      rw [ec]
      dsimp only
      rcases hleaf with hself | hleaf
      · obtain ⟨f', rfl⟩ : ∃ f', f = f' + 1 := ⟨f - 1, by omega⟩
        rw [hself, markAll, markRec, if_neg (by omega)]
        dsimp only
        rw [if_pos (Or.inl (by simp [setRef]))]
        refine ⟨_, rfl, by simp [setRef], ?_, ?_, ?_⟩
        · intro k hk
          simp only [setRef]
          split
          · omega
          · exact hk
        · intro k hk hk'
          by_cases e : k = n
          · subst e
            refine ⟨hn, fun _ _ c' hc' x hx => ?_⟩
            rw [ec] at hc'
            obtain rfl := Option.some.inj hc'
            rw [hself, List.mem_singleton] at hx
            subst hx
            simp [setRef]
          · simp only [setRef, if_neg e] at hk'; exact absurd hk hk'
        · intro k hk hk'
          by_cases e : k = n
          · subst e; exact ⟨k, by simp, .refl _⟩
          · simp only [setRef, if_neg e] at hk'; exact absurd hk hk'
      obtain ⟨r', e', n', m'⟩ := markAll_spec (P := fun x => x < f ∧ (x = 0 ∨ x ∈ order)) ih c.leaves
        (setRef (setRef r n (r n + 1)) n (setRef r n (r n + 1) n + 1)) (fun x hx => ⟨by have := (hleaf x hx).1; omega, (hleaf x hx).2.1⟩)
      have hkeep : ∀ k, k ≠ n → setRef (setRef r n (r n + 1)) n (setRef r n (r n + 1) n + 1) k = r k := by
        intro k hk
        simp [setRef, hk]
      have hself : r' n ≠ 0 := m'.keep n (by simp [setRef])
      refine ⟨r', e', hself, ?_, ?_, ?_⟩
      · intro k hk
        by_cases e : k = n
        · subst e; exact hself
        · exact m'.keep k (by rw [hkeep k e]; exact hk)
      · intro k hk hk'
        by_cases e : k = n
        · subst e
          refine ⟨hn, fun _ _ c' hc' x hx => ?_⟩
          rw [ec] at hc'
          obtain rfl := Option.some.inj hc'
          exact n' x hx
        · exact m'.new k (by rw [hkeep k e]; exact hk) hk'
      · intro k hk hk'
        by_cases e : k = n
        · subst e; exact ⟨k, by simp, .refl _⟩
        · obtain ⟨x, hx, t⟩ := m'.src k (by rw [hkeep k e]; exact hk) hk'
          exact ⟨n, by simp, (hleaf x hx).2.2.trans t⟩

/-! ### the cells -/

/-- a cell is made for the node -/
def Sel (N : Aig) (r : Nat → Nat) (n : Nat) : Prop := r n ≠ 0 ∧ N.isCi n = false ∧ n ≠ 0

theorem lookup_wf {c : TTCache} (h : c.Inv) {l : Nat} {t : TT} (e : c.lookup l = some t) : t.WF := by
  rw [TTCache.lookup] at e
  split at e
  · simp at e
  · rename_i u hu
    obtain rfl := Option.some.inj e
    split
    · exact TT.wf_not _
    · exact h.wf u (List.mem_of_getElem? hu)

theorem addCells_spec {N : Aig} {st : MapSt β} (hc : st.cache.Inv) (r : Nat → Nat) (size : Nat) : ∀ (l : List Nat) (M : Mapping)
    (h : List Mapping.Op), (∀ n ∈ l, n < size ∧ (Sel N r n → ∃ c t, st.best[n]? = some c ∧ st.cache.lookup c.data.func = some t)) →
    Mapping.Rep M size h →
    ∃ M' h', addCells N st r l M = some M' ∧ Mapping.Rep M' size h' ∧
      (∀ n, n ∈ l → Sel N r n → ∃ c t, st.best[n]? = some c ∧ st.cache.lookup c.data.func = some t ∧
        Mapping.leavesOf n h' = some c.leaves ∧ Mapping.functionOf n h' = t) ∧
      ∀ n, (n ∈ l → ¬ Sel N r n) → Mapping.leavesOf n h' = Mapping.leavesOf n h ∧ Mapping.functionOf n h' = Mapping.functionOf n h := by
  intro l
  induction l with
  | nil => intro M h _ hr; exact ⟨M, h, rfl, hr, by simp, fun _ _ => ⟨rfl, rfl⟩⟩
  | cons n l ih =>
    intro M h hl hr
    obtain ⟨hn, hsel⟩ := hl n (by simp)
    by_cases hs : r n = 0 ∨ N.isCi n = true ∨ n = 0
    · have hns : ¬ Sel N r n := by
        rintro ⟨a, b, c⟩
        rcases hs with h | h | h
        · exact a h
        · rw [b] at h; simp at h
        · exact c h
      obtain ⟨M', h', e, r', s1, s2⟩ := ih M h (fun x hx => hl x (by simp [hx])) hr
      refine ⟨M', h', by rw [addCells, if_pos hs]; exact e, r', ?_, ?_⟩
      · intro x hx hsx
        rcases List.mem_cons.1 hx with rfl | hx
        · exact absurd hsx hns
        · exact s1 x hx hsx
      · intro x hx
        exact s2 x fun hxl => hx (by simp [hxl])
    · have hs' := hs
      simp only [not_or] at hs'
      have hse : Sel N r n := ⟨hs'.1, by simpa using hs'.2.1, hs'.2.2⟩
      obtain ⟨c, t, ec, et⟩ := hsel hse
      obtain ⟨M1, e1, r1⟩ := hr.step (.add n c.leaves) hn
      obtain ⟨M2, e2, r2⟩ := r1.step (.setFunction n t) ⟨hn, lookup_wf hc et⟩
      obtain ⟨M', h', e, r', s1, s2⟩ := ih M2 _ (fun x hx => hl x (by simp [hx])) r2
      refine ⟨M', h', ?_, r', ?_, ?_⟩
      · rw [addCells, if_neg hs, ec]
        dsimp only
        rw [et, show M.add n c.leaves = some M1 from e1]
        dsimp only
        rw [show M1.setFunction n t = some M2 from e2]
        exact e
      · intro x hx hsx
        by_cases hxl : x ∈ l
        · exact s1 x hxl hsx
        · rcases List.mem_cons.1 hx with rfl | hx
          · obtain ⟨a, b⟩ := s2 x (fun h => absurd h hxl)
            refine ⟨c, t, ec, et, ?_, ?_⟩
            · rw [a, Mapping.leavesOf, Mapping.leavesOf, if_pos rfl]
            · rw [b, Mapping.functionOf, if_pos rfl]
          · exact absurd hx hxl
      · intro x hx
        have hxn : ¬ n = x := by
          rintro rfl; exact hx (by simp) hse
        obtain ⟨a, b⟩ := s2 x fun hxl => hx (by simp [hxl])
        refine ⟨?_, ?_⟩
        · rw [a, Mapping.leavesOf, Mapping.leavesOf, if_neg hxn]
        · rw [b, Mapping.functionOf, if_neg hxn]
          simp [Mapping.functionOf]

/-- the cells that the final step makes: available leaves, the right function, and either the unit cut (only at a
node with choices) or between two and `cut_size` leaves below the root -/
structure Cells (p : CutPs) (C : Choice) (M : Mapping) : Prop where
  marked : ∀ n, n < C.net.nodes.length → ∃ b, M.isCellRoot n = some b
  output : ∀ o ∈ C.net.outputs, Cover.Avail C.net M o.index
  cell : ∀ n, Cover.Root C.net M n → ∃ cs f, M.cellFanins n = some cs ∧ M.cellFunction n = some f ∧ f.WF ∧ f.n = cs.length ∧
    (∀ l ∈ cs, Cover.Avail C.net M l ∧ Tfi C.deps n l) ∧
    ((cs = [n] ∧ C.equivs[n]? ≠ some none) ∨ (2 ≤ cs.length ∧ cs.length ≤ p.cutSize ∧ ∀ l ∈ cs, l < n)) ∧
    ∀ v, C.net.Models v → v n = f.eval (Klut.args v cs)
  has : M.hasMapping = true ↔ ∃ n, Cover.Root C.net M n
  needed : ∀ n, Cover.Root C.net M n → ∃ o ∈ C.net.outputs, Tfi C.deps o.index n

/-- the final step makes a cover out of the best cuts; the marks, the roots and the leaves -/
theorem derive_full {p : CutPs} {C : Choice} (hN : C.net.Built) (hpo : C.net.numPos = C.net.outputs.length) {order : List Nat}
    (hff : FaninsFirst C.deps order) (hlt : ∀ m ∈ order, m < C.net.nodes.length)
    (hout : ∀ o ∈ C.net.outputs, o.index = 0 ∨ o.index ∈ order) {st : MapSt β} (hi : StInv p C st) (hd : ∀ m ∈ order, Done p C st m) :
    ∃ r M, markAll (markRec C.net st.best (C.net.nodes.length + 1)) ((C.net.outputs.take C.net.numPos).map (·.index)) (fun _ => 0) = some r ∧
      derive C.net order st = some M ∧ Cells p C M ∧
      (∀ n, n < C.net.nodes.length → (M.isCellRoot n = some true ↔ n ∈ order ∧ Sel C.net r n)) ∧
      ∀ n, M.isCellRoot n = some true → n < C.net.nodes.length → ∃ c, st.best[n]? = some c ∧ M.cellFanins n = some c.leaves := by
  have hbest : ∀ n ∈ order, n ≠ 0 → C.net.isCi n = false → ∃ c, st.best[n]? = some c ∧ MapOk p C st.cache n c ∧
      (C.equivs[n]? = some none → c.leaves ≠ [n]) ∧ ∀ x ∈ c.leaves, x ∈ order ∧ Tfi C.deps n x := by
    intro n hn h0 hci
    obtain ⟨s, b, h⟩ := hd n hn
    obtain ⟨nd, _, hg⟩ := gate_of hN (hlt n hn) h0 hci
    exact ⟨b, h.best, h.bok, fun e => h.gate e _ _ hg, fun x hx => ⟨hff.mem hn (h.bok.tfi x hx), h.bok.tfi x hx⟩⟩
  have hmok : MarkOk C st.best order := by
    refine ⟨hlt, fun n hn h0 hci => ?_⟩
    obtain ⟨c, ec, hok, _, hx⟩ := hbest n hn h0 hci
    refine ⟨c, ec, hok.kind.imp id fun h x hxx => ⟨h.2.2 x hxx, Or.inr (hx x hxx).1, (hx x hxx).2⟩⟩
  obtain ⟨r, er, hr, hm⟩ := markAll_spec (fun n r h => markRec_spec hN.wf.pos hmok (C.net.nodes.length + 1) n r h)
    ((C.net.outputs.take C.net.numPos).map (·.index)) (fun _ => 0) (by
      intro n hn
      obtain ⟨o, ho, rfl⟩ := List.mem_map.1 hn
      have ho' := List.mem_of_mem_take ho
      exact ⟨by have := hN.wf.outputs o ho'; simp only [Aig.Valid] at this; omega, hout o ho'⟩)
  rw [derive, er]
  dsimp only
  obtain ⟨M, h', e, hrep, s1, s2⟩ := addCells_spec (N := C.net) hi.cache r C.net.nodes.length order.reverse (Mapping.init C.net.nodes.length) [] (by
    intro n hn
    rw [List.mem_reverse] at hn
    refine ⟨hlt n hn, fun hs => ?_⟩
    obtain ⟨c, ec, hok, _⟩ := hbest n hn hs.2.2 hs.2.1
    obtain ⟨t, et, _⟩ := hok.table
    exact ⟨c, t, ec, et⟩) (Mapping.Rep.init _)
  have hin : ∀ k, r k ≠ 0 → k = 0 ∨ k ∈ order := fun k hk => (hm.new k rfl hk).1
  have hroot : ∀ n, n < C.net.nodes.length → (M.isCellRoot n = some true ↔ n ∈ order ∧ Sel C.net r n) := by
    intro n hn
    rw [(hrep.answers n hn).1]
    by_cases hs : n ∈ order ∧ Sel C.net r n
    · obtain ⟨c, t, _, _, hl, _⟩ := s1 n (List.mem_reverse.2 hs.1) hs.2
      rw [hl]; simp [hs]
    · rw [(s2 n fun hno hse => hs ⟨List.mem_reverse.1 hno, hse⟩).1]
      simp [Mapping.leavesOf, hs]
  have hav : ∀ n, r n ≠ 0 → Cover.Avail C.net M n := by
    intro n hn
    by_cases h0 : n = 0
    · exact Or.inl h0
    · have hno := (hin n hn).resolve_left h0
      by_cases hci : C.net.isCi n = true
      · exact Or.inr (Or.inl (hN.wf.ci_input h0 hci))
      · have hci' : C.net.isCi n = false := by simpa using hci
        obtain ⟨nd, _, hg⟩ := gate_of hN (hlt n hno) h0 hci'
        exact Or.inr (Or.inr ⟨⟨_, _, hg⟩, (hroot n (hlt n hno)).2 ⟨hno, hn, hci', h0⟩⟩)
  have hhas : M.hasMapping = true ↔ ∃ n, Cover.Root C.net M n := by
    rw [Mapping.hasMapping, decide_eq_true_iff, hrep.count, Mapping.rootCount, List.countP_pos_iff]
    constructor
    · rintro ⟨n, hn, hs⟩
      rw [List.mem_range] at hn
      have hr1 : M.isCellRoot n = some true := by rw [(hrep.answers n hn).1, hs]
      obtain ⟨hno, hs⟩ := (hroot n hn).1 hr1
      obtain ⟨nd, _, hg⟩ := gate_of hN hn hs.2.2 hs.2.1
      exact ⟨n, ⟨_, _, hg⟩, hr1⟩
    · rintro ⟨n, ⟨a, b, hg⟩, hr1⟩
      have hn := (hN.wf.isGate_lt hg).2.2.2
      refine ⟨n, List.mem_range.2 hn, ?_⟩
      rw [(hrep.answers n hn).1] at hr1
      exact Option.some.inj hr1
  have hleaves : ∀ n, M.isCellRoot n = some true → n < C.net.nodes.length → ∃ c, st.best[n]? = some c ∧ M.cellFanins n = some c.leaves := by
    intro n hrt hn
    obtain ⟨hno, hs⟩ := (hroot n hn).1 hrt
    obtain ⟨c, t, ec, et, hl, hf⟩ := s1 n (List.mem_reverse.2 hno) hs
    exact ⟨c, ec, (hrep.answers n hn).2.1 _ hl⟩
  refine ⟨r, M, rfl, e, ⟨fun n hn => ⟨_, (hrep.answers n hn).1⟩, ?_, ?_, hhas, ?_⟩, hroot, hleaves⟩
  · intro o ho
    apply hav
    apply hr
    rw [hpo, List.take_length]
    exact List.mem_map_of_mem ho
  · rintro n ⟨⟨a, b, hg⟩, hrt⟩
    have hn := (hN.wf.isGate_lt hg).2.2.2
    obtain ⟨hno, hs⟩ := (hroot n hn).1 hrt
    obtain ⟨c, t, ec, et, hl, hf⟩ := s1 n (List.mem_reverse.2 hno) hs
    obtain ⟨c', ec', hok, hns, hx⟩ := hbest n hno hs.2.2 hs.2.1
    rw [ec] at ec'
    obtain rfl := Option.some.inj ec'
    obtain ⟨_, a2, a3⟩ := hrep.answers n hn
    obtain ⟨t', t1, t2, t3⟩ := hok.table
    rw [et] at t1
    obtain rfl := Option.some.inj t1
    refine ⟨c.leaves, t, a2 _ hl, by rw [a3, hf], lookup_wf hi.cache et, t2, ?_, ?_, fun v hv => t3 v hv⟩
    · intro x hxx
      exact ⟨hav x ((hm.new n rfl hs.1).2 hs.2.2 hs.2.1 c ec x hxx), (hx x hxx).2⟩
    · exact hok.kind.imp (fun h => ⟨h, fun e => hns e h⟩) id
  · rintro n ⟨⟨a, b, hg⟩, hrt⟩
    obtain ⟨_, hs⟩ := (hroot n (hN.wf.isGate_lt hg).2.2.2).1 hrt
    obtain ⟨x, hx, t⟩ := hm.src n rfl hs.1
    obtain ⟨o, ho, rfl⟩ := List.mem_map.1 hx
    exact ⟨o, List.mem_of_mem_take ho, t⟩

/-- the final step makes a cover out of the best cuts -/
theorem derive_cells {p : CutPs} {C : Choice} (hN : C.net.Built) (hpo : C.net.numPos = C.net.outputs.length) {order : List Nat}
    (hff : FaninsFirst C.deps order) (hlt : ∀ m ∈ order, m < C.net.nodes.length)
    (hout : ∀ o ∈ C.net.outputs, o.index = 0 ∨ o.index ∈ order) {st : MapSt β} (hi : StInv p C st) (hd : ∀ m ∈ order, Done p C st m) :
    ∃ M, derive C.net order st = some M ∧ Cells p C M := by
  obtain ⟨_, M, _, e, h, _⟩ := derive_full hN hpo hff hlt hout hi hd
  exact ⟨M, e, h⟩

/-- without choices the cells are a legal cover -/
theorem Cells.legal {p : CutPs} {C : Choice} {M : Mapping} (h : Cells p C M) (hC : NoChoice C) (hN : C.net.Built) :
    Cover.Legal C.net M ∧ (∀ n cs, Cover.Root C.net M n → M.cellFanins n = some cs → 2 ≤ cs.length ∧ cs.length ≤ p.cutSize) ∧
      ∀ n, Cover.Root C.net M n → ∃ o ∈ C.net.outputs, Tfi (aigKids C.net) o.index n := by
  have hdeps : C.deps = aigKids C.net := funext hC.deps
  have hbig : ∀ n, Cover.Root C.net M n → ∃ cs f, M.cellFanins n = some cs ∧ M.cellFunction n = some f ∧ f.WF ∧ f.n = cs.length ∧
      (∀ l ∈ cs, Cover.Avail C.net M l ∧ Tfi C.deps n l) ∧ (2 ≤ cs.length ∧ cs.length ≤ p.cutSize ∧ ∀ l ∈ cs, l < n) ∧
      ∀ v, C.net.Models v → v n = f.eval (Klut.args v cs) := by
    intro n hr
    obtain ⟨cs, f, h1, h2, h3, h4, h5, h6, h7⟩ := h.cell n hr
    obtain ⟨⟨a, b, hg⟩, _⟩ := hr
    exact ⟨cs, f, h1, h2, h3, h4, h5, h6.resolve_left fun e => e.2 (hC.get (hN.wf.isGate_lt hg).2.2.2), h7⟩
  refine ⟨⟨h.marked, h.output, ?_⟩, ?_, ?_⟩
  · intro n hr
    obtain ⟨cs, f, h1, h2, h3, h4, h5, h6, h7⟩ := hbig n hr
    refine ⟨cs, f, h1, h2, h3, h4, fun l hl => ⟨(h5 l hl).1, ?_, ?_⟩, h7⟩
    · have := h6.2.2 l hl; omega
    · rw [← hdeps]; exact (h5 l hl).2
  · intro n cs hr hcs
    obtain ⟨cs', f, h1, _, _, _, _, h6, _⟩ := hbig n hr
    rw [h1] at hcs
    obtain rfl := Option.some.inj hcs
    exact ⟨h6.1, h6.2.1⟩
  · intro n hr
    rw [← hdeps]; exact h.needed n hr

theorem init_inv (p : CutPs) (C : Choice) (cost : β) : StInv p C (MapSt.init cost C.net.nodes.length) := by
  have i1 := TTCache.insert_spec TTCache.empty TTCache.inv_empty (TT.const 0 false) (TT.wf_const _ _)
  have i2 := TTCache.insert_spec _ i1.1 (TT.nthVar 1 0) (TT.wf_nthVar _ _)
  refine ⟨by simp [MapSt.init, CutNet.init], by simp [MapSt.init], i2.1, ?_, ?_⟩
  · have : (((TTCache.empty.insert (TT.const 0 false)).1.insert (TT.nthVar 1 0)).1).lookup 2 = some (TT.nthVar 1 0) := by decide
    exact this
  · intro n s hs
    have : s = CutSet.init cost := (List.mem_replicate.1 (List.mem_of_getElem? hs)).2
    rw [this]
    exact ⟨List.Perm.refl _, Nat.zero_le _⟩

theorem start_spec (p : CutPs) {C : Choice} (hN : C.net.Built) (cost : β) :
    ∃ st, initCuts (0 :: C.net.inputs) (MapSt.init cost C.net.nodes.length) = some st ∧ StInv p C st ∧
      ∀ m, m = 0 ∨ m ∈ C.net.inputs → Done p C st m := by
  have hnd : (0 :: C.net.inputs).Nodup := by
    refine List.nodup_cons.2 ⟨fun h => ?_, hN.wf.inputsNodup⟩
    obtain ⟨k, hk⟩ := List.mem_iff_getElem?.1 h
    exact absurd (hN.wf.input k 0 hk).1 (by omega)
  obtain ⟨st, e, i, d, _⟩ := initCuts_spec (0 :: C.net.inputs) _ (init_inv p C cost) hnd (by
    intro n hn
    refine ⟨?_, ?_, ?_⟩
    · rcases List.mem_cons.1 hn with rfl | hn
      · exact hN.wf.pos
      · obtain ⟨k, hk⟩ := List.mem_iff_getElem?.1 hn
        obtain ⟨_, nd, hnd, _⟩ := hN.wf.input k n hk
        exact Aig.lt_of_getElem? hnd
    · intro a b hg
      rcases List.mem_cons.1 hn with rfl | hn
      · exact hg.1 rfl
      · exact hg.2.1 hn
    · intro s hs
      have : s = CutSet.init cost := (List.mem_replicate.1 (List.mem_of_getElem? hs)).2
      rw [this]; rfl)
  exact ⟨st, e, i, fun m hm => d m (List.mem_cons.2 hm)⟩

/-! ### small cuts: nothing goes wrong -/

theorem mergeCuts_defined {p : CutPs} (hp : PsOk p) (hsmall : 2 * p.cutSize ≤ maxCutSize) {C : Choice} (hN : C.net.Built) {n : Nat} {a b : Sig}
    (hg : C.net.IsGate n a b) (h : Heur β) {st : MapSt β} (hi : StInv p C st) (ha : Done p C st a.index) (hb : Done p C st b.index) :
    ∃ st', mergeCuts p C.net h st n = some st' := by
  have hlt := hN.wf.isGate_lt hg
  obtain ⟨hn0, hnin, nd, hnd, hdead, rfl, rfl⟩ := id hg
  have hnl : n < st.sets.length := by rw [hi.len]; exact Aig.lt_of_getElem? hnd
  rw [mergeCuts, hnd, List.getElem?_eq_getElem hnl]
  dsimp only
  obtain ⟨ci, cv⟩ := clear_inv maxCutNum (st.sets[n])
  have ha0 : Done p C { st with sets := st.sets.set n (st.sets[n].clear maxCutNum) } nd.c0.index :=
    ha.of_eq (getElem?_set_other (by omega)) rfl fun _ _ h => h
  obtain ⟨st1, e1, d1, k1, b1, o1, l1⟩ := insertBest_spec h.lt ha0
  rw [e1]
  dsimp only
  have hb1 : Done p C st1 nd.c1.index := hb.of_eq
    (by rw [o1 _ (by omega)]; exact getElem?_set_other (by omega)) (by rw [b1]) (by rw [k1]; exact fun _ _ h => h)
  obtain ⟨st2, e2, d2, k2, b2, o2, l2⟩ := insertBest_spec h.lt hb1
  rw [e2]
  dsimp only
  have ha2 : Done p C st2 nd.c0.index := d1.of_eq (o2 _ (by omega)) (by rw [b2]) (by rw [k2]; exact fun _ _ h => h)
  obtain ⟨s0, q0, h0⟩ := ha2
  obtain ⟨s1, q1, h1⟩ := d2
  have hsn : st2.sets[n]? = some (st.sets[n].clear maxCutNum) := by
    rw [o2 _ (by omega), o1 _ (by omega)]
    simp [hnl]
  have hcache : st2.cache = st.cache := by rw [k2, k1]
  rw [h0.set, h1.set, hsn]
  dsimp only
  have hpairs : ∀ q ∈ pairs s0.view s1.view, q.1 ∈ s0.view ∧ q.2 ∈ s1.view := by
    intro q hq
    obtain ⟨c1, hc1, hq⟩ := List.mem_flatMap.1 hq
    obtain ⟨c2, hc2, rfl⟩ := List.mem_map.1 hq
    exact ⟨hc1, hc2⟩
  have hle : ∀ {m : Nat} {c : Cut (FData β)}, MapOk p C st2.cache m c → c.leaves.length ≤ p.cutSize := by
    intro m c hc
    rcases hc.kind with e | ⟨_, h, _⟩
    · rw [e]; have := hp.size2; simp; omega
    · exact h
  rcases mergeLoop_spec_of (P := cutParams p h) (Q := cutParams (loose p) h) rfl (fun e => by simp [cutParams, loose] at e) hN hg hp.size7 (cache0 := st2.cache) (pairs s0.view s1.view)
      (st2.cache, st.sets[n].clear maxCutNum) ⟨by rw [hcache]; exact hi.cache, fun _ _ h => h, ci, by intro c hc; rw [cv] at hc; simp at hc⟩
      (fun q hq => ⟨(h0.cuts _ (hpairs q hq).1).ok h, (h1.cuts _ (hpairs q hq).2).ok h⟩) with ⟨_, q, hq, ho⟩ | ⟨⟨cache, r⟩, e, hli⟩
  · exfalso
    have q1 := h0.cuts _ (hpairs q hq).1
    have q2 := h1.cuts _ (hpairs q hq).2
    exact (C19_small maxCutSize p.cutSize hsmall q.1 q.2 q.1 q1.wf q2.wf (hle q1) (hle q2)).1 ho
  · rw [e]
    dsimp only
    obtain ⟨_, f2⟩ := finish_spec (P := cutParams (loose p) h) (N := C.net) (n := n) (hli.mono _ _ (by rw [hcache]; exact hi.unit)) hli.set hli.ok
    have := f2 (by have := hp.limit3; show 2 ≤ p.cutLimit; omega) (by have := hp.limit11; show p.cutLimit ≤ _; omega)
    cases hf : finish (cutParams p h) n r with
    | none => exact absurd (show finish (cutParams (loose p) h) n r = none from hf) this
    | some r' => exact ⟨_, rfl⟩

theorem mapRound_defined {p : CutPs} (hp : PsOk p) (hsmall : 2 * p.cutSize ≤ maxCutSize) {C : Choice} (hN : C.net.Built)
    (hO : C.Ordered) (hS : C.Sound) (H : Nat → Heur β) (first : Bool) :
    ∀ (l pre : List Nat) (st : MapSt β), FaninsFirst (C.deps) (pre ++ l) → (∀ m ∈ l, m < C.net.nodes.length) →
    StInv p C st → (∀ m ∈ pre, Done p C st m) → (∀ m, m = 0 ∨ m ∈ C.net.inputs → Done p C st m) →
    (first = true ∨ ∀ m ∈ l, Done p C st m) → ∃ st', mapRound p C H first l st = some st' := by
  intro l
  induction l with
  | nil => intro pre st _ _ _ _ _ _; exact ⟨st, rfl⟩
  | cons n l ih =>
    intro pre st hff hlt hi hpre hbase hfirst
    have hn := hlt n (by simp)
    obtain ⟨st1, e1⟩ : ∃ st1, mapNode p C (H n) first st n = some st1 := by
      rw [mapNode]
      by_cases hc : C.net.isCi n = true ∨ n = 0
      · rw [if_pos hc]; exact ⟨_, rfl⟩
      · rw [if_neg hc]
        rw [not_or] at hc
        have hci : C.net.isCi n = false := by simpa using hc.1
        obtain ⟨nd, hnd, hg⟩ := gate_of hN hn hc.2 hci
        have hk := deps_of_gate hN hg
        have d0 := hpre _ (hff pre n l rfl _ hk.1)
        have d1 := hpre _ (hff pre n l rfl _ hk.2)
        obtain ⟨st2, e2⟩ := mergeCuts_defined hp hsmall hN hg (H n) hi d0 d1
        obtain ⟨g1, g2, g3, g4, s, c0, rest, g5, g6, _⟩ := mergeCuts_spec hp hN hg (H n) hi d0 d1 e2
        have hf := first_eq g5 (g1.sets n s g5) g6
        have : ∃ st3, mapAnd p C.net (H n) first st n = some st3 := by
          rw [mapAnd, e2]
          dsimp only
          rw [hf]
          dsimp only
          split
          · rw [MapSt.setBest, hf]
            dsimp only
            rw [if_pos (by rw [g1.blen]; exact hn)]
            exact ⟨_, rfl⟩
          · exact ⟨_, rfl⟩
        obtain ⟨st3, e3⟩ := this
        obtain ⟨e, he⟩ : ∃ e, C.equivs[n]? = some e := ⟨_, List.getElem?_eq_getElem (Nat.lt_of_lt_of_le hn hO.len)⟩
        rw [e3, he]
        dsimp only
        by_cases hr : e.isSome = true ∧ C.net.fanoutSize n > 0
        · rw [if_pos hr]
          obtain ⟨k, rfl⟩ := Option.isSome_iff_exists.1 hr.1
          obtain ⟨i2, d2, m2⟩ := mapAnd_spec hp hN hg (H n) first hi d0 d1 (hfirst.imp id fun h => h n (by simp)) e3
          refine mapChoice_defined hp hO hS hn he (H n) first i2 d2 ?_
          intro x hx ht
          exact m2 x (hpre x (hff.before rfl ht (by omega)))
        · rw [if_neg hr]; exact ⟨_, rfl⟩
    rw [mapRound, e1]
    dsimp only
    obtain ⟨i1, d1, m1⟩ := mapRound_spec hp hN hO hS H first [n] pre st st1 (by
        intro l1 k l2 e m hm
        exact hff l1 k (l2 ++ l) (by rw [← List.cons_append, ← List.append_assoc, ← e]; simp) m hm)
      (fun m hm => by rw [List.mem_singleton.1 hm]; exact hn) hi hpre hbase
      (hfirst.imp id fun h m hm => h m (by rw [List.mem_singleton.1 hm]; simp)) (by rw [mapRound, e1]; rfl)
    exact ih (pre ++ [n]) st1 (by rw [List.append_assoc]; exact hff) (fun m hm => hlt m (by simp [hm])) i1
      (by
        intro m hm
        rcases List.mem_append.1 hm with hm | hm
        · exact m1 m (hpre m hm)
        · exact d1 m hm)
      (fun m hm => m1 m (hbase m hm)) (hfirst.imp id fun h m hm => m1 m (h m (by simp [hm])))

theorem mapRounds_defined {p : CutPs} (hp : PsOk p) (hsmall : 2 * p.cutSize ≤ maxCutSize) {C : Choice} (hN : C.net.Built)
    (hO : C.Ordered) (hS : C.Sound) (H : Nat → Nat → Heur β)
    {order : List Nat} (hff : FaninsFirst (C.deps) order) (hlt : ∀ m ∈ order, m < C.net.nodes.length) :
    ∀ (l : List Bool) (k : Nat) (st : MapSt β), StInv p C st →
    (∀ m, m = 0 ∨ m ∈ C.net.inputs → Done p C st m) → (l.head? = some true ∨ ∀ m ∈ order, Done p C st m) →
    ∃ st', mapRounds p C H order k l st = some st' := by
  intro l
  induction l with
  | nil => intro k st _ _ _; exact ⟨st, rfl⟩
  | cons first l ih =>
    intro k st hi hb hd
    have hd' : first = true ∨ ∀ m ∈ order, Done p C st m := hd.imp (fun h => by simpa using h) id
    obtain ⟨st1, e1⟩ := mapRound_defined hp hsmall hN hO hS (H k) first order [] st hff hlt hi (by simp) hb hd'
    obtain ⟨i1, d1, m1⟩ := mapRound_spec hp hN hO hS (H k) first order [] st st1 hff hlt hi (by simp) hb hd' e1
    rw [mapRounds, e1]
    exact ih (k + 1) st1 i1 (fun m hm => m1 m (hb m hm)) (Or.inr d1)

end Verif.Mapper
