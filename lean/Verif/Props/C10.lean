import Verif.Strash.Proof
import Verif.Props.AigInv

set_option autoImplicit false

/-!
# C10: the chained hash table implements a finite map
-/

namespace Verif.Strash

/-- Specification state: the fanin pair of each node and the list of nodes that are in the table. -/
structure Spec where
  kids : List (Sig × Sig)
  stored : List Nat

/-- the fresh table: node 0 only, nothing stored -/
def Spec.init : Spec := ⟨[(⟨0, false⟩, ⟨0, false⟩)], []⟩

/-- what each call should do to the finite map -/
def Spec.step (s : Spec) : Op → Spec
  | .newNode a b => { s with kids := s.kids ++ [(a, b)] }
  | .insert i => { s with stored := i :: s.stored }
  | .erase i => { s with stored := s.stored.filter (· ≠ i) }
  | .setKids i a b => { s with kids := s.kids.set i (a, b) }
  | .reserve _ => s

/-- calls that a client may make: insert an existing node that is not stored and whose fanin pair is not
stored; erase a stored node; change the fanins only of nodes that are not stored; ask for a positive
number of buckets -/
def Spec.Legal (s : Spec) : Op → Prop
  | .newNode _ _ => True
  | .insert i => i ≠ 0 ∧ i < s.kids.length ∧ i ∉ s.stored ∧
      ∀ j ∈ s.stored, s.kids[j]? ≠ s.kids[i]?
  | .erase i => i ∈ s.stored
  | .setKids i _ _ => i ∉ s.stored
  | .reserve k => 0 < k

/-- all calls of a sequence are legal when made -/
def Spec.LegalAll (s : Spec) : List Op → Prop
  | [] => True
  | o :: os => s.Legal o ∧ (s.step o).LegalAll os

/-- the map after a sequence of calls -/
def Spec.run (s : Spec) (os : List Op) : Spec := os.foldl Spec.step s

/-- `T` implements `s`: the counter is the number of stored nodes, and every lookup terminates and
returns the stored node with that fanin pair, or 0 if there is none. -/
structure Implements (T : Tab) (s : Spec) : Prop where
  num : T.num = s.stored.length
  find : ∀ a b, ∃ x, T.find a b = some x ∧
    (x ≠ 0 → x ∈ s.stored ∧ s.kids[x]? = some (a, b)) ∧
    (x = 0 → ∀ i ∈ s.stored, s.kids[i]? ≠ some (a, b))

/-- refinement invariant -/
structure Inv (T : Tab) (s : Spec) : Prop where
  rep : Rep T.nodes T.hash (· ∈ s.stored)
  pos : 0 < T.hash.length
  kids : ∀ i, kidsOf T.nodes i = s.kids[i]?
  num : T.num = s.stored.length
  nodup : s.stored.Nodup
  uniq : ∀ i ∈ s.stored, ∀ j ∈ s.stored, s.kids[i]? = s.kids[j]? → i = j

theorem Inv.init : Inv Tab.init Spec.init where
  rep := (Rep.replicate _ _).congrS (by simp [Spec.init])
  pos := by rw [Tab.init, List.length_replicate]; omega
  kids := by
    intro i
    cases i with
    | zero => rfl
    | succ i => rfl
  num := rfl
  nodup := by simp [Spec.init]
  uniq := by simp [Spec.init]

theorem kids_length {T : Tab} {s : Spec} (h : ∀ i, kidsOf T.nodes i = s.kids[i]?) :
    T.nodes.length = s.kids.length := by
  rcases Nat.lt_trichotomy T.nodes.length s.kids.length with hl | hl | hl
  · have := h T.nodes.length
    rw [List.getElem?_eq_getElem hl] at this
    simp [kidsOf] at this
  · exact hl
  · have := h s.kids.length
    rw [List.getElem?_eq_none (le_refl _)] at this
    simp [kidsOf] at this
    omega

theorem Inv.lt {T : Tab} {s : Spec} (h : Inv T s) {i : Nat} (hi : i ∈ s.stored) : i < s.kids.length := by
  rw [← kids_length h.kids]; exact (h.rep.lt hi).1

theorem Inv.step {grow : Nat → Nat} (hgrow : ∀ n, 0 < n → 0 < grow n) {T : Tab} {s : Spec}
    (h : Inv T s) (o : Op) (hl : s.Legal o) : ∃ T', T.step grow o = some T' ∧ Inv T' (s.step o) := by
  have hlen := kids_length h.kids
  cases o with
  | newNode a b =>
    refine ⟨_, rfl, ⟨?_, h.pos, ?_, h.num, h.nodup, ?_⟩⟩
    · obtain ⟨ch, h1, h2, h3⟩ := h.rep
      have key : ∀ i, i < T.nodes.length → (T.newNode a b).nodes[i]? = T.nodes[i]? := by
        intro i hi; simp [Tab.newNode, List.getElem?_append_left hi]
      refine ⟨ch, fun k h' hk => (h1 k h' hk).congr fun i hi => ?_, ?_, h3⟩
      · exact key i ((h1 k h' hk).lt i hi).1
      · intro k hk i hi
        have := (h1 k _ (List.getElem?_eq_getElem hk)).lt i hi
        rw [kidsOf, key i this.1]; exact h2 k hk i hi
    · intro i
      have := h.kids i
      simp only [kidsOf, Tab.newNode, Spec.step] at this ⊢
      by_cases hi : i < T.nodes.length
      · rw [List.getElem?_append_left hi, List.getElem?_append_left (by omega)]; exact this
      · rw [List.getElem?_append_right (by omega), List.getElem?_append_right (by omega), hlen]
        cases i - s.kids.length <;> simp
    · intro i hi j hj e
      simp only [Spec.step] at hi hj e
      rw [List.getElem?_append_left (h.lt hi), List.getElem?_append_left (h.lt hj)] at e
      exact h.uniq i hi j hj e
  | insert i =>
    obtain ⟨l0, l1, l2, l3⟩ := hl
    obtain ⟨nd, hn⟩ : ∃ nd, T.nodes[i]? = some nd :=
      ⟨_, List.getElem?_eq_getElem (by omega)⟩
    obtain ⟨T', e, r, e1, e2, e3, e4⟩ := insert_spec hgrow h.rep h.pos hn l0 l2
    refine ⟨T', by simp only [Tab.step, hn, e], ⟨r.congrS ?_, e1, ?_, ?_, ?_, ?_⟩⟩
    · intro j; simp [Spec.step]; tauto
    · intro j; rw [e4, h.kids]; rfl
    · rw [e3, h.num]; rfl
    · exact List.nodup_cons.2 ⟨l2, h.nodup⟩
    · intro a ha b hb e
      clear * - ha hb e l3 h
      simp only [Spec.step, List.mem_cons] at ha hb e
      rcases ha with rfl | ha <;> rcases hb with rfl | hb
      · rfl
      · exact absurd e.symm (l3 b hb)
      · exact absurd e (l3 a ha)
      · exact h.uniq a ha b hb e
  | erase i =>
    have hlt := h.lt hl
    obtain ⟨nd, hn⟩ : ∃ nd, T.nodes[i]? = some nd :=
      ⟨_, List.getElem?_eq_getElem (by omega)⟩
    have hk : kidsOf T.nodes i = some (nd.c0, nd.c1) := kidsOf_some.2 ⟨nd, hn, rfl, rfl⟩
    obtain ⟨T', e, r, e1, e2, e3, e4⟩ := erase_spec h.rep hn hl (by
      intro j hj hj'
      rw [h.kids] at hj' hk
      exact h.uniq j hj i hl (hj'.trans hk.symm))
    refine ⟨T', by simp only [Tab.step, hn, e], ⟨r.congrS ?_, by rw [e1]; exact h.pos, ?_, ?_, ?_, ?_⟩⟩
    · intro j; simp [Spec.step]
    · intro j; rw [e4, h.kids]; rfl
    · have hf : s.stored.filter (· ≠ i) = s.stored.erase i := by
        rw [h.nodup.erase_eq_filter]
        apply List.filter_congr; intro x _; simp [bne, decide_not]; rfl
      rw [e3, h.num, Spec.step, hf, List.length_erase_of_mem hl]
    · exact h.nodup.filter _
    · intro a ha b hb e
      simp only [Spec.step, List.mem_filter] at ha hb e
      exact h.uniq a ha.1 b hb.1 e
  | setKids i a b =>
    refine ⟨_, rfl, ⟨?_, h.pos, ?_, h.num, h.nodup, ?_⟩⟩
    · obtain ⟨ch, h1, h2, h3⟩ := h.rep
      have key : ∀ j, j ≠ i → (T.setKids i a b).nodes[j]? = T.nodes[j]? := by
        intro j hj; simp [Tab.setKids, Ne.symm hj]
      have hne : ∀ k, k < T.hash.length → ∀ j ∈ ch k, j ≠ i := by
        rintro k hk j hj rfl; exact hl ((h3 j).2 ⟨k, hk, hj⟩)
      refine ⟨ch, fun k h' hk => (h1 k h' hk).congr fun j hj => ?_, ?_, h3⟩
      · exact key j (hne k (lt_of_get hk) j hj)
      · intro k hk j hj
        rw [kidsOf, key j (hne k hk j hj)]; exact h2 k hk j hj
    · intro j
      have := h.kids j
      simp only [kidsOf, Tab.setKids, Spec.step, List.getElem?_modify, List.getElem?_set] at this ⊢
      by_cases hj : i = j
      · subst hj
        by_cases hi : i < s.kids.length
        · rw [List.getElem?_eq_getElem (by omega : i < T.nodes.length)]; simp [hi]
        · rw [List.getElem?_eq_none (by omega : T.nodes.length ≤ i)]; simp [hi]
      · simpa [hj] using this
    · intro x hx y hy e
      simp only [Spec.step, List.getElem?_set] at e
      have hxi : i ≠ x := by rintro rfl; exact hl hx
      have hyi : i ≠ y := by rintro rfl; exact hl hy
      rw [if_neg hxi, if_neg hyi] at e
      exact h.uniq x hx y hy e
  | reserve k =>
    obtain ⟨T', e, r, e1, e2, e3, e4⟩ := reserve_spec h.rep hl
    refine ⟨T', e, ⟨r, by rw [e1]; exact hl, ?_, by rw [e3, h.num]; rfl, h.nodup, h.uniq⟩⟩
    intro j; rw [e4, h.kids]; rfl

theorem Inv.run {grow : Nat → Nat} (hgrow : ∀ n, 0 < n → 0 < grow n) : ∀ (os : List Op) {T : Tab}
    {s : Spec}, Inv T s → s.LegalAll os → ∃ T', T.run grow os = some T' ∧ Inv T' (s.run os) := by
  intro os
  induction os with
  | nil => intro T s h _; exact ⟨T, rfl, h⟩
  | cons o os ih =>
    intro T s h hl
    obtain ⟨T1, e1, h1⟩ := h.step hgrow o hl.1
    obtain ⟨T2, e2, h2⟩ := ih h1 hl.2
    exact ⟨T2, by simp only [Tab.run, e1, e2], h2⟩

theorem Inv.implements {T : Tab} {s : Spec} (h : Inv T s) : Implements T s := by
  refine ⟨h.num, fun a b => ?_⟩
  obtain ⟨x, e, h1, h2⟩ := find_spec h.rep h.pos a b
  refine ⟨x, e, fun hx => ?_, fun hx i hi => ?_⟩
  · rw [← h.kids]; exact h1 hx
  · rw [← h.kids]; exact h2 hx i hi

/-- C10: after any sequence of legal calls from the fresh storage, no call runs off a vector or a cyclic
chain, and the table implements the finite map. -/
theorem C10_refines (grow : Nat → Nat) (hgrow : ∀ n, 0 < n → 0 < grow n) (os : List Op)
    (hl : Spec.init.LegalAll os) :
    ∃ T, Tab.init.run grow os = some T ∧ Implements T (Spec.init.run os) := by
  obtain ⟨T, e, h⟩ := Inv.init.run hgrow os hl
  exact ⟨T, e, h.implements⟩

/-- Two nodes in the same bucket, then a rehash, then the removal of one and the change of its fanins. -/
def demoOps : List Op :=
  [.newNode ⟨1, false⟩ ⟨2, false⟩, .insert 1, .newNode ⟨1, true⟩ ⟨2, false⟩, .insert 2, .reserve 1,
   .erase 1, .setKids 1 ⟨3, false⟩ ⟨4, false⟩, .insert 1, .reserve 2]

theorem demo_legal : Spec.init.LegalAll demoOps := by
  simp [demoOps, Spec.LegalAll, Spec.Legal, Spec.step, Spec.init]

example : (Spec.init.run demoOps).stored = [1, 2] := by decide

/-- The restriction to legal calls is needed: in a release build, erasing a pair that is not stored
removes the last entry of its bucket. -/
theorem C10_erase_absent_removes_other :
    ∃ T T' : Tab, T.find ⟨1, false⟩ ⟨2, false⟩ = some 1 ∧ T.find ⟨3, false⟩ ⟨4, true⟩ = some 0 ∧
      T.erase ⟨3, false⟩ ⟨4, true⟩ = some T' ∧ T'.find ⟨1, false⟩ ⟨2, false⟩ = some 0 := by
  refine ⟨⟨[⟨⟨0, false⟩, ⟨0, false⟩, 0⟩, ⟨⟨1, false⟩, ⟨2, false⟩, 0⟩], [1], 1⟩, _, ?_, ?_, rfl, ?_⟩ <;>
    decide

open Verif.Aig in
/-- C10, connection with the network model: for every constructed network there is a legal sequence of
storage calls after which the concrete table answers every lookup as the network's `hashFind` does and
its counter is `num_gates()`. -/
theorem C10_network (grow : Nat → Nat) (hgrow : ∀ n, 0 < n → 0 < grow n) (N : Verif.Aig) (hN : Built N) :
    ∃ os T, Spec.init.LegalAll os ∧ Tab.init.run grow os = some T ∧ T.num = N.numGates ∧
      (∀ a b, T.find a b = some ((N.hashFind a b).getD 0)) := by
  suffices h : ∃ os, Spec.init.LegalAll os ∧ (Spec.init.run os).stored = N.table ∧
      (Spec.init.run os).kids = N.nodes.map (fun nd => (nd.c0, nd.c1)) by
    obtain ⟨os, hl, h1, h2⟩ := h
    obtain ⟨T, e, hi⟩ := C10_refines grow hgrow os hl
    refine ⟨os, T, hl, e, by rw [hi.num, h1]; rfl, fun a b => ?_⟩
    obtain ⟨x, ex, hx1, hx0⟩ := hi.find a b
    rw [ex, h1, h2] at *
    have kid : ∀ i : Nat, ((N.nodes.map (fun nd => (nd.c0, nd.c1)))[i]? = some (a, b)) ↔
        N.hasKids a b i = true := by
      intro i
      simp only [List.getElem?_map, hasKids]
      cases N.nodes[i]? <;> simp
    congr 1
    cases hf : N.hashFind a b with
    | none =>
      simp only [Option.getD_none]
      by_contra hx
      obtain ⟨m1, m2⟩ := hx1 hx
      have := List.find?_eq_none.1 hf x m1
      exact this ((kid x).1 m2)
    | some t =>
      have ht := List.find?_some hf
      have hm := List.mem_of_find?_eq_some hf
      simp only [Option.getD_some]
      have hx : x ≠ 0 := by
        intro hx
        exact hx0 hx t hm ((kid t).2 ht)
      obtain ⟨m1, m2⟩ := hx1 hx
      have g1 := hN.wf.isGate_of_table hm
      have g2 := hN.wf.isGate_of_table m1
      have k1 := (kid x).1 m2
      obtain ⟨nd1, n1, g1⟩ := g1
      obtain ⟨nd2, n2, g2⟩ := g2
      simp only [hasKids, n1, Bool.and_eq_true, beq_iff_eq] at ht
      simp only [hasKids, n2, Bool.and_eq_true, beq_iff_eq] at k1
      rw [ht.1, ht.2] at g1
      rw [k1.1, k1.2] at g2
      exact hN.wf.uniq x t a b g2 g1
  have snoc : ∀ os o, Spec.init.LegalAll os → (Spec.init.run os).Legal o →
      Spec.init.LegalAll (os ++ [o]) := by
    suffices h : ∀ (os : List Op) (s : Spec) o, s.LegalAll os → (s.run os).Legal o →
        s.LegalAll (os ++ [o]) from fun os o => h os _ o
    intro os
    induction os with
    | nil => intro s o _ h; exact ⟨h, trivial⟩
    | cons p os ih => intro s o h1 h2; exact ⟨h1.1, ih _ _ h1.2 h2⟩
  have runsnoc : ∀ os o, Spec.init.run (os ++ [o]) = (Spec.init.run os).step o := by
    intro os o; simp [Spec.run, List.foldl_append]
  induction hN with
  | empty => exact ⟨[], trivial, rfl, rfl⟩
  | @pi N hN ih =>
    obtain ⟨os, hl, h1, h2⟩ := ih
    refine ⟨os ++ [.newNode (Sig.ofData N.inputs.length) (Sig.ofData N.inputs.length)],
      snoc _ (.newNode _ _) hl trivial, by rw [runsnoc]; exact h1, ?_⟩
    rw [runsnoc]; simp [Spec.step, h2, createPi]
  | @ro N hN ih =>
    obtain ⟨os, hl, h1, h2⟩ := ih
    refine ⟨os ++ [.newNode (Sig.ofData N.inputs.length) (Sig.ofData N.inputs.length)],
      snoc _ (.newNode _ _) hl trivial, by rw [runsnoc]; exact h1, ?_⟩
    rw [runsnoc]; simp [Spec.step, h2, createRo]
  | @po N f hN hf ih =>
    obtain ⟨os, hl, h1, h2⟩ := ih
    refine ⟨os, hl, h1, ?_⟩
    rw [h2]
    apply List.ext_getElem?
    intro i
    simp only [createPo, List.getElem?_map, incFo_get]
    cases N.nodes[i]? with
    | none => rfl
    | some nd => simp; split <;> simp
  | @ri N f r hN hf ih =>
    obtain ⟨os, hl, h1, h2⟩ := ih
    refine ⟨os, hl, h1, ?_⟩
    rw [h2]
    apply List.ext_getElem?
    intro i
    simp only [createRi, List.getElem?_map, incFo_get]
    cases N.nodes[i]? with
    | none => rfl
    | some nd => simp; split <;> simp
  | @and N a b hN ha hb ih =>
    obtain ⟨os, hl, h1, h2⟩ := ih
    rcases createAnd_cases N a b with e | ⟨c, d, ho, h3, h4, h5, h6, e⟩
    · rw [e]; exact ⟨os, hl, h1, h2⟩
    rw [e]
    have hlen : (Spec.init.run os).kids.length = N.nodes.length := by rw [h2]; simp
    refine ⟨(os ++ [.newNode c d]) ++ [.insert N.nodes.length], snoc _ _ (snoc _ (.newNode _ _) hl trivial) ?_, ?_, ?_⟩
    · rw [runsnoc]
      refine ⟨?_, by simp [Spec.step, hlen], ?_, ?_⟩
      · have := hN.wf.pos; omega
      · simp only [Spec.step, h1]
        intro hm
        have := hN.wf.isGate_of_table hm
        obtain ⟨nd, n1, _⟩ := this
        have := lt_of_get n1; omega
      · intro j hj
        simp only [Spec.step, h1] at hj ⊢
        have := hN.wf.isGate_of_table hj
        obtain ⟨nd, n1, _⟩ := this
        have hjl := lt_of_get n1
        rw [List.getElem?_append_left (by omega), List.getElem?_append_right (by omega), hlen]
        simp only [h2, List.getElem?_map, n1]
        have := List.find?_eq_none.1 h6 j hj
        simp [hasKids, n1] at this
        simp
        exact this
    · rw [runsnoc, runsnoc]; simp [Spec.step, h1]; rfl
    · rw [runsnoc, runsnoc]
      simp only [Spec.step, h2]
      obtain ⟨ph, e'⟩ := addAnd_eq N c d
      rw [e']
      apply List.ext_getElem?
      intro i
      simp only [List.getElem?_map, incFo_get, pushAnd]
      by_cases hi : i < N.nodes.length
      · rw [List.getElem?_append_left (by simpa using hi), List.getElem?_append_left hi, List.getElem?_map]
        cases N.nodes[i]? with
        | none => rfl
        | some nd => simp; split <;> split <;> simp
      · rw [List.getElem?_append_right (by simpa using hi), List.getElem?_append_right (by omega)]
        simp only [List.length_map]
        cases i - N.nodes.length with
        | zero => simp; split <;> split <;> simp
        | succ k => simp

example : ∃ os T, Spec.init.LegalAll os ∧ Tab.init.run (fun n => 31415 * n / 10000 + 1) os = some T ∧
    T.num = 1 ∧ (∀ a b, T.find a b = some ((Verif.Aig.demo.hashFind a b).getD 0)) :=
  C10_network _ (fun _ _ => by omega) _ Verif.Aig.demo_built

end Verif.Strash
