import Verif.Strash.Basic
import Mathlib.Data.List.Nodup

set_option autoImplicit false

/-!
# Chains represent sets: helper lemmas for C10
-/

namespace Verif.Strash

/-- the chain starting at `h` visits exactly the list and ends -/
inductive Chain (nodes : List SNode) : Nat → List Nat → Prop
  | nil : Chain nodes 0 []
  | cons {i nd l} : i ≠ 0 → nodes[i]? = some nd → Chain nodes nd.next l → Chain nodes i (i :: l)

theorem lt_of_get {α} {l : List α} {i : Nat} {x : α} (h : l[i]? = some x) : i < l.length := by
  by_contra hc
  rw [List.getElem?_eq_none (by omega)] at h
  cases h

theorem Chain.lt {nodes h l} (c : Chain nodes h l) : ∀ i ∈ l, i < nodes.length ∧ i ≠ 0 := by
  induction c with
  | nil => simp
  | cons h0 hn _ ih =>
    intro i hi
    rcases List.mem_cons.1 hi with rfl | hi
    · exact ⟨lt_of_get hn, h0⟩
    · exact ih i hi

theorem Chain.det {nodes h l} (c : Chain nodes h l) : ∀ {l'}, Chain nodes h l' → l = l' := by
  induction c with
  | nil =>
    intro l' c'
    cases c' with
    | nil => rfl
    | cons h0 _ _ => exact absurd rfl h0
  | cons h0 hn _ ih =>
    intro l' c'
    cases c' with
    | nil => exact absurd rfl h0
    | cons h0' hn' c'' =>
      rw [hn] at hn'; cases hn'
      rw [ih c'']

theorem Chain.sub {nodes h l} (c : Chain nodes h l) : ∀ i ∈ l, ∃ l1 l2, l = l1 ++ i :: l2 ∧
    Chain nodes i (i :: l2) := by
  induction c with
  | nil => simp
  | @cons j nd l h0 hn c ih =>
    intro i hi
    rcases List.mem_cons.1 hi with rfl | hi
    · exact ⟨[], l, rfl, Chain.cons h0 hn c⟩
    · obtain ⟨l1, l2, e, c'⟩ := ih i hi
      exact ⟨j :: l1, l2, by rw [e]; rfl, c'⟩

theorem Chain.nodup {nodes h l} (c : Chain nodes h l) : l.Nodup := by
  induction c with
  | nil => simp
  | @cons j nd l h0 hn c ih =>
    refine List.nodup_cons.2 ⟨fun hj => ?_, ih⟩
    obtain ⟨l1, l2, e, c'⟩ := c.sub j hj
    have := (Chain.cons h0 hn c).det c'
    have h2 := congrArg List.length this
    rw [e] at h2
    simp at h2
    omega

theorem length_le_of_nodup {l : List Nat} {n : Nat} (hn : l.Nodup) (h : ∀ i ∈ l, i < n) :
    l.length ≤ n := by
  have := hn.length_le_of_subset (l₂ := List.range n) (fun i hi => List.mem_range.2 (h i hi))
  simpa using this

theorem Chain.length_le {nodes h l} (c : Chain nodes h l) : l.length ≤ nodes.length :=
  length_le_of_nodup c.nodup fun i hi => (c.lt i hi).1

@[simp] theorem setNext_length (nodes : List SNode) (i nx : Nat) :
    (setNext nodes i nx).length = nodes.length := by simp [setNext]

theorem setNext_get (nodes : List SNode) (i nx j : Nat) :
    (setNext nodes i nx)[j]? =
      (nodes[j]?).map fun nd => if i = j then { nd with next := nx } else nd := by
  rw [setNext, List.getElem?_modify]
  split <;> simp_all

theorem setNext_get_ne (nodes : List SNode) {i nx j : Nat} (h : i ≠ j) :
    (setNext nodes i nx)[j]? = nodes[j]? := by
  rw [setNext_get]; simp [h]

theorem setNext_get_eq {nodes : List SNode} {i nx : Nat} {nd : SNode} (h : nodes[i]? = some nd) :
    (setNext nodes i nx)[i]? = some { nd with next := nx } := by
  rw [setNext_get, h]; simp

/-- fanins stored for a node -/
def kidsOf (nodes : List SNode) (i : Nat) : Option (Sig × Sig) :=
  (nodes[i]?).map fun nd => (nd.c0, nd.c1)

@[simp] theorem kidsOf_setNext (nodes : List SNode) (i nx j : Nat) :
    kidsOf (setNext nodes i nx) j = kidsOf nodes j := by
  simp only [kidsOf, setNext_get]
  cases nodes[j]? with
  | none => rfl
  | some nd => simp; split <;> simp

theorem Chain.congr {nodes nodes' h l} (c : Chain nodes h l)
    (e : ∀ i ∈ l, nodes'[i]? = nodes[i]?) : Chain nodes' h l := by
  induction c with
  | nil => exact Chain.nil
  | @cons j nd l h0 hn c ih =>
    refine Chain.cons h0 ?_ (ih fun i hi => e i (List.mem_cons_of_mem _ hi))
    rw [e j (List.mem_cons_self ..), hn]

/-- the buckets `hash` over `nodes` hold exactly the indices in `S` -/
structure Rep (nodes : List SNode) (hash : List Nat) (S : Nat → Prop) : Prop where
  chains : ∃ ch : Nat → List Nat,
    (∀ k h, hash[k]? = some h → Chain nodes h (ch k)) ∧
    (∀ k, k < hash.length → ∀ i ∈ ch k, ∃ a b, kidsOf nodes i = some (a, b) ∧
      abcHash a b hash.length = k) ∧
    (∀ i, S i ↔ ∃ k, k < hash.length ∧ i ∈ ch k)

theorem abcHash_lt (a b : Sig) {n : Nat} (h : 0 < n) : abcHash a b n < n := Nat.mod_lt _ h

theorem Rep.replicate (nodes : List SNode) (n : Nat) :
    Rep nodes (List.replicate n 0) (fun _ => False) := by
  refine ⟨fun _ => [], ?_, by simp, by simp⟩
  intro k h hk
  rw [List.getElem?_replicate] at hk
  split at hk
  · cases hk; exact Chain.nil
  · cases hk

theorem Rep.congrS {nodes hash} {S S' : Nat → Prop} (r : Rep nodes hash S) (h : ∀ i, S' i ↔ S i) :
    Rep nodes hash S' := by
  have : S' = S := by funext i; exact propext (h i)
  rw [this]; exact r

theorem Rep.lt {nodes hash S} (r : Rep nodes hash S) {i : Nat} (h : S i) :
    i < nodes.length ∧ i ≠ 0 := by
  obtain ⟨ch, h1, h2, h3⟩ := r
  obtain ⟨k, hk, hi⟩ := (h3 i).1 h
  exact (h1 k _ (List.getElem?_eq_getElem hk)).lt i hi

/-- pushing a new index at the head of its bucket -/
theorem Rep.push {nodes hash S} (r : Rep nodes hash S) {i : Nat} {nd : SNode} (hn : nodes[i]? = some nd)
    (h0 : i ≠ 0) (hS : ¬ S i) {h : Nat}
    (hh : hash[abcHash nd.c0 nd.c1 hash.length]? = some h) :
    Rep (setNext nodes i h) (hash.set (abcHash nd.c0 nd.c1 hash.length) i) (fun j => S j ∨ j = i) := by
  obtain ⟨ch, h1, h2, h3⟩ := r
  generalize hk : abcHash nd.c0 nd.c1 hash.length = key at *
  have hlt : key < hash.length := lt_of_get hh
  have hni : ∀ k, k < hash.length → i ∉ ch k := fun k hk hi => hS ((h3 i).2 ⟨k, hk, hi⟩)
  refine ⟨fun k => if k = key then i :: ch k else ch k, ?_, ?_, ?_⟩
  · intro k h' hk'
    rw [List.getElem?_set] at hk'
    by_cases e : key = k
    · subst e
      simp only [if_true, hlt] at hk'
      cases hk'
      simp only [if_true]
      refine Chain.cons h0 (setNext_get_eq hn) ?_
      exact (h1 _ h hh).congr fun j hj => setNext_get_ne _ (fun e => hni _ hlt (e ▸ hj))
    · rw [if_neg e] at hk'
      simp only [if_neg (Ne.symm e)]
      exact (h1 k h' hk').congr fun j hj => setNext_get_ne _ (fun e => hni _ (lt_of_get hk') (e ▸ hj))
  · intro k hk' j hj
    simp only [List.length_set, kidsOf_setNext] at *
    split at hj
    · rename_i e
      subst e
      rcases List.mem_cons.1 hj with rfl | hj
      · exact ⟨nd.c0, nd.c1, by simp [kidsOf, hn], hk⟩
      · exact h2 _ hk' j hj
    · exact h2 _ hk' j hj
  · intro j
    simp only [List.length_set]
    constructor
    · rintro (hj | rfl)
      · obtain ⟨k, hk', hj⟩ := (h3 j).1 hj
        refine ⟨k, hk', ?_⟩
        split
        · exact List.mem_cons_of_mem _ hj
        · exact hj
      · exact ⟨key, hlt, by simp⟩
    · rintro ⟨k, hk', hj⟩
      split at hj
      · rcases List.mem_cons.1 hj with rfl | hj
        · exact Or.inr rfl
        · exact Or.inl ((h3 j).2 ⟨k, hk', hj⟩)
      · exact Or.inl ((h3 j).2 ⟨k, hk', hj⟩)

theorem walkFind_spec {nodes : List SNode} {a b : Sig} {h : Nat} {l : List Nat}
    (c : Chain nodes h l) : ∀ f, l.length < f → ∃ r, walkFind nodes a b f h = some r ∧
      (r ≠ 0 → r ∈ l ∧ kidsOf nodes r = some (a, b)) ∧
      (r = 0 → ∀ i ∈ l, kidsOf nodes i ≠ some (a, b)) := by
  induction c with
  | nil =>
    intro f hf
    cases f with
    | zero => omega
    | succ f => exact ⟨0, by simp [walkFind], by simp, by simp⟩
  | @cons j nd l h0 hn c ih =>
    intro f hf
    cases f with
    | zero => omega
    | succ f =>
      rw [walkFind, if_neg h0, hn]
      by_cases e : nd.c0 = a ∧ nd.c1 = b
      · refine ⟨j, by simp [e], fun _ => ⟨by simp, ?_⟩, fun h => absurd h h0⟩
        simp [kidsOf, hn, e]
      · obtain ⟨r, h1, h2, h3⟩ := ih f (by simp at hf; omega)
        refine ⟨r, by simp [e, h1], fun hr => ⟨List.mem_cons_of_mem _ (h2 hr).1, (h2 hr).2⟩, ?_⟩
        intro hr i hi
        rcases List.mem_cons.1 hi with rfl | hi
        · simp [kidsOf, hn]; tauto
        · exact h3 hr i hi

theorem find_spec {T : Tab} {S : Nat → Prop} (r : Rep T.nodes T.hash S) (hp : 0 < T.hash.length)
    (a b : Sig) : ∃ x, T.find a b = some x ∧
      (x ≠ 0 → S x ∧ kidsOf T.nodes x = some (a, b)) ∧
      (x = 0 → ∀ i, S i → kidsOf T.nodes i ≠ some (a, b)) := by
  obtain ⟨ch, h1, h2, h3⟩ := r
  have hlt := abcHash_lt a b hp
  have hg := List.getElem?_eq_getElem hlt
  have c := h1 _ _ hg
  obtain ⟨x, e, hx, h0⟩ := walkFind_spec (a := a) (b := b) c (T.nodes.length + 1)
    (by have := c.length_le; omega)
  refine ⟨x, by rw [Tab.find, hg]; exact e, fun h => ⟨(h3 x).2 ⟨_, hlt, (hx h).1⟩, (hx h).2⟩, ?_⟩
  intro h i hi hk
  obtain ⟨k, hk', hi'⟩ := (h3 i).1 hi
  obtain ⟨a', b', e1, e2⟩ := h2 k hk' i hi'
  rw [hk] at e1; cases e1
  rw [e2] at h0
  exact h0 h i hi' hk

theorem walkMove_spec {size : Nat} (hs : 0 < size) : ∀ (l : List Nat) (f : Nat) (nodes : List SNode)
    (nh : List Nat) (cur : Nat) (M : Nat → Prop), Chain nodes cur l → l.length < f →
    nh.length = size → Rep nodes nh M → (∀ i ∈ l, ¬ M i) →
    ∃ nodes' nh', walkMove size f nodes nh cur = some (nodes', nh') ∧ nh'.length = size ∧
      Rep nodes' nh' (fun i => M i ∨ i ∈ l) ∧ nodes'.length = nodes.length ∧
      (∀ i, kidsOf nodes' i = kidsOf nodes i) ∧ (∀ i, i ∉ l → nodes'[i]? = nodes[i]?) := by
  intro l
  induction l with
  | nil =>
    intro f nodes nh cur M c hf hl r hd
    cases c
    cases f with
    | zero => simp at hf
    | succ f =>
      exact ⟨nodes, nh, by simp [walkMove], hl, r.congrS (by simp), rfl, fun _ => rfl, fun _ _ => rfl⟩
  | cons j l ih =>
    intro f nodes nh cur M c hf hl r hd
    have hnd := c.nodup
    cases c with
    | @cons _ nd _ h0 hn c =>
    cases f with
    | zero => simp at hf
    | succ f =>
      have hlt := abcHash_lt nd.c0 nd.c1 hs
      obtain ⟨hd0, hg⟩ : ∃ x, nh[abcHash nd.c0 nd.c1 nh.length]? = some x :=
        ⟨_, List.getElem?_eq_getElem (by rw [hl]; exact hlt)⟩
      have r' := r.push hn h0 (hd _ (by simp)) hg
      rw [hl] at hg r'
      have hjl : j ∉ l := (List.nodup_cons.1 hnd).1
      have c' : Chain (setNext nodes j hd0) nd.next l :=
        c.congr fun i hi => setNext_get_ne _ (fun e => hjl (e ▸ hi))
      obtain ⟨n', nh', e, e1, e2, e3, e4, e5⟩ := ih f _ _ nd.next _ c' (by simp at hf; omega)
        (by rw [List.length_set]; exact hl) r' (by
          rintro i hi (h | h)
          · exact hd i (by simp [hi]) h
          · exact hjl (h ▸ hi))
      refine ⟨n', nh', ?_, e1, e2.congrS ?_, by rw [e3]; simp, ?_, ?_⟩
      · rw [walkMove, if_neg h0, hn]
        simp only [hg]
        exact e
      · intro i; simp only [List.mem_cons]; tauto
      · intro i; rw [e4]; simp
      · intro i hi
        simp only [List.mem_cons, not_or] at hi
        rw [e5 i hi.2, setNext_get_ne _ (Ne.symm hi.1)]

/-- the members of the first buckets -/
theorem moveAll_spec {size : Nat} (hs : 0 < size) (f : Nat) (ch : Nat → List Nat) :
    ∀ (hs' : List Nat) (off : Nat) (nodes : List SNode) (nh : List Nat) (M : Nat → Prop),
    (∀ k h, hs'[k]? = some h → Chain nodes h (ch (off + k)) ∧ (ch (off + k)).length < f) →
    (∀ k k', k < hs'.length → k' < hs'.length → k ≠ k' → ∀ i ∈ ch (off + k), i ∉ ch (off + k')) →
    nh.length = size → Rep nodes nh M → (∀ k, k < hs'.length → ∀ i ∈ ch (off + k), ¬ M i) →
    ∃ nodes' nh', moveAll size f hs' nodes nh = some (nodes', nh') ∧ nh'.length = size ∧
      Rep nodes' nh' (fun i => M i ∨ ∃ k, k < hs'.length ∧ i ∈ ch (off + k)) ∧
      nodes'.length = nodes.length ∧ (∀ i, kidsOf nodes' i = kidsOf nodes i) := by
  intro hs'
  induction hs' with
  | nil =>
    intro off nodes nh M _ _ hl r _
    exact ⟨nodes, nh, rfl, hl, r.congrS (by simp), rfl, fun _ => rfl⟩
  | cons h tl ih =>
    intro off nodes nh M hc hdis hl r hM
    have h0 := hc 0 h rfl
    obtain ⟨n1, nh1, e, e1, e2, e3, e4, e5⟩ := walkMove_spec hs (ch off) f nodes nh h M h0.1 h0.2 hl r
      (fun i hi => hM 0 (by simp) i hi)
    obtain ⟨n2, nh2, g, g1, g2, g3, g4⟩ := ih (off + 1) n1 nh1 _ (by
        intro k h' hk
        have := hc (k + 1) h' (by simpa using hk)
        rw [show off + (k + 1) = off + 1 + k by omega] at this
        refine ⟨this.1.congr fun i hi => e5 i ?_, this.2⟩
        have hkl := lt_of_get hk
        intro hi'
        have := hdis 0 (k + 1) (by simp) (by simp; omega) (by omega) i hi'
        rw [show off + (k + 1) = off + 1 + k by omega] at this
        exact this hi) (by
        intro k k' hk hk' hne i hi
        have := hdis (k + 1) (k' + 1) (by simp; omega) (by simp; omega) (by omega) i
        rw [show off + (k + 1) = off + 1 + k by omega,
          show off + (k' + 1) = off + 1 + k' by omega] at this
        exact this hi) e1 e2 (by
        intro k hk i hi
        have h1 := hM (k + 1) (by simp; omega) i
        have h2 := hdis (k + 1) 0 (by simp; omega) (by simp) (by omega) i
        rw [show off + (k + 1) = off + 1 + k by omega] at h1 h2
        rintro (h | h)
        · exact h1 hi h
        · exact h2 hi h)
    refine ⟨n2, nh2, ?_, g1, g2.congrS ?_, by rw [g3, e3], fun i => by rw [g4, e4]⟩
    · rw [moveAll, e]; exact g
    · intro i
      constructor
      · rintro (h | ⟨k, hk, hi⟩)
        · exact Or.inl (Or.inl h)
        · cases k with
          | zero => exact Or.inl (Or.inr hi)
          | succ k =>
            refine Or.inr ⟨k, by simp at hk; omega, ?_⟩
            rw [show off + 1 + k = off + (k + 1) by omega]; exact hi
      · rintro ((h | h) | ⟨k, hk, hi⟩)
        · exact Or.inl h
        · exact Or.inr ⟨0, by simp, h⟩
        · refine Or.inr ⟨k + 1, by simp; omega, ?_⟩
          rw [show off + (k + 1) = off + 1 + k by omega]; exact hi

theorem reserve_spec {T : Tab} {S : Nat → Prop} (r : Rep T.nodes T.hash S) {size : Nat} (hs : 0 < size) :
    ∃ T', T.reserve size = some T' ∧ Rep T'.nodes T'.hash S ∧ T'.hash.length = size ∧
      T'.nodes.length = T.nodes.length ∧ T'.num = T.num ∧
      (∀ i, kidsOf T'.nodes i = kidsOf T.nodes i) := by
  obtain ⟨ch, h1, h2, h3⟩ := r
  obtain ⟨n', nh', e, e1, e2, e3, e4⟩ := moveAll_spec hs (T.nodes.length + 1) ch T.hash 0 T.nodes
    (List.replicate size 0) (fun _ => False) (by
      intro k h hk
      simp only [Nat.zero_add]
      have := h1 k h hk
      exact ⟨this, by have := this.length_le; omega⟩) (by
      intro k k' hk hk' hne i hi hi'
      simp only [Nat.zero_add] at hi hi'
      obtain ⟨a, b, e1, e2⟩ := h2 k hk i hi
      obtain ⟨a', b', e1', e2'⟩ := h2 k' hk' i hi'
      rw [e1] at e1'; cases e1'
      exact hne (e2.symm.trans e2')) (by simp) (Rep.replicate _ _) (by simp)
  refine ⟨{ T with nodes := n', hash := nh' }, by rw [Tab.reserve, e], ?_, e1, e3, rfl, e4⟩
  exact e2.congrS fun i => by rw [h3]; simp

theorem push_spec {T : Tab} {S : Nat → Prop} (r : Rep T.nodes T.hash S) (hp : 0 < T.hash.length)
    {i : Nat} {nd : SNode} (hn : T.nodes[i]? = some nd) (h0 : i ≠ 0) (hS : ¬ S i) :
    ∃ T', T.push nd.c0 nd.c1 i = some T' ∧ Rep T'.nodes T'.hash (fun j => S j ∨ j = i) ∧
      T'.hash.length = T.hash.length ∧ T'.nodes.length = T.nodes.length ∧ T'.num = T.num + 1 ∧
      (∀ i, kidsOf T'.nodes i = kidsOf T.nodes i) := by
  obtain ⟨h, hg⟩ : ∃ x, T.hash[abcHash nd.c0 nd.c1 T.hash.length]? = some x :=
    ⟨_, List.getElem?_eq_getElem (abcHash_lt nd.c0 nd.c1 hp)⟩
  have e : T.push nd.c0 nd.c1 i = some ⟨setNext T.nodes i h,
    T.hash.set (abcHash nd.c0 nd.c1 T.hash.length) i, T.num + 1⟩ := by simp only [Tab.push, hg, hn]
  exact ⟨_, e, r.push hn h0 hS hg, by simp, by simp, rfl, by simp⟩

theorem kidsOf_some {nodes : List SNode} {i : Nat} {a b : Sig} :
    kidsOf nodes i = some (a, b) ↔ ∃ nd, nodes[i]? = some nd ∧ nd.c0 = a ∧ nd.c1 = b := by
  unfold kidsOf
  cases nodes[i]? <;> simp

theorem insert_spec {grow : Nat → Nat} (hgrow : ∀ s, 0 < s → 0 < grow s) {T : Tab} {S : Nat → Prop}
    (r : Rep T.nodes T.hash S) (hp : 0 < T.hash.length)
    {i : Nat} {nd : SNode} (hn : T.nodes[i]? = some nd) (h0 : i ≠ 0) (hS : ¬ S i) :
    ∃ T', T.insert grow nd.c0 nd.c1 i = some T' ∧ Rep T'.nodes T'.hash (fun j => S j ∨ j = i) ∧
      0 < T'.hash.length ∧ T'.nodes.length = T.nodes.length ∧ T'.num = T.num + 1 ∧
      (∀ i, kidsOf T'.nodes i = kidsOf T.nodes i) := by
  unfold Tab.insert
  split
  · obtain ⟨T1, e, r1, e1, e2, e3, e4⟩ := reserve_spec r (hgrow _ hp)
    rw [e]
    have hk : kidsOf T1.nodes i = some (nd.c0, nd.c1) := by
      rw [e4]; exact kidsOf_some.2 ⟨nd, hn, rfl, rfl⟩
    obtain ⟨nd1, hn1, a1, a2⟩ := kidsOf_some.1 hk
    obtain ⟨T2, g, g1, g2, g3, g4, g5⟩ := push_spec r1 (by rw [e1]; exact hgrow _ hp) hn1 h0 hS
    rw [a1, a2] at g
    exact ⟨T2, g, g1, by rw [g2, e1]; exact hgrow _ hp, by rw [g3, e2], by rw [g4, e3],
      fun i => by rw [g5, e4]⟩
  · obtain ⟨T2, g, g1, g2, g3, g4, g5⟩ := push_spec r hp hn h0 hS
    exact ⟨T2, g, g1, by rw [g2]; exact hp, g3, g4, g5⟩

/-- walking to the entry that is to be removed -/
theorem walkErase_spec {nodes : List SNode} {a b : Sig} {i : Nat} {nd : SNode}
    (hn : nodes[i]? = some nd) (h0 : nd.c0 = a) (h1 : nd.c1 = b) : ∀ (l1 l2 : List Nat) (f pre h : Nat),
    Chain nodes h (l1 ++ i :: l2) → l1.length < f →
    (∀ j ∈ l1, kidsOf nodes j ≠ some (a, b)) →
    walkErase nodes a b f pre h = some ((pre :: l1).getLast (by simp), i) := by
  intro l1
  induction l1 with
  | nil =>
    intro l2 f pre h c hf _
    cases f with
    | zero => simp at hf
    | succ f =>
      cases c
      rw [walkErase, hn]; simp [h0, h1]
  | cons j l1 ih =>
    intro l2 f pre h c hf hne
    cases f with
    | zero => simp at hf
    | succ f =>
      cases c with
      | @cons _ ndj _ hj0 hnj c =>
      have hnk : ¬ (ndj.c0 = a ∧ ndj.c1 = b) := fun e =>
        hne j (by simp) (kidsOf_some.2 ⟨ndj, hnj, e⟩)
      have hnx : ndj.next ≠ 0 := by
        intro e
        rw [e] at c
        cases l1 with
        | nil => cases c with | cons h _ _ => exact h rfl
        | cons x l => cases c with | cons h _ _ => exact h rfl
      rw [walkErase, hnj]
      simp only [hnk, hnx, or_self, if_false]
      rw [ih l2 f j ndj.next c (by simp at hf; omega) (fun k hk => hne k (by simp [hk]))]
      simp

theorem Chain.unlink {nodes : List SNode} {i : Nat} {nd : SNode} (hn : nodes[i]? = some nd) :
    ∀ (l1 : List Nat) (p : Nat) (l2 : List Nat) (h : Nat), Chain nodes h (l1 ++ p :: i :: l2) →
    Chain (setNext nodes p nd.next) h (l1 ++ p :: l2) := by
  intro l1
  induction l1 with
  | nil =>
    intro p l2 h c
    have hnd := c.nodup
    cases c with
    | @cons _ ndp _ hp0 hnp c =>
    generalize hx : ndp.next = x at c
    cases c with
    | cons hi0 hn' c =>
    rw [hn] at hn'; cases hn'
    refine Chain.cons hp0 (setNext_get_eq hnp) ?_
    refine c.congr fun j hj => setNext_get_ne _ ?_
    rintro rfl
    simp at hnd
    exact hnd.1.2 hj
  | cons q l1 ih =>
    intro p l2 h c
    have hnd := c.nodup
    cases c with
    | @cons _ ndq _ hq0 hnq c =>
    refine Chain.cons hq0 ?_ (ih p l2 _ c)
    rw [setNext_get_ne _ ?_]; exact hnq
    rintro rfl
    simp at hnd

theorem erase_spec {T : Tab} {S : Nat → Prop} (r : Rep T.nodes T.hash S)
    {i : Nat} {nd : SNode} (hn : T.nodes[i]? = some nd) (hS : S i)
    (hu : ∀ j, S j → kidsOf T.nodes j = some (nd.c0, nd.c1) → j = i) :
    ∃ T', T.erase nd.c0 nd.c1 = some T' ∧ Rep T'.nodes T'.hash (fun j => S j ∧ j ≠ i) ∧
      T'.hash.length = T.hash.length ∧ T'.nodes.length = T.nodes.length ∧ T'.num = T.num - 1 ∧
      (∀ i, kidsOf T'.nodes i = kidsOf T.nodes i) := by
  obtain ⟨ch, h1, h2, h3⟩ := r
  obtain ⟨key, hkl, hi⟩ := (h3 i).1 hS
  obtain ⟨a, b, e1, e2⟩ := h2 key hkl i hi
  have : some (a, b) = some (nd.c0, nd.c1) := by
    rw [← e1]; exact kidsOf_some.2 ⟨nd, hn, rfl, rfl⟩
  cases this
  have hg := List.getElem?_eq_getElem hkl
  generalize T.hash[key] = h at hg
  have c := h1 key h hg
  obtain ⟨l1, l2, hl, c'⟩ := c.sub i hi
  have hnd := c.nodup
  rw [hl] at c hnd
  have hne : ∀ j ∈ l1, kidsOf T.nodes j ≠ some (nd.c0, nd.c1) := by
    intro j hj hk
    have hji := hu j ((h3 j).2 ⟨key, hkl, by rw [hl]; simp [hj]⟩) hk
    subst hji
    exact (List.nodup_append.1 hnd).2.2 j hj j (by simp) rfl
  have hw := walkErase_spec hn rfl rfl l1 l2 (T.nodes.length + 1) h h c
    (by have := c.length_le; simp at this; omega) hne
  -- common facts about the other buckets
  have hother : ∀ k, k < T.hash.length → k ≠ key → ∀ j ∈ ch k, j ∉ ch key := by
    intro k hk hkk j hj hj'
    obtain ⟨a1, b1, x1, y1⟩ := h2 k hk j hj
    obtain ⟨a2, b2, x2, y2⟩ := h2 key hkl j hj'
    rw [x1] at x2; cases x2
    exact hkk (y1.symm.trans y2)
  have hmem : ∀ j, (S j ∧ j ≠ i) ↔ ∃ k, k < T.hash.length ∧
      j ∈ (if k = key then l1 ++ l2 else ch k) := by
    intro j
    rw [h3]
    constructor
    · rintro ⟨⟨k, hk, hj⟩, hji⟩
      refine ⟨k, hk, ?_⟩
      split
      · rename_i e; subst e
        rw [hl] at hj; simp at hj ⊢; tauto
      · exact hj
    · rintro ⟨k, hk, hj⟩
      split at hj
      · rename_i e; subst e
        refine ⟨⟨k, hk, ?_⟩, ?_⟩
        · rw [hl]; simp at hj ⊢; tauto
        · rintro rfl
          simp only [List.nodup_append, List.nodup_cons, List.mem_append] at hnd hj
          rcases hj with hj | hj
          · exact hnd.2.2 j hj j (by simp) rfl
          · exact hnd.2.1.1 hj
      · rename_i e
        refine ⟨⟨k, hk, hj⟩, ?_⟩
        rintro rfl
        exact hother k hk e j hj hi
  by_cases hcase : l1 = []
  · subst hcase
    simp only [List.nil_append] at c hl hmem
    have hhi : h = i := by cases c; rfl
    subst hhi
    refine ⟨{ T with hash := T.hash.set key nd.next, num := T.num - 1 }, ?_,
      ⟨fun k => if k = key then l2 else ch k, ?_, ?_, ?_⟩, by simp, rfl, rfl, fun _ => rfl⟩
    · simp only [Tab.erase, e2, hg, hw, hn]; simp
    · intro k h' hk
      dsimp only at hk ⊢
      rw [List.getElem?_set] at hk
      by_cases e : key = k
      · subst e
        simp only [if_true, hkl] at hk
        cases hk
        simp only [if_true]
        cases c with
        | cons _ hn' c => rw [hn] at hn'; cases hn'; exact c
      · rw [if_neg e] at hk
        rw [if_neg (Ne.symm e)]
        exact h1 k h' hk
    · intro k hk j hj
      simp only [List.length_set] at hk ⊢
      refine h2 k hk j ?_
      dsimp only at hj
      split at hj
      · rename_i e; subst e; rw [hl]; simp [hj]
      · exact hj
    · intro j
      simp only [List.length_set]
      exact hmem j
  · obtain ⟨l1', p, rfl⟩ : ∃ l p, l1 = l ++ [p] := ⟨l1.dropLast, l1.getLast hcase,
      (List.dropLast_append_getLast hcase).symm⟩
    have hpre : (h :: (l1' ++ [p])).getLast (by simp) = p := by
      simp
    rw [hpre] at hw
    have hih : i ≠ h := by
      rintro rfl
      have : i ∈ l1' ++ [p] := by
        cases l1' with
        | nil => cases c; simp
        | cons q l => cases c; simp
      exact (List.nodup_append.1 hnd).2.2 i this i (by simp) rfl
    have hpm : p ∈ ch key := by rw [hl]; simp
    have c2 : Chain T.nodes h (l1' ++ p :: i :: l2) := by simpa using c
    refine ⟨{ T with nodes := setNext T.nodes p nd.next, num := T.num - 1 }, ?_,
      ⟨fun k => if k = key then (l1' ++ [p]) ++ l2 else ch k, ?_, ?_, ?_⟩, rfl, by simp, rfl, by simp⟩
    · simp only [Tab.erase, e2, hg, hw, hn, if_neg hih]
    · intro k h' hk
      dsimp only at hk ⊢
      by_cases e : k = key
      · subst e
        rw [if_pos rfl]
        rw [hg] at hk; cases hk
        have := c2.unlink hn l1' p l2
        simpa using this
      · rw [if_neg e]
        refine (h1 k h' hk).congr fun j hj => setNext_get_ne _ ?_
        rintro rfl
        exact hother k (lt_of_get hk) e p hj hpm
    · intro k hk j hj
      simp only [kidsOf_setNext]
      refine h2 k hk j ?_
      dsimp only at hj
      split at hj
      · rename_i e; subst e; rw [hl]; simp at hj ⊢; tauto
      · exact hj
    · exact hmem

end Verif.Strash
