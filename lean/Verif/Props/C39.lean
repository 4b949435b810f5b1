import Mathlib.Logic.Relation
import Mathlib.Data.Finset.Card
import Mathlib.Data.Finset.Range
import Mathlib.Data.Finset.SDiff
import Verif.Choice.Basic
import Verif.Props.C40

set_option autoImplicit false

/-!
# C39: choices keep the network acyclic

Full statement: after any sequence of `set_choice` calls the combined relation (fanin or choice
alternative) has no cycle, and every class lists each of its members exactly once from its
representative.

* `C39_acyclic_partial`: acyclic after any sequence of calls on gates, mixed with any extension of
  the network; `C39_defined`: such calls return; `C39_exact`: a call with the smaller
  representative is refused only if it would close a cycle.
* `C39_gates`: whatever the second arguments are, inputs included, the relation is acyclic as far as it is followed from
  gates only; `C39_gates_defined`: such calls return.
* `C39_classes_partial`: the lists are right when each call adds a node that is in no class yet to a
  representative.
* `C39_violated_input`: with an input as representative a cycle is accepted, because inputs are
  skipped before the mark is looked at; `C39_violated_classes`: with a second argument that is not a
  representative the list of a class holds nodes with another representative.
-/

namespace Verif.Choice

open Relation

/-- Specification: `m` is a fanin of `n`, or the alternative that follows `n` in its class. -/
def Succ (C : Choice) (n m : Nat) : Prop :=
  (∃ a b, C.net.IsGate n a b ∧ (m = a.index ∨ m = b.index)) ∨ C.equivs[n]? = some (some m)

/-- Specification: no node depends on itself. -/
def Acyclic (C : Choice) : Prop := ∀ n, ¬ TransGen C.Succ n n

/-- Specification: the node is a gate. -/
def Gate (C : Choice) (n : Nat) : Prop := ∃ a b, C.net.IsGate n a b

/-- Specification: the class list starting at the given place. -/
inductive Lists (equivs : List (Option Nat)) : Option Nat → List Nat → Prop
  | nil : Lists equivs none []
  | cons {n : Nat} {e : Option Nat} {l : List Nat} : equivs[n]? = some e → Lists equivs e l →
      Lists equivs (some n) (n :: l)

/-- The choice networks covered: a constructed network with empty classes, extended by any
construction steps that keep the nodes there are and fit the arrays, and by calls of `set_choice` on
gates. -/
inductive Made : Choice → Prop
  | init {N : Aig} {size : Nat} : Aig.Built N → N.nodes.length ≤ size → Made (init N size)
  | grow {C : Choice} {N : Aig} : Made C → Aig.Built N → Aig.Ext C.net N →
      N.nodes.length ≤ C.equivs.length → Made { C with net := N }
  | set {C C' : Choice} {n r : Nat} {b : Bool} : Made C → C.Gate n → C.Gate r →
      C.setChoice n r = some (C', b) → Made C'

/-- As `Made`, with any node as second argument. -/
inductive Linked : Choice → Prop
  | init {N : Aig} {size : Nat} : Aig.Built N → N.nodes.length ≤ size → Linked (init N size)
  | grow {C : Choice} {N : Aig} : Linked C → Aig.Built N → Aig.Ext C.net N →
      N.nodes.length ≤ C.equivs.length → Linked { C with net := N }
  | set {C C' : Choice} {n r : Nat} {b : Bool} : Linked C → C.Gate n → r < C.net.nodes.length →
      C.setChoice n r = some (C', b) → Linked C'

/-- Specification: as `Succ`, followed from gates only. -/
def GSucc (C : Choice) (n m : Nat) : Prop := C.Gate n ∧ C.Succ n m

/-- Invariant. -/
structure Inv (C : Choice) : Prop where
  wf : Aig.WF C.net
  len : C.net.nodes.length ≤ C.equivs.length
  lenr : C.reprs.length = C.equivs.length
  gates : ∀ n m, C.equivs[n]? = some (some m) → n < C.net.nodes.length ∧ C.Gate m
  acyclic : ∀ n, ¬ TransGen C.GSucc n n

theorem Inv.gate_lt {C : Choice} (h : Inv C) {n : Nat} (g : C.Gate n) :
    n < C.net.nodes.length := by
  obtain ⟨a, b, g⟩ := g
  exact (h.wf.isGate_lt g).2.2.2

theorem Inv.gate_ci {C : Choice} (h : Inv C) {n : Nat} (g : C.Gate n) : C.net.isCi n = false := by
  obtain ⟨a, b, g⟩ := g
  exact g.not_ci h.wf

theorem Inv.succ_lt {C : Choice} (h : Inv C) {n m : Nat} (s : C.Succ n m) :
    m < C.net.nodes.length := by
  rcases s with ⟨a, b, g, hm⟩ | s
  · have := h.wf.isGate_lt g
    omega
  · exact h.gate_lt (h.gates n m s).2

theorem Inv.gate_of {C : Choice} (h : Inv C) {n : Nat} (hn : n < C.net.nodes.length) (hci : C.net.isCi n = false) :
    ∃ a b, C.net.IsGate n a b ∧ C.net.kids n = some (a, b) := by
  have h0 : n ≠ 0 := by
    rintro rfl
    obtain ⟨nd, hnd⟩ : ∃ nd, C.net.nodes[0]? = some nd := ⟨_, List.getElem?_eq_getElem hn⟩
    simp [Aig.isCi, hnd, (h.wf.node0 nd hnd).1] at hci
  rcases h.wf.and_iff hn with ⟨_, a, b, g, hk⟩ | ⟨hx, _⟩
  · exact ⟨a, b, g, hk⟩
  · simp only [Aig.isAnd, Bool.and_eq_false_iff, decide_eq_false_iff_not,
      Bool.not_eq_false'] at hx
    rcases hx with hx | hx
    · omega
    · rw [hci] at hx; cases hx

/-! ### The class list -/

theorem Lists.unique {equivs : List (Option Nat)} {o : Option Nat} {l l' : List Nat}
    (h : Lists equivs o l) (h' : Lists equivs o l') : l = l' := by
  induction h generalizing l' with
  | nil => cases h'; rfl
  | cons he _ ih =>
      cases h' with
      | cons he' h' =>
          rw [he] at he'
          obtain rfl := Option.some.inj he'
          rw [ih h']

theorem nodup_bound {l : List Nat} {k : Nat} (hn : l.Nodup) (hl : ∀ x ∈ l, x < k) :
    l.length ≤ k := by
  have h1 : l.toFinset ⊆ Finset.range k := fun x hx => Finset.mem_range.2 (hl x (List.mem_toFinset.1 hx))
  have h2 := Finset.card_le_card h1
  rwa [List.toFinset_card_of_nodup hn, Finset.card_range] at h2

theorem chain_total {C : Choice} (h : Inv C) : ∀ (fuel : Nat) (o : Option Nat) (seen : List Nat),
    (∀ n, o = some n → n < C.equivs.length) → seen.Nodup → (∀ x ∈ seen, x < C.equivs.length) →
    (∀ n, o = some n → seen = [] ∨ C.Gate n ∧ ∀ x ∈ seen, C.Gate x → TransGen C.GSucc x n) → C.equivs.length < seen.length + fuel →
    ∃ l, C.chain fuel o = some l ∧ Lists C.equivs o l
  | fuel, none, _, _, _, _, _, _ => ⟨[], by cases fuel <;> rfl, .nil⟩
  | 0, some n, seen, _, hnd, hs, _, hb => by
      have := nodup_bound hnd hs
      omega
  | fuel + 1, some n, seen, hn, hnd, hs, hr, hb => by
      have hn' := hn n rfl
      have he : C.equivs[n]? = some C.equivs[n] := List.getElem?_eq_getElem hn'
      have hnew : n ∉ seen := fun hc => by
        rcases hr n rfl with h0 | ⟨g, h0⟩
        · rw [h0] at hc; cases hc
        · exact h.acyclic n (h0 n hc g)
      obtain ⟨l, hl, hL⟩ := chain_total h fuel C.equivs[n] (n :: seen) (by
          intro m hm
          rw [hm] at he
          exact lt_of_lt_of_le (h.gate_lt (h.gates n m he).2) h.len)
        (List.nodup_cons.2 ⟨hnew, hnd⟩)
        (by
          intro x hx
          rcases List.mem_cons.1 hx with rfl | hx
          · exact hn'
          · exact hs x hx)
        (by
          intro m hm
          rw [hm] at he
          refine Or.inr ⟨(h.gates n m he).2, ?_⟩
          intro x hx gx
          rcases List.mem_cons.1 hx with rfl | hx
          · exact TransGen.single ⟨gx, Or.inr he⟩
          · rcases hr n rfl with h0 | ⟨g, h0⟩
            · rw [h0] at hx; cases hx
            · exact TransGen.tail (h0 x hx gx) ⟨g, Or.inr he⟩)
        (by simp only [List.length_cons]; omega)
      exact ⟨n :: l, by rw [chain, he]; dsimp only; rw [hl]; rfl, .cons he hL⟩

theorem chain_ok {C : Choice} (h : Inv C) {r : Nat} (hr : r < C.equivs.length) :
    ∃ l, C.chain (C.equivs.length + 1) (some r) = some l ∧ Lists C.equivs (some r) l :=
  chain_total h _ _ [] (by rintro n ⟨⟩; exact hr) List.nodup_nil (by simp) (by simp) (by simp)

theorem Lists.lt {C : Choice} (h : Inv C) : ∀ {o : Option Nat} {l : List Nat},
    Lists C.equivs o l → (∀ n, o = some n → n < C.net.nodes.length) → ∀ x ∈ l, x < C.net.nodes.length
  | _, _, .nil, _, x, hx => by simp at hx
  | _, _, .cons (n := n) (e := e) he hl, ho, x, hx => by
      rcases List.mem_cons.1 hx with rfl | hx
      · exact ho x rfl
      · refine hl.lt h ?_ x hx
        intro m hm
        rw [hm] at he
        exact h.gate_lt (h.gates n m he).2

theorem Lists.gates {C : Choice} (h : Inv C) : ∀ {o : Option Nat} {l : List Nat},
    Lists C.equivs o l → (∀ n, o = some n → C.Gate n) → ∀ x ∈ l, C.Gate x
  | _, _, .nil, _, x, hx => by simp at hx
  | _, _, .cons (n := n) (e := e) he hl, ho, x, hx => by
      rcases List.mem_cons.1 hx with rfl | hx
      · exact ho x rfl
      · refine hl.gates h ?_ x hx
        intro m hm
        rw [hm] at he
        exact (h.gates n m he).2

/-- Every gate of the list leads to its last member, which then is a gate as well and has no successor in the class. -/
theorem Lists.last {C : Choice} (h : Inv C) : ∀ {o : Option Nat} {l : List Nat} {t : Nat},
    Lists C.equivs o l → l.getLast? = some t →
    (∀ x ∈ l, C.Gate x → C.Gate t ∧ ReflTransGen C.GSucc x t) ∧ t ∈ l ∧ C.equivs[t]? = some none
  | _, _, t, .nil, ht => by simp at ht
  | _, _, t, .cons (n := n) (e := e) (l := l) he hl, ht => by
      cases hl with
      | nil =>
          simp only [List.getLast?_singleton, Option.some.injEq] at ht
          subst ht
          refine ⟨?_, by simp, he⟩
          intro x hx gx
          obtain rfl := List.mem_singleton.1 hx
          exact ⟨gx, ReflTransGen.refl⟩
      | cons he2 hl2 =>
          rename_i m e2 l2
          rw [List.getLast?_cons_cons] at ht
          obtain ⟨h1, h2, h3⟩ := Lists.last h (.cons he2 hl2) ht
          refine ⟨?_, List.mem_cons_of_mem _ h2, h3⟩
          intro x hx gx
          rcases List.mem_cons.1 hx with rfl | hx
          · obtain ⟨g1, g2⟩ := h1 m List.mem_cons_self (h.gates _ _ he).2
            exact ⟨g1, ReflTransGen.head ⟨gx, Or.inr he⟩ g2⟩
          · exact h1 x hx gx

/-! ### The traversal -/

/-- Number of nodes not yet visited. -/
def unseen (C : Choice) (V : List Nat) : Nat :=
  (Finset.range C.net.nodes.length \ V.toFinset).card

theorem unseen_mono {C : Choice} {V V' : List Nat} (h : V ⊆ V') : C.unseen V' ≤ C.unseen V := by
  apply Finset.card_le_card
  apply Finset.sdiff_subset_sdiff (Finset.Subset.refl _)
  intro x hx
  rw [List.mem_toFinset] at hx ⊢
  exact h hx

theorem unseen_cons {C : Choice} {V : List Nat} {n : Nat} (hn : n < C.net.nodes.length)
    (hV : n ∉ V) : C.unseen (n :: V) < C.unseen V := by
  apply Finset.card_lt_card
  rw [Finset.ssubset_iff_of_subset]
  · refine ⟨n, ?_, ?_⟩
    · simp [hn, hV]
    · simp
  · apply Finset.sdiff_subset_sdiff (Finset.Subset.refl _)
    intro x hx
    rw [List.mem_toFinset] at hx ⊢
    exact List.mem_cons_of_mem _ hx

/-- What one call of the traversal establishes. -/
def CallSpec (C : Choice) (marked : List Nat) (o : Option Nat) (V : List Nat) (b : Bool)
    (V' : List Nat) : Prop :=
  V ⊆ V' ∧
  (b = true → ∃ n, o = some n ∧ ∃ m ∈ marked, C.Gate m ∧ ReflTransGen C.GSucc n m) ∧
  (b = false → (∀ n, o = some n → C.net.isCi n = false → n ∈ V') ∧
    ∀ x ∈ V', x ∉ V → x ∉ marked ∧ ∀ y, C.GSucc x y → C.net.isCi y = true ∨ y ∈ V')

theorem checkRec_total {C : Choice} (h : Inv C) (marked : List Nat) :
    ∀ (fuel : Nat) (o : Option Nat) (V : List Nat), (∀ n, o = some n → n < C.net.nodes.length) →
      C.unseen V < fuel →
      ∃ b V', C.checkRec marked fuel o V = some (b, V') ∧ C.CallSpec marked o V b V' := by
  intro fuel
  induction fuel with
  | zero => intro o V _ hf; omega
  | succ fuel ih =>
      intro o V ho hf
      cases o with
      | none =>
          refine ⟨false, V, rfl, fun _ hx => hx, by simp, fun _ => ⟨by simp, ?_⟩⟩
          intro x hx hn; exact absurd hx hn
      | some n =>
          have hn := ho n rfl
          rw [checkRec, if_neg (by omega)]
          by_cases hci : C.net.isCi n = true
          · rw [if_pos hci]
            refine ⟨false, V, rfl, fun _ hx => hx, by simp, fun _ => ⟨?_, ?_⟩⟩
            · rintro m ⟨⟩ hm; rw [hci] at hm; cases hm
            · intro x hx hn; exact absurd hx hn
          rw [if_neg hci]
          by_cases hm : n ∈ marked
          · rw [if_pos hm]
            obtain ⟨a, b, g, -⟩ := h.gate_of hn (by simpa using hci)
            exact ⟨true, V, rfl, fun _ hx => hx, fun _ => ⟨n, rfl, n, hm, ⟨a, b, g⟩, ReflTransGen.refl⟩, by simp⟩
          rw [if_neg hm]
          by_cases hv : n ∈ V
          · rw [if_pos hv]
            refine ⟨false, V, rfl, fun _ hx => hx, by simp, fun _ => ⟨?_, ?_⟩⟩
            · rintro m ⟨⟩ _; exact hv
            · intro x hx hn; exact absurd hx hn
          rw [if_neg hv]
          obtain ⟨a, b, g, hk⟩ := h.gate_of hn (by simpa using hci)
          have gn : C.Gate n := ⟨a, b, g⟩
          obtain ⟨l1, l2, l3, l4⟩ := h.wf.isGate_lt g
          have hne : n < C.equivs.length := lt_of_lt_of_le hn h.len
          have he : C.equivs[n]? = some C.equivs[n] := List.getElem?_eq_getElem hne
          rw [hk, he]
          dsimp only
          have sa : C.GSucc n a.index := ⟨gn, Or.inl ⟨a, b, g, Or.inl rfl⟩⟩
          have sb : C.GSucc n b.index := ⟨gn, Or.inl ⟨a, b, g, Or.inr rfl⟩⟩
          have hsucc : ∀ y, C.GSucc n y → y = a.index ∨ y = b.index ∨ C.equivs[n]? = some (some y) := by
            rintro y ⟨-, ⟨a', b', g', hy⟩ | hy⟩
            · obtain ⟨rfl, rfl⟩ := g.same g'
              rcases hy with hy | hy
              · exact Or.inl hy
              · exact Or.inr (Or.inl hy)
            · exact Or.inr (Or.inr hy)
          have hu0 := unseen_cons hn hv
          obtain ⟨b1, V1, e1, sub1, t1, f1⟩ := ih (some a.index) (n :: V)
            (by rintro m ⟨⟩; omega) (by omega)
          rw [e1, Option.bind_some]
          have subV1 : V ⊆ V1 := fun x hx => sub1 (List.mem_cons_of_mem _ hx)
          cases b1 with
          | true =>
              refine ⟨true, V1, by simp, subV1, fun _ => ?_, by simp⟩
              obtain ⟨m, hm', k, hk', gk, hr⟩ := t1 rfl
              obtain rfl := Option.some.inj hm'
              exact ⟨n, rfl, k, hk', gk, ReflTransGen.head sa hr⟩
          | false =>
              obtain ⟨f1a, f1b⟩ := f1 rfl
              have hu1 := unseen_mono (C := C) sub1
              obtain ⟨b2, V2, e2, sub2, t2, f2⟩ := ih (some b.index) V1
                (by rintro m ⟨⟩; omega) (by omega)
              simp only [Bool.false_eq_true, if_false, e2, Option.bind_some]
              have hu2 := unseen_mono (C := C) sub2
              cases b2 with
              | true =>
                  refine ⟨true, V2, by simp, fun x hx => sub2 (subV1 hx), fun _ => ?_, by simp⟩
                  obtain ⟨m, hm', k, hk', gk, hr⟩ := t2 rfl
                  obtain rfl := Option.some.inj hm'
                  exact ⟨n, rfl, k, hk', gk, ReflTransGen.head sb hr⟩
              | false =>
                  obtain ⟨f2a, f2b⟩ := f2 rfl
                  obtain ⟨b3, V3, e3, sub3, t3, f3⟩ := ih C.equivs[n] V2 (by
                      intro m hm'
                      rw [hm'] at he
                      exact h.gate_lt (h.gates n m he).2) (by omega)
                  simp only [Bool.false_eq_true, if_false]
                  refine ⟨b3, V3, e3, fun x hx => sub3 (sub2 (subV1 hx)), ?_, ?_⟩
                  · intro hb
                    obtain ⟨m, hm', k, hk', gk, hr⟩ := t3 hb
                    rw [hm'] at he
                    exact ⟨n, rfl, k, hk', gk, ReflTransGen.head ⟨gn, Or.inr he⟩ hr⟩
                  · intro hb
                    obtain ⟨f3a, f3b⟩ := f3 hb
                    have hn3 : n ∈ V3 := sub3 (sub2 (sub1 List.mem_cons_self))
                    refine ⟨by rintro m ⟨⟩ _; exact hn3, ?_⟩
                    intro x hx hxV
                    by_cases hx2 : x ∈ V2
                    · by_cases hx1 : x ∈ V1
                      · by_cases hxn : x = n
                        · subst hxn
                          refine ⟨hm, ?_⟩
                          intro y hy
                          by_cases hyc : C.net.isCi y = true
                          · exact Or.inl hyc
                          have hyc' : C.net.isCi y = false := by simpa using hyc
                          right
                          rcases hsucc y hy with rfl | rfl | hy'
                          · exact sub3 (sub2 (f1a _ rfl hyc'))
                          · exact sub3 (f2a _ rfl hyc')
                          · rw [he] at hy'
                            exact f3a y (Option.some.inj hy') hyc'
                        · obtain ⟨g1, g2⟩ := f1b x hx1 (by simp [hxn, hxV])
                          exact ⟨g1, fun y hy => (g2 y hy).imp_right fun hy' => sub3 (sub2 hy')⟩
                      · obtain ⟨g1, g2⟩ := f2b x hx2 hx1
                        exact ⟨g1, fun y hy => (g2 y hy).imp_right fun hy' => sub3 hy'⟩
                    · exact f3b x hx hx2

/-- The whole check: it answers, and answers `true` exactly if some marked gate can be reached. -/
theorem check_spec {C : Choice} (h : Inv C) {marked : List Nat} {n : Nat} (g : C.Gate n) :
    ∃ b V, C.checkRec marked (C.net.nodes.length + 1) (some n) [] = some (b, V) ∧
      (b = true ↔ ∃ m ∈ marked, C.Gate m ∧ ReflTransGen C.GSucc n m) := by
  have hu : C.unseen [] < C.net.nodes.length + 1 := by
    simp [unseen]
  obtain ⟨b, V, e, -, ht, hf⟩ := checkRec_total h marked _ (some n) []
    (by rintro m ⟨⟩; exact h.gate_lt g) hu
  refine ⟨b, V, e, ?_, ?_⟩
  · intro hb
    obtain ⟨m, hm', k, hk, hr⟩ := ht hb
    obtain rfl := Option.some.inj hm'
    exact ⟨k, hk, hr⟩
  · rintro ⟨m, hmm, gm, hr⟩
    by_contra hb
    obtain ⟨h1, h2⟩ := hf (by simpa using hb)
    have hall : ∀ y, ReflTransGen C.GSucc n y → C.net.isCi y = true ∨ y ∈ V := by
      intro y hy
      induction hy with
      | refl => exact Or.inr (h1 n rfl (h.gate_ci g))
      | tail _ hs ih =>
          rcases ih with ih | ih
          · have := h.gate_ci hs.1
            rw [ih] at this; cases this
          · exact (h2 _ ih (by simp)).2 _ hs
    rcases hall m hr with hc | hv
    · rw [h.gate_ci gm] at hc; cases hc
    · exact (h2 m hv (by simp)).1 hmm

/-! ### One call -/

theorem trans_add {R R' : Nat → Nat → Prop} {t n : Nat}
    (hR : ∀ x y, R' x y → R x y ∨ (x = t ∧ y = n)) {x y : Nat} (h : TransGen R' x y) :
    TransGen R x y ∨ (ReflTransGen R x t ∧ ReflTransGen R n y) := by
  induction h with
  | single hs =>
      rcases hR _ _ hs with h | ⟨rfl, rfl⟩
      · exact Or.inl (TransGen.single h)
      · exact Or.inr ⟨ReflTransGen.refl, ReflTransGen.refl⟩
  | tail _ hs ih =>
      rcases hR _ _ hs with h | ⟨rfl, rfl⟩
      · rcases ih with ih | ⟨i1, i2⟩
        · exact Or.inl (TransGen.tail ih h)
        · exact Or.inr ⟨i1, ReflTransGen.tail i2 h⟩
      · rcases ih with ih | ⟨i1, i2⟩
        · exact Or.inr ⟨ih.to_reflTransGen, ReflTransGen.refl⟩
        · exact Or.inr ⟨i1, ReflTransGen.refl⟩

/-- What a call of `set_choice` does. -/
theorem setChoice_spec {C : Choice} (h : Inv C) {n r : Nat} (gn : C.Gate n) (hr : r < C.net.nodes.length) :
    ∃ C' b l t, C.setChoice n r = some (C', b) ∧ Lists C.equivs (some r) l ∧ l.getLast? = some t ∧
      (b = true ↔ r < n ∧ ¬ (C.Gate t ∧ ReflTransGen C.GSucc n t)) ∧ (b = false → C' = C) ∧
      (b = true → C' = { C with reprs := C.reprs.set n r, equivs := C.equivs.set t (some n) }) := by
  have hn := h.gate_lt gn
  have hlen := h.len
  have hlenr := h.lenr
  obtain ⟨l, hl, hL⟩ := chain_ok h (r := r) (by omega)
  obtain ⟨t, ht⟩ : ∃ t, l.getLast? = some t := by
    cases hL with
    | cons _ _ => exact ⟨_, List.getLast?_eq_some_getLast (by simp)⟩
  by_cases hrn : r ≥ n
  · exact ⟨C, false, l, t, by rw [setChoice, if_pos hrn], hL, ht, by simp; omega, by simp, by simp⟩
  obtain ⟨b, V, e, hb⟩ := check_spec h (marked := l) gn
  obtain ⟨hlast, htl, hte⟩ := hL.last h ht
  have hiff : b = true ↔ C.Gate t ∧ ReflTransGen C.GSucc n t := by
    rw [hb]
    constructor
    · rintro ⟨m, hm, gm, hr⟩; exact ⟨(hlast m hm gm).1, hr.trans (hlast m hm gm).2⟩
    · rintro ⟨gt, hr⟩; exact ⟨t, htl, gt, hr⟩
  cases b with
  | true =>
      refine ⟨C, false, l, t, by rw [setChoice, if_neg hrn, hl]; dsimp only; rw [e], hL, ht, ?_,
        by simp, by simp⟩
      have := hiff.1 rfl
      simp [this]
  | false =>
      refine ⟨_, true, l, t, ?_, hL, ht, ?_, by simp, fun _ => rfl⟩
      · rw [setChoice, if_neg hrn, hl]; dsimp only; rw [e]; dsimp only; rw [ht]; dsimp only
        rw [if_pos (by omega)]
      · simp only [true_iff]
        refine ⟨by omega, fun hc => ?_⟩
        have := hiff.2 hc; cases this

/-- the links after a call -/
theorem set_link {C : Choice} {n r t x y : Nat}
    (hxy : (Choice.mk C.net (C.equivs.set t (some n)) (C.reprs.set n r)).equivs[x]? = some (some y)) :
    (x = t ∧ y = n) ∨ C.equivs[x]? = some (some y) := by
  simp only [List.getElem?_set] at hxy
  split at hxy
  · next htx =>
    split at hxy
    · exact Or.inl ⟨htx.symm, by simpa using hxy.symm⟩
    · cases hxy
  · exact Or.inr hxy

theorem setChoice_inv {C C' : Choice} {n r : Nat} {b : Bool} (h : Inv C) (gn : C.Gate n)
    (hr : r < C.net.nodes.length) (hs : C.setChoice n r = some (C', b)) : Inv C' := by
  obtain ⟨C2, b2, l, t, e, hL, ht, hb, hf, htr⟩ := setChoice_spec h gn hr
  rw [hs] at e
  obtain ⟨rfl, rfl⟩ := Prod.mk.inj (Option.some.inj e)
  cases b with
  | false => rw [hf rfl]; exact h
  | true =>
      obtain ⟨-, hnt⟩ := hb.1 rfl
      obtain ⟨-, htl, hte⟩ := hL.last h ht
      have htl' : t < C.net.nodes.length := hL.lt h (by rintro m ⟨⟩; exact hr) t htl
      rw [htr rfl]
      refine ⟨h.wf, by simpa using h.len, by simpa using h.lenr, ?_, ?_⟩
      · intro x y hxy
        rcases set_link hxy with ⟨rfl, rfl⟩ | hxy
        · exact ⟨htl', gn⟩
        · exact h.gates x y hxy
      · intro x hx
        by_cases gt : C.Gate t
        · have hR : ∀ x y, GSucc { C with reprs := C.reprs.set n r, equivs := C.equivs.set t (some n) } x y →
              C.GSucc x y ∨ (x = t ∧ y = n) := by
            rintro x y ⟨gx, hxy | hxy⟩
            · exact Or.inl ⟨gx, Or.inl hxy⟩
            · rcases set_link hxy with h1 | h1
              · exact Or.inr h1
              · exact Or.inl ⟨gx, Or.inr h1⟩
          rcases trans_add hR hx with h1 | ⟨h1, h2⟩
          · exact h.acyclic x h1
          · exact hnt ⟨gt, h2.trans h1⟩
        · refine h.acyclic x (TransGen.mono (p := C.GSucc) ?_ x x hx)
          rintro x y ⟨gx, hxy | hxy⟩
          · exact ⟨gx, Or.inl hxy⟩
          · rcases set_link hxy with ⟨rfl, rfl⟩ | h1
            · exact absurd gx gt
            · exact ⟨gx, Or.inr h1⟩

theorem grow_gate {N N' : Aig} (h : Aig.WF N) (he : Aig.Ext N N') {n : Nat} {a b : Sig}
    (g : N'.IsGate n a b) (hn : n < N.nodes.length) : N.IsGate n a b := by
  obtain ⟨nd, hnd⟩ : ∃ nd, N.nodes[n]? = some nd := ⟨_, List.getElem?_eq_getElem hn⟩
  have h0 := g.1
  have hi : n ∉ N.inputs := fun hc => g.2.1 (he.inputs.subset hc)
  have g2 := he.isGate (h.isGate_of h0 hi hnd)
  obtain ⟨rfl, rfl⟩ := g.same g2
  exact h.isGate_of h0 hi hnd

theorem grow_inv {C : Choice} {N : Aig} (h : Inv C) (hN : Aig.WF N) (he : Aig.Ext C.net N)
    (hl : N.nodes.length ≤ C.equivs.length) : Inv { C with net := N } := by
  refine ⟨hN, hl, h.lenr, ?_, ?_⟩
  · intro n m hnm
    obtain ⟨hn, c, d, g'⟩ := h.gates n m hnm
    exact ⟨Nat.lt_of_lt_of_le hn he.len, c, d, he.isGate g'⟩
  · have hold : ∀ x y, x < C.net.nodes.length → GSucc { C with net := N } x y → C.GSucc x y := by
      rintro x y hx ⟨⟨a, b, g⟩, ⟨a', b', g', hy⟩ | hy⟩
      · exact ⟨⟨a, b, grow_gate h.wf he g hx⟩, Or.inl ⟨a', b', grow_gate h.wf he g' hx, hy⟩⟩
      · exact ⟨⟨a, b, grow_gate h.wf he g hx⟩, Or.inr hy⟩
    have hnew : ∀ x y, C.net.nodes.length ≤ x → GSucc { C with net := N } x y → y < x := by
      rintro x y hx ⟨_, ⟨a, b, g, hy⟩ | hy⟩
      · have := hN.isGate_lt g; omega
      · have := (h.gates x y hy).1; omega
    intro x hx
    by_cases hxl : x < C.net.nodes.length
    · have : ∀ y, TransGen (GSucc { C with net := N }) x y → TransGen C.GSucc x y ∧ y < C.net.nodes.length := by
        intro y hy
        induction hy with
        | single hs =>
            have := hold _ _ hxl hs
            exact ⟨TransGen.single this, h.succ_lt this.2⟩
        | tail _ hs ih =>
            have := hold _ _ ih.2 hs
            exact ⟨TransGen.tail ih.1 this, h.succ_lt this.2⟩
      exact h.acyclic x (this x hx).1
    · have : ∀ y, TransGen (GSucc { C with net := N }) x y → y < x := by
        intro y hy
        induction hy with
        | single hs => exact hnew _ _ (by omega) hs
        | tail _ hs ih =>
            rename_i u w hxu
            by_cases hu : u < C.net.nodes.length
            · have := h.succ_lt (hold _ _ hu hs).2; omega
            · have := hnew _ _ (by omega) hs; omega
      exact absurd (this x hx) (by omega)

theorem init_inv {N : Aig} {size : Nat} (h : Aig.WF N) (hs : N.nodes.length ≤ size) :
    Inv (init N size) := by
  have hno : ∀ n m : Nat, (init N size).equivs[n]? ≠ some (some m) := by
    intro n m hc
    simp [init, List.getElem?_replicate] at hc
  refine ⟨h, by simpa [init] using hs, by simp [init], fun n m hc => absurd hc (hno n m), ?_⟩
  intro x hx
  have : ∀ y, TransGen (init N size).GSucc x y → y < x := by
    have hstep : ∀ u w, (init N size).GSucc u w → w < u := by
      rintro u w ⟨_, ⟨a, b, g, hy⟩ | hy⟩
      · have := h.isGate_lt g; omega
      · exact absurd hy (hno u w)
    intro y hy
    induction hy with
    | single hs => exact hstep _ _ hs
    | tail _ hs ih => have := hstep _ _ hs; omega
  exact absurd (this x hx) (by omega)

theorem Linked.inv {C : Choice} (h : Linked C) : Inv C := by
  induction h with
  | init hN hs => exact init_inv hN.wf hs
  | grow _ hN he hl ih => exact grow_inv ih hN.wf he hl
  | set _ gn gr hs ih => exact setChoice_inv ih gn gr hs

theorem Made.inv {C : Choice} (h : Made C) : Inv C := by
  induction h with
  | init hN hs => exact init_inv hN.wf hs
  | grow _ hN he hl ih => exact grow_inv ih hN.wf he hl
  | set _ gn gr hs ih => exact setChoice_inv ih gn (ih.gate_lt gr) hs

theorem Made.link {C : Choice} (h : Made C) : ∀ n m, C.equivs[n]? = some (some m) → C.Gate n := by
  induction h with
  | init hN hs => intro n m hc; simp [Choice.init, List.getElem?_replicate] at hc
  | grow _ _ he _ ih =>
      intro n m hnm
      obtain ⟨a, b, g⟩ := ih n m hnm
      exact ⟨a, b, he.isGate g⟩
  | @set C C' n r b hC gn gr hs ih =>
      obtain ⟨C2, b2, l, t, e, hL, ht, hb, hf, htr⟩ := setChoice_spec hC.inv gn (hC.inv.gate_lt gr)
      rw [hs] at e
      obtain ⟨rfl, rfl⟩ := Prod.mk.inj (Option.some.inj e)
      cases b with
      | false => rw [hf rfl]; exact ih
      | true =>
          rw [htr rfl]
          intro x y hxy
          rcases set_link hxy with ⟨rfl, -⟩ | hxy
          · exact hL.gates hC.inv (by rintro m ⟨⟩; exact gr) x (List.mem_of_getLast? ht)
          · exact ih x y hxy

theorem Made.succ {C : Choice} (h : Made C) : C.GSucc = C.Succ := by
  funext n m
  apply propext
  refine ⟨fun h => h.2, fun hs => ⟨?_, hs⟩⟩
  rcases hs with ⟨a, b, g, _⟩ | hs
  · exact ⟨a, b, g⟩
  · exact h.link n m hs

/-- C39, first part, for calls on gates: no node depends on itself through fanins and
alternatives. -/
theorem C39_acyclic_partial {C : Choice} (h : Made C) : C.Acyclic := by
  intro n hn
  rw [← h.succ] at hn
  exact h.inv.acyclic n hn

/-- Whatever the second arguments of the calls are: no gate depends on itself through the fanins and alternatives of
gates. -/
theorem C39_gates {C : Choice} (h : Linked C) : ∀ n, ¬ TransGen C.GSucc n n := h.inv.acyclic

/-- Such calls return. -/
theorem C39_gates_defined {C : Choice} (h : Linked C) {n r : Nat} (gn : C.Gate n) (hr : r < C.net.nodes.length) :
    ∃ C' b, C.setChoice n r = some (C', b) := by
  obtain ⟨C', b, _, _, e, _⟩ := setChoice_spec h.inv gn hr
  exact ⟨C', b, e⟩

/-- Calls on gates return: neither loop of `set_choice` runs forever and no array is overrun. -/
theorem C39_defined {C : Choice} (h : Made C) {n r : Nat} (gn : C.Gate n) (gr : C.Gate r) :
    ∃ C' b, C.setChoice n r = some (C', b) := by
  obtain ⟨C', b, _, _, e, _⟩ := setChoice_spec h.inv gn (h.inv.gate_lt gr)
  exact ⟨C', b, e⟩

/-- A call on gates succeeds exactly if the representative is the smaller one and the new
alternative does not depend on the end of the list it is appended to. -/
theorem C39_exact {C C' : Choice} (h : Made C) {n r : Nat} {b : Bool} (gn : C.Gate n)
    (gr : C.Gate r) (hs : C.setChoice n r = some (C', b)) :
    ∃ l t, Lists C.equivs (some r) l ∧ l.getLast? = some t ∧
      (b = true ↔ r < n ∧ ¬ ReflTransGen C.Succ n t) := by
  obtain ⟨C2, b2, l, t, e, hL, ht, hb, -, -⟩ := setChoice_spec h.inv gn (h.inv.gate_lt gr)
  rw [hs] at e
  obtain ⟨rfl, rfl⟩ := Prod.mk.inj (Option.some.inj e)
  have gt := hL.gates h.inv (by rintro m ⟨⟩; exact gr) t (List.mem_of_getLast? ht)
  rw [h.succ] at hb
  exact ⟨l, t, hL, ht, by simpa only [gt, true_and] using hb⟩

/-! ### The classes -/

/-- As `Made`, where in addition every call adds a node that is in no class, neither as
representative nor as alternative, to a representative. -/
inductive MadeClasses : Choice → Prop
  | init {N : Aig} {size : Nat} : Aig.Built N → N.nodes.length ≤ size → MadeClasses (init N size)
  | grow {C : Choice} {N : Aig} : MadeClasses C → Aig.Built N → Aig.Ext C.net N →
      N.nodes.length ≤ C.equivs.length → MadeClasses { C with net := N }
  | set {C C' : Choice} {n r : Nat} {b : Bool} : MadeClasses C → C.Gate n → C.Gate r →
      C.reprs[r]? = some r → C.reprs[n]? = some n → C.equivs[n]? = some none →
      C.setChoice n r = some (C', b) → MadeClasses C'

theorem MadeClasses.made {C : Choice} (h : MadeClasses C) : Made C := by
  induction h with
  | init hN hs => exact .init hN hs
  | grow _ hN he hl ih => exact .grow ih hN he hl
  | set _ gn gr _ _ _ hs ih => exact .set ih gn gr hs

/-- Specification: the list from every representative holds exactly the nodes it represents, each
once, itself first. -/
def ClassesOk (C : Choice) : Prop :=
  ∀ r, C.reprs[r]? = some r → ∃ l, Lists C.equivs (some r) (r :: l) ∧ (r :: l).Nodup ∧
    ∀ m, m ∈ r :: l ↔ C.reprs[m]? = some r

theorem Lists.keep {equivs : List (Option Nat)} {t : Nat} {x : Option Nat} :
    ∀ {o : Option Nat} {l : List Nat}, Lists equivs o l → t ∉ l → Lists (equivs.set t x) o l
  | _, _, .nil, _ => .nil
  | _, _, .cons (n := n) he hl, ht => by
      simp only [List.mem_cons, not_or] at ht
      refine .cons ?_ (hl.keep ht.2)
      rw [List.getElem?_set, if_neg ht.1]; exact he

theorem Lists.append {equivs : List (Option Nat)} {t n : Nat} (hn : equivs[n]? = some none)
    (hnt : n ≠ t) :
    ∀ {o : Option Nat} {l : List Nat}, Lists equivs o l → l.getLast? = some t → l.Nodup →
      Lists (equivs.set t (some n)) o (l ++ [n])
  | _, _, .nil, ht, _ => by simp at ht
  | _, _, .cons (n := m) (e := e) (l := l) he hl, ht, hd => by
      have hlast : Lists (equivs.set t (some n)) (some n) [n] := by
        refine .cons ?_ .nil
        rw [List.getElem?_set, if_neg (Ne.symm hnt)]; exact hn
      cases hl with
      | nil =>
          simp only [List.getLast?_singleton, Option.some.injEq] at ht
          subst ht
          refine .cons ?_ hlast
          rw [List.getElem?_set, if_pos rfl]
          have : m < equivs.length := by
            rw [List.getElem?_eq_some_iff] at he; exact he.1
          rw [if_pos this]
      | cons he2 hl2 =>
          rename_i m2 e2 l2
          rw [List.getLast?_cons_cons] at ht
          have htm : t ∈ m2 :: l2 := List.mem_of_getLast? ht
          have hmt : t ≠ m := by
            rintro rfl; exact (List.nodup_cons.1 hd).1 htm
          refine .cons ?_ (Lists.append hn hnt (.cons he2 hl2) ht (List.nodup_cons.1 hd).2)
          rw [List.getElem?_set, if_neg hmt]; exact he

theorem classes {C : Choice} (h : MadeClasses C) : C.ClassesOk := by
  induction h with
  | init hN hs =>
      intro r hr
      refine ⟨[], ?_, by simp, ?_⟩
      · refine .cons ?_ .nil
        have hr' := (List.getElem?_eq_some_iff.1 hr).1
        simp only [Choice.init, List.length_range] at hr'
        simp only [Choice.init, List.getElem?_replicate, if_pos hr']
      · intro m
        simp only [Choice.init, List.mem_singleton] at *
        constructor
        · rintro rfl; exact hr
        · intro hm
          rw [List.getElem?_eq_some_iff] at hm
          obtain ⟨_, hm⟩ := hm
          simpa using hm
  | grow _ _ _ _ ih => exact ih
  | @set C C' n r b hC gn gr hr hn hne hs ih =>
      have hI := hC.made.inv
      obtain ⟨C2, b2, l, t, e, hL, ht, hb, hf, htr⟩ := setChoice_spec hI gn (hI.gate_lt gr)
      rw [hs] at e
      obtain ⟨rfl, rfl⟩ := Prod.mk.inj (Option.some.inj e)
      cases b with
      | false => rw [hf rfl]; exact ih
      | true =>
          obtain ⟨hrn, -⟩ := hb.1 rfl
          rw [htr rfl]
          have hnl : n < C.reprs.length := by
            rw [List.getElem?_eq_some_iff] at hn; exact hn.1
          -- the class extended
          obtain ⟨lr, hLr, hdr, hmr⟩ := ih r hr
          obtain rfl := hL.unique hLr
          have htm : t ∈ r :: lr := List.mem_of_getLast? ht
          have htr' := (hmr t).1 htm
          have hnt : n ≠ t := by
            rintro rfl; rw [hn] at htr'
            have := Option.some.inj htr'; omega
          -- the class of `n` is `n` alone
          have hsingle : ∀ m, C.reprs[m]? = some n → m = n := by
            intro m hm
            obtain ⟨ln, hLn, -, hmn⟩ := ih n hn
            cases hLn with
            | cons he hl =>
                rw [hne] at he
                obtain rfl := Option.some.inj he
                cases hl
                have := (hmn m).2 hm
                simpa using this
          intro q hq
          dsimp only at hq ⊢
          rw [List.getElem?_set] at hq
          by_cases hnq : n = q
          · subst hnq
            rw [if_pos rfl, if_pos hnl] at hq
            have := Option.some.inj hq; omega
          rw [if_neg hnq] at hq
          have hmem : ∀ m q', (C.reprs.set n r)[m]? = some q' ↔
              (m = n ∧ q' = r) ∨ (m ≠ n ∧ C.reprs[m]? = some q') := by
            intro m q'
            rw [List.getElem?_set]
            by_cases hm : n = m
            · subst hm
              rw [if_pos rfl, if_pos hnl]
              simp [eq_comm]
            · rw [if_neg hm]
              simp [Ne.symm hm]
          by_cases hqr : q = r
          · subst hqr
            refine ⟨lr ++ [n], ?_, ?_, ?_⟩
            · rw [← List.cons_append]
              exact hLr.append hne hnt ht hdr
            · rw [← List.cons_append, List.nodup_append]
              refine ⟨hdr, by simp, ?_⟩
              intro x hx y hy hxy
              rw [List.mem_singleton] at hy
              rw [hxy, hy] at hx
              have := (hmr n).1 hx
              rw [hn] at this
              have := Option.some.inj this; omega
            · intro m
              rw [hmem, ← List.cons_append, List.mem_append, hmr, List.mem_singleton]
              constructor
              · rintro (h1 | h1)
                · by_cases hm : m = n
                  · exact Or.inl ⟨hm, rfl⟩
                  · exact Or.inr ⟨hm, h1⟩
                · exact Or.inl ⟨h1, rfl⟩
              · rintro (⟨h1, _⟩ | ⟨_, h1⟩)
                · exact Or.inr h1
                · exact Or.inl h1
          · obtain ⟨lq, hLq, hdq, hmq⟩ := ih q hq
            refine ⟨lq, hLq.keep ?_, hdq, ?_⟩
            · intro hc
              have := (hmq t).1 hc
              rw [htr'] at this
              exact hqr (Option.some.inj this).symm
            · intro m
              rw [hmem, hmq]
              constructor
              · intro h1
                refine Or.inr ⟨?_, h1⟩
                rintro rfl
                rw [hn] at h1
                exact hnq (Option.some.inj h1)
              · rintro (⟨_, h1⟩ | ⟨_, h1⟩)
                · exact absurd h1 hqr
                · exact h1

/-- C39, second part, for calls that add a node in no class to a representative: from every
representative the list holds each of its members exactly once. -/
theorem C39_classes_partial {C : Choice} (h : MadeClasses C) : C.ClassesOk := classes h

/-! ### Instances and counterexamples -/

/-- Three inputs and the gates `4 = 1 & 2`, `5 = 4 & 3`, `6 = 2 & 3`, `7 = 1 & 6`,
`8 = 1 & 3`. -/
def choiceNet : Aig :=
  let N := Aig.empty.createPi.1.createPi.1.createPi.1
  let N := (N.createAnd ⟨1, false⟩ ⟨2, false⟩).1
  let N := (N.createAnd ⟨4, false⟩ ⟨3, false⟩).1
  let N := (N.createAnd ⟨2, false⟩ ⟨3, false⟩).1
  let N := (N.createAnd ⟨1, false⟩ ⟨6, false⟩).1
  (N.createAnd ⟨1, false⟩ ⟨3, false⟩).1

theorem choiceNet_built : Aig.Built choiceNet :=
  .and (.and (.and (.and (.and (.pi (.pi (.pi .empty))) (by decide) (by decide)) (by decide)
    (by decide)) (by decide) (by decide)) (by decide) (by decide)) (by decide) (by decide)

theorem choiceNet_gate {n : Nat} (h : n ∈ [4, 5, 6, 7]) : (init choiceNet 9).Gate n := by
  simp only [List.mem_cons, List.not_mem_nil, or_false] at h
  rcases h with rfl | rfl | rfl | rfl
  · exact ⟨_, _, by decide, by decide, _, rfl, rfl, rfl, rfl⟩
  · exact ⟨_, _, by decide, by decide, _, rfl, rfl, rfl, rfl⟩
  · exact ⟨_, _, by decide, by decide, _, rfl, rfl, rfl, rfl⟩
  · exact ⟨_, _, by decide, by decide, _, rfl, rfl, rfl, rfl⟩

/-- A choice network with a non-trivial class: the two ways of building the AND of the three inputs
are alternatives of each other. -/
example : ∃ C, MadeClasses C ∧ C.equivs[5]? = some (some 7) ∧ C.reprs[7]? = some 5 := by
  refine ⟨_, .set (n := 7) (r := 5) (b := true) (.init choiceNet_built (size := 9) (by decide))
    (choiceNet_gate (by decide)) (choiceNet_gate (by decide)) (by decide) (by decide) (by decide)
    rfl, ?_, ?_⟩ <;> decide

/-- A network covered by `C39_gates`: gate 4 is in the list of its own fanin 1, and gates 5 and 7 are alternatives. -/
example : ∃ C, Linked C ∧ C.equivs[1]? = some (some 4) ∧ C.equivs[5]? = some (some 7) := by
  refine ⟨_, .set (n := 7) (r := 5) (b := true) (.set (n := 4) (r := 1) (b := true) (.init choiceNet_built (size := 9) (by decide))
    (choiceNet_gate (by decide)) (by decide) rfl) (choiceNet_gate (n := 7) (by decide)) (by decide) rfl, ?_, ?_⟩ <;> decide

/-- With an input as second argument a cycle is accepted: the gate 4 becomes the alternative of its
own fanin 1. -/
theorem C39_violated_input :
    ∃ C', (init choiceNet 9).setChoice 4 1 = some (C', true) ∧ ¬ C'.Acyclic := by
  refine ⟨_, rfl, ?_⟩
  intro h
  refine h 4 (TransGen.tail (TransGen.single (b := 1) (Or.inl ⟨⟨1, false⟩, ⟨2, false⟩, ?_, Or.inl rfl⟩))
    (Or.inr ?_))
  · exact ⟨by decide, by decide, _, rfl, rfl, rfl, rfl⟩
  · decide

/-- With a second argument that is itself an alternative, the list of the class of 4 holds the node
8, whose representative is 6. -/
theorem C39_violated_classes :
    ((((init choiceNet 9).setChoice 6 4).bind fun r => r.1.setChoice 8 6).map fun r =>
      (r.1.chain 8 (some 4), r.1.reprs[8]?, r.1.reprs[6]?)) =
      some (some [4, 6, 8], some 6, some 4) := by decide +kernel

end Verif.Choice
