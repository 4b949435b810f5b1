import Verif.Props.C34
import Verif.Props.C59

set_option autoImplicit false

/-!
# No LUT made from a mapped AIG has a constant fanin (helper lemmas)
-/

namespace Verif.Collapse

/-- all fanins are nodes other than the two constants -/
def Far (l : List KNode) : Prop := 2 ≤ l.length ∧ ∀ (n : Nat) nd, l[n]? = some nd → ∀ c ∈ nd.children, 2 ≤ c

theorem Far.incFo {l : List KNode} (h : Far l) (i : Nat) : Far (Klut.incFo l i) := by
  refine ⟨by unfold Klut.incFo; rw [List.length_modify]; exact h.1, fun n nd e => ?_⟩
  rw [Klut.incFo_get] at e
  cases hn : l[n]? with
  | none => rw [hn] at e; simp at e
  | some nd' =>
    rw [hn] at e
    obtain rfl := Option.some.inj e
    exact h.2 n nd' hn

theorem Far.foldl : ∀ (cs : List Nat) (l : List KNode), Far l → Far (cs.foldl Klut.incFo l) := by
  intro cs
  induction cs with
  | nil => intro l h; exact h
  | cons c cs ih => intro l h; exact ih _ (h.incFo c)

theorem Far.snoc {l : List KNode} (h : Far l) {d : KNode} (hd : ∀ c ∈ d.children, 2 ≤ c) : Far (l ++ [d]) := by
  refine ⟨by rw [List.length_append]; have := h.1; omega, fun n nd e => ?_⟩
  rcases Nat.lt_or_ge n l.length with hn | hn
  · rw [List.getElem?_append_left hn] at e; exact h.2 n nd e
  · rw [List.getElem?_append_right hn] at e
    have : nd ∈ [d] := List.mem_of_getElem? e
    rw [List.mem_singleton] at this
    rw [this]; exact hd

theorem Far.createPi {K : Klut} (h : Far K.nodes) : Far K.createPi.1.nodes ∧ 2 ≤ K.createPi.2 := ⟨Far.snoc h (by simp), h.1⟩

theorem Far.createLit {K : Klut} (h : Far K.nodes) {cs : List Nat} (hc : ∀ c ∈ cs, 2 ≤ c) (lit : Nat) :
    Far (K.createLit cs lit).1.nodes ∧ 2 ≤ (K.createLit cs lit).2 := by
  refine ⟨?_, h.1⟩
  have hs := Far.foldl cs _ (Far.snoc h (d := { children := cs, fn := lit }) hc)
  have e : (K.createLit cs lit).1.nodes = ((cs.foldl Klut.incFo (K.nodes ++ [{ children := cs, fn := lit }])).modify K.nodes.length
      fun nd => { nd with value := 0#32 }) := rfl
  rw [e]
  refine ⟨by rw [List.length_modify]; exact hs.1, fun n nd e' => ?_⟩
  rw [List.getElem?_modify] at e'
  cases hn : (cs.foldl Klut.incFo (K.nodes ++ [{ children := cs, fn := lit }]))[n]? with
  | none => rw [hn] at e'; simp at e'
  | some nd' =>
    rw [hn] at e'
    have := hs.2 n nd' hn
    obtain rfl := Option.some.inj e'
    dsimp only
    split <;> exact this

theorem Far.createNode {K : Klut} (h : Far K.nodes) {cs : List Nat} (hne : cs ≠ []) (hc : ∀ c ∈ cs, 2 ≤ c) (f : TT) :
    Far (K.createNode cs f).1.nodes ∧ 2 ≤ (K.createNode cs f).2 := by
  unfold Klut.createNode
  rw [if_neg fun hl => hne (List.length_eq_zero_iff.1 hl)]
  exact Far.createLit (K := { K with cache := (K.cache.insert f).1 }) h hc _

/-- the nodes built so far have no constant fanins, and the signals of `ready` nodes are not constant -/
def FarSt (ready : Nat → Prop) (s : St) : Prop := Far s.dest.nodes ∧ ∀ j, ready j → 2 ≤ s.sig j

theorem FarSt.set {ready : Nat → Prop} {s : St} (h : ∀ j, ready j → 2 ≤ s.sig j) {n x : Nat} (hx : 2 ≤ x) :
    ∀ j, ready j ∨ j = n → 2 ≤ upd s.sig n x j := by
  intro j hj
  unfold upd
  split
  · exact hx
  · rename_i hne
    rcases hj with hj | hj
    · exact h j hj
    · exact absurd hj hne

theorem FarSt.makePi {ready : Nat → Prop} {s : St} (h : FarSt ready s) (d : Nat → Driver) (n : Nat) :
    FarSt (fun j => ready j ∨ j = n) (makePi d s n) := by
  have h1 := h.1.createPi
  have h2 := h1.1.createLit (cs := [s.dest.createPi.2]) (by intro c hc; rw [List.mem_singleton] at hc; rw [hc]; exact h1.2) 3
  unfold Collapse.makePi
  dsimp only
  split
  · exact ⟨h2.1, FarSt.set h.2 h2.2⟩
  · exact ⟨h2.1, FarSt.set h.2 h1.2⟩
  · exact ⟨h1.1, FarSt.set h.2 h1.2⟩

theorem FarSt.makePis (d : Nat → Driver) : ∀ (l : List Nat) (ready : Nat → Prop) (s : St), FarSt ready s →
    FarSt (fun j => ready j ∨ j ∈ l) (makePis d l s) := by
  intro l
  induction l with
  | nil => intro ready s h; exact ⟨h.1, fun j hj => h.2 j (by simpa using hj)⟩
  | cons n l ih =>
    intro ready s h
    have := ih _ _ (h.makePi d n)
    exact ⟨this.1, fun j hj => this.2 j (by dsimp only at hj ⊢; rw [List.mem_cons] at hj; tauto)⟩

theorem FarSt.makeCell {ready : Nat → Prop} {s : St} (h : FarSt ready s) (d : Nat → Driver) (n : Nat) {cs : List Nat} (hne : cs ≠ [])
    (hc : ∀ l ∈ cs, ready l) (f : TT) : FarSt (fun j => ready j ∨ j = n) (makeCell d s n cs f) := by
  have hne' : cs.map s.sig ≠ [] := by simpa using hne
  have hc' : ∀ c ∈ cs.map s.sig, 2 ≤ c := by
    intro c hm
    obtain ⟨l, hl, rfl⟩ := List.mem_map.1 hm
    exact h.2 l (hc l hl)
  unfold Collapse.makeCell
  dsimp only
  split
  · have h1 := h.1.createNode hne' hc' f.not
    exact ⟨h1.1, FarSt.set h.2 h1.2⟩
  · have h1 := h.1.createNode hne' hc' f
    have h2 := h1.1.createNode hne' hc' f.not
    exact ⟨h2.1, FarSt.set h.2 h1.2⟩
  · have h1 := h.1.createNode hne' hc' f
    exact ⟨h1.1, FarSt.set h.2 h1.2⟩

theorem FarSt.makeCells {N : Aig} {M : Mapping} {base : Nat → Prop} {order : List Nat} (d : Nat → Driver) (ho : OrderOk N M base order)
    (hne : ∀ n ∈ order, isCell N M n = some true → ∀ cs, M.cellFanins n = some cs → cs ≠ []) :
    ∀ (rest done : List Nat) (s s' : St), order = done ++ rest → FarSt (fun j => base j ∨ (j ∈ done ∧ isCell N M j = some true)) s →
      makeCells N M d rest s = some s' → Far s'.dest.nodes := by
  intro rest
  induction rest with
  | nil => intro done s s' _ h e; obtain rfl := Option.some.inj e; exact h.1
  | cons n rest ih =>
    intro done s s' eo h e
    rw [Collapse.makeCells] at e
    cases hc : isCell N M n with
    | none => rw [hc] at e; simp at e
    | some b =>
      rw [hc] at e
      cases b with
      | false =>
        refine ih (done ++ [n]) s s' (by simp [eo]) ⟨h.1, fun j hj => h.2 j ?_⟩ e
        rcases hj with hj | ⟨hj, hj'⟩
        · exact .inl hj
        · rw [List.mem_append, List.mem_singleton] at hj
          rcases hj with hj | rfl
          · exact .inr ⟨hj, hj'⟩
          · rw [hc] at hj'; cases hj'
      | true =>
        dsimp only at e
        cases h1 : M.cellFanins n with
        | none => rw [h1] at e; simp at e
        | some cs =>
          cases h2 : M.cellFunction n with
          | none => rw [h1, h2] at e; simp at e
          | some f =>
            rw [h1, h2] at e
            have hm := h.makeCell d n (hne n (by rw [eo]; simp) hc cs h1) (fun l hl => ho done n rest eo hc cs h1 l hl) f
            refine ih (done ++ [n]) _ s' (by simp [eo]) ⟨hm.1, fun j hj => hm.2 j ?_⟩ e
            rcases hj with hj | ⟨hj, hj'⟩
            · exact .inl (.inl hj)
            · rw [List.mem_append, List.mem_singleton] at hj
              rcases hj with hj | rfl
              · exact .inl (.inr ⟨hj, hj'⟩)
              · exact .inr rfl

theorem Far.makePos (d : Nat → Driver) (s : St) : ∀ (l : List Sig) (K : Klut), Far K.nodes → Far (makePos d s l K).nodes := by
  intro l
  induction l with
  | nil => intro K h; exact h
  | cons f l ih => intro K h; exact ih _ (Far.incFo h _)

theorem Far.empty : Far Klut.empty.nodes := by
  refine ⟨by decide, fun n nd e => ?_⟩
  have : nd ∈ Klut.empty.nodes := List.mem_of_getElem? e
  simp only [Klut.empty, List.mem_cons, List.not_mem_nil, or_false] at this
  rcases this with rfl | rfl <;> simp

theorem choiceToKlut_far {N : Aig} {M : Mapping} (hN : Aig.Built N) (hM : Cover.Right N M) (hR : Cover.Rising N M) (hpi : N.inputs.length = N.numPis)
    (h0 : ∀ n cs, Cover.Root N M n → M.cellFanins n = some cs → cs ≠ [] ∧ 0 ∉ cs) {K : Klut} (e : choiceToKlut N M = some (some K)) : Far K.nodes := by
  have hg : ∀ n ∈ N.gates, n < N.nodes.length := by
    intro n hn
    rw [Aig.gates, List.mem_filter, List.mem_range] at hn
    exact hn.1
  have hroot : ∀ n, n ∈ N.gates → isCell N M n = some true → Cover.Root N M n := by
    intro n hn h
    obtain ⟨b, hb, hr⟩ := isCell_iff hN hM hpi (hg n hn)
    rw [h] at hb
    exact hr.1 (Option.some.inj hb).symm
  have ho : OrderOk N M (fun j => j ∈ N.inputs.take N.numPis) N.gates := by
    intro pre n post eo hc cs hcs l hl
    have hr := hroot n (by rw [eo]; simp) hc
    obtain ⟨cs', f, e', _, _, _, hleaf, _⟩ := hM.cell n hr
    obtain rfl := Option.some.inj (hcs.symm.trans e')
    rcases hleaf l hl with rfl | h | h
    · exact absurd hl (h0 n cs hr hcs).2
    · left; rw [← hpi, List.take_length]; exact h
    · right
      have hlg := (hN.wf.mem_gates l).2 h.1
      refine ⟨ToAig.before_of_lt (l := N.gates) ((ToAig.range_sorted _).filter _) eo hlg (hR n cs hr hcs l hl), ?_⟩
      obtain ⟨b, hb, hb'⟩ := isCell_iff hN hM hpi (hg l hlg)
      rw [hb, hb'.2 h]
  unfold choiceToKlut at e
  split at e
  · simp at e
  obtain ⟨K', hK, e'⟩ := Option.map_eq_some_iff.1 e
  obtain rfl := Option.some.inj e'
  unfold collapse at hK
  split at hK
  · simp at hK
  split at hK
  · simp at hK
  rename_i _ d _ _ s hs
  obtain rfl := Option.some.inj hK
  refine Far.makePos d s _ _ (FarSt.makeCells d ho (fun n hn hc cs hcs => (h0 n cs (hroot n hn hc) hcs).1) N.gates [] _ s rfl ?_ hs)
  have hc : FarSt (fun _ => False) (constants d Klut.empty) := by
    refine ⟨?_, fun j hj => hj.elim⟩
    unfold constants
    split <;> exact Far.empty
  have hp := FarSt.makePis d (N.inputs.take N.numPis) _ _ hc
  exact ⟨hp.1, fun j hj => hp.2 j (by rcases hj with hj | ⟨hj, _⟩; exacts [.inr hj, absurd hj (List.not_mem_nil)])⟩

end Verif.Collapse

namespace Verif.Mapper

/-- the constant is not in the cone of another node -/
theorem tfi_ne_zero {C : Choice} (hN : C.net.Built) (hO : C.Ordered) {n l : Nat} (h : Topo.Tfi C.deps n l) : n ≠ 0 → l ≠ 0 := by
  induction h with
  | refl => exact id
  | @step n k m hm _ ih =>
    intro h0
    apply ih
    unfold Choice.deps at hm
    rcases List.mem_append.1 hm with hm | hm
    · unfold RefDeref.aigKids at hm
      split at hm
      · simp at hm
      rename_i hc
      split at hm
      · rename_i nd hnd
        have hin : n ∉ C.net.inputs := by
          intro hi
          obtain ⟨j, hj⟩ := List.getElem?_of_mem hi
          obtain ⟨_, nd', hnd', e1, e2, _⟩ := hN.wf.input j n hj
          obtain rfl := Option.some.inj (hnd.symm.trans hnd')
          apply hc
          right
          unfold Aig.isCi
          rw [hnd]
          simp [e1, e2]
        obtain ⟨g1, g2, _⟩ := hN.wf.gate n nd hnd h0 hin
        simp only [List.mem_cons, List.not_mem_nil, or_false] at hm
        rcases hm with rfl | rfl <;> omega
      · simp at hm
    · split at hm
      · rename_i m' he
        rw [List.mem_singleton] at hm
        have := (hO.lt n m' he).1
        omega
      · simp at hm

/-- no LUT of a mapped AIG with choices has a constant fanin, unless a node is its own cell -/
theorem klutMap_far {β : Type} (p : Ps) (C : Choice) (hN : C.net.Built) (hpi : C.net.inputs.length = C.net.numPis) (hpo : C.net.outputs.length = C.net.numPos) (hO : C.Ordered)
    (hS : C.Sound) (hp : PsOk p.cut) (H : Nat → Nat → Heur β) (cost : β) (M : Mapping) (e : klutMap p C H cost = some M)
    (hself : ∀ n, ¬ SelfCell C.net M n) (K : Klut) (eK : Collapse.choiceToKlut C.net M = some (some K)) :
    ∀ (n : Nat) nd, K.nodes[n]? = some nd → ∀ c ∈ nd.children, 2 ≤ c := by
  obtain ⟨h1, h2⟩ := C59_cells_partial p C hN hpo.symm hO hS hp H cost M e
  have hk : ∀ n cs, Cover.Root C.net M n → M.cellFanins n = some cs → 2 ≤ cs.length ∧ ∀ l ∈ cs, l < n := by
    intro n cs hr hcs
    obtain ⟨_, _, ⟨rfl, _⟩ | ⟨h3, _, h4⟩⟩ := h2 n cs hr hcs
    · exact absurd ⟨hr, hcs⟩ (hself n)
    · exact ⟨h3, h4⟩
  refine (Collapse.choiceToKlut_far hN h1 (fun n cs hr hcs => (hk n cs hr hcs).2) hpi (fun n cs hr hcs => ⟨?_, fun hz => ?_⟩) eK).2
  · rintro rfl
    have := (hk n [] hr hcs).1
    simp at this
  · obtain ⟨⟨a, b, hg⟩, _⟩ := id hr
    exact tfi_ne_zero hN hO ((h2 n cs hr hcs).1 0 hz) hg.1 rfl

end Verif.Mapper
