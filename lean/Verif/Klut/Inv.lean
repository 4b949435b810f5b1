import Verif.Klut.Spec
import Verif.Props.C22

set_option autoImplicit false

/-!
# Invariants of constructed LUT networks
-/

namespace Verif.Klut

/-- what holds in constructed networks -/
structure WF (N : Klut) : Prop where
  len : 2 ≤ N.nodes.length
  cache : TTCache.Inv N.cache
  tables : ∀ l u, (TTCache.empty.inserts initTables).lookup l = some u → N.cache.lookup l = some u
  inputs : ∀ n ∈ N.inputs, 2 ≤ n ∧ n < N.nodes.length
  inputsNodup : N.inputs.Nodup
  flags : ∀ n nd, N.nodes[n]? = some nd → ((nd.value = 1#32 ∨ nd.value = 3#32) ↔ n ∈ N.inputs)
  gate : ∀ n nd, N.nodes[n]? = some nd → 2 ≤ n → n ∉ N.inputs → nd.children ≠ [] ∧ (∀ c ∈ nd.children, c < n) ∧
    ∃ f, N.cache.lookup nd.fn = some f ∧ f.WF ∧ f.n = nd.children.length
  nogate : ∀ n nd, N.nodes[n]? = some nd → n < 2 ∨ n ∈ N.inputs → nd.children = []
  outputs : ∀ o ∈ N.outputs, o < N.nodes.length
  fanout : ∀ n nd, N.nodes[n]? = some nd → nd.fo = (N.nodes.map fun k => k.children.count n).sum + N.outputs.count n

theorem incFo_length (l : List KNode) (i : Nat) : (incFo l i).length = l.length := by simp [incFo]

theorem incFos_length (cs : List Nat) : ∀ (l : List KNode), (cs.foldl incFo l).length = l.length := by
  induction cs with
  | nil => intro l; rfl
  | cons c cs ih => intro l; rw [List.foldl_cons, ih, incFo_length]

theorem incFo_get (l : List KNode) (i n : Nat) :
    (incFo l i)[n]? = (l[n]?).map fun nd => { nd with fo := nd.fo + if i = n then 1 else 0 } := by
  rw [incFo, List.getElem?_modify]
  by_cases h : i = n
  · simp [h]
  · simp [h]

theorem incFos_get (cs : List Nat) : ∀ (l : List KNode) (n : Nat),
    (cs.foldl incFo l)[n]? = (l[n]?).map fun nd => { nd with fo := nd.fo + cs.count n } := by
  induction cs with
  | nil => intro l n; simp
  | cons c cs ih =>
    intro l n
    rw [List.foldl_cons, ih, incFo_get, Option.map_map]
    congr 1
    funext nd
    simp only [Function.comp, List.count_cons, beq_iff_eq]
    congr 1
    omega

theorem incFos_children (cs : List Nat) (l : List KNode) (g : List Nat → Nat) :
    ((cs.foldl incFo l).map fun k => g k.children) = l.map fun k => g k.children := by
  apply List.ext_getElem?
  intro n
  rw [List.getElem?_map, List.getElem?_map, incFos_get, Option.map_map]
  rfl

/-- the node vector after `_create_node` -/
theorem createLit_nodes (N : Klut) (cs : List Nat) (lit : Nat) :
    (N.createLit cs lit).1.nodes = cs.foldl incFo (N.nodes ++ [{ children := cs, fn := lit }]) := by
  show List.modify _ _ _ = _
  apply List.ext_getElem?
  intro n
  rw [List.getElem?_modify, incFos_get]
  by_cases h : N.nodes.length = n
  · subst h; simp
  · simp [h]

theorem createLit_length (N : Klut) (cs : List Nat) (lit : Nat) :
    (N.createLit cs lit).1.nodes.length = N.nodes.length + 1 := by
  rw [createLit_nodes, incFos_length, List.length_append, List.length_singleton]

theorem createLit_get_lt (N : Klut) (cs : List Nat) (lit n : Nat) (h : n < N.nodes.length) :
    (N.createLit cs lit).1.nodes[n]? = (N.nodes[n]?).map fun nd => { nd with fo := nd.fo + cs.count n } := by
  rw [createLit_nodes, incFos_get, List.getElem?_append_left h]

theorem createLit_get_new (N : Klut) (cs : List Nat) (lit : Nat) :
    (N.createLit cs lit).1.nodes[N.nodes.length]? =
      some { children := cs, fn := lit, fo := 0 + cs.count N.nodes.length, value := 0#32 } := by
  rw [createLit_nodes, incFos_get, List.getElem?_concat_length]
  rfl

theorem sum_zero {l : List Nat} (h : ∀ a ∈ l, a = 0) : l.sum = 0 := by
  induction l with
  | nil => rfl
  | cons a l ih =>
    rw [List.sum_cons, h a (by simp), ih fun b hb => h b (by simp [hb])]

theorem lt_of_get {α : Type} {l : List α} {n : Nat} {a : α} (h : l[n]? = some a) : n < l.length :=
  (List.getElem?_eq_some_iff.1 h).1

/-- what `_create_node` keeps -/
theorem WF.createLit {N : Klut} (h : WF N) (cs : List Nat) (lit : Nat) (f : TT) (h0 : cs ≠ [])
    (hc : ∀ c ∈ cs, c < N.nodes.length) (hl : N.cache.lookup lit = some f) (hf : f.WF) (hn : f.n = cs.length) :
    WF (N.createLit cs lit).1 := by
  have hcnt : cs.count N.nodes.length = 0 := by
    rw [List.count_eq_zero]; intro hm; exact absurd (hc _ hm) (by omega)
  have key : ∀ n nd, (N.createLit cs lit).1.nodes[n]? = some nd →
      (n < N.nodes.length ∧ ∃ nd0, N.nodes[n]? = some nd0 ∧ nd = { nd0 with fo := nd0.fo + cs.count n }) ∨
      (n = N.nodes.length ∧ nd = { children := cs, fn := lit, fo := 0, value := 0#32 }) := by
    intro n nd hnd
    have hlt := lt_of_get hnd
    rw [createLit_length] at hlt
    by_cases hn : n < N.nodes.length
    · left
      rw [createLit_get_lt _ _ _ _ hn] at hnd
      obtain ⟨nd0, e1, e2⟩ := Option.map_eq_some_iff.1 hnd
      exact ⟨hn, nd0, e1, e2.symm⟩
    · right
      have : n = N.nodes.length := by omega
      subst this
      rw [createLit_get_new, hcnt] at hnd
      exact ⟨rfl, (Option.some.inj hnd).symm⟩
  have hi : (N.createLit cs lit).1.inputs = N.inputs := rfl
  have ho : (N.createLit cs lit).1.outputs = N.outputs := rfl
  have hca : (N.createLit cs lit).1.cache = N.cache := rfl
  refine ⟨?_, h.cache, h.tables, ?_, h.inputsNodup, ?_, ?_, ?_, ?_, ?_⟩
  · rw [createLit_length]; have := h.len; omega
  · intro n hn
    have := h.inputs n hn
    rw [createLit_length]; omega
  · intro n nd hnd
    rw [hi]
    rcases key n nd hnd with ⟨_, nd0, e1, e2⟩ | ⟨e1, e2⟩
    · rw [e2]; exact h.flags n nd0 e1
    · rw [e2]
      constructor
      · intro hv; simp at hv
      · intro hm; have := h.inputs n hm; omega
  · intro n nd hnd h2 hni
    rw [hi] at hni
    rw [hca]
    rcases key n nd hnd with ⟨_, nd0, e1, e2⟩ | ⟨e1, e2⟩
    · rw [e2]; exact h.gate n nd0 e1 h2 hni
    · rw [e2]
      exact ⟨h0, fun c hm => by rw [e1]; exact hc c hm, f, hl, hf, hn⟩
  · intro n nd hnd hor
    rw [hi] at hor
    rcases key n nd hnd with ⟨_, nd0, e1, e2⟩ | ⟨e1, e2⟩
    · rw [e2]; exact h.nogate n nd0 e1 hor
    · exfalso
      rcases hor with hor | hor
      · have := h.len; omega
      · have := h.inputs n hor; omega
  · intro o hm
    have := h.outputs o hm
    rw [createLit_length]; omega
  · intro n nd hnd
    rw [ho, createLit_nodes]
    rw [incFos_children cs _ (fun l => l.count n)]
    rw [List.map_append, List.sum_append]
    rcases key n nd hnd with ⟨_, nd0, e1, e2⟩ | ⟨e1, e2⟩
    · rw [e2]
      have := h.fanout n nd0 e1
      simp only [List.map_cons, List.map_nil, List.sum_cons, List.sum_nil]
      omega
    · rw [e2, e1]
      simp only [List.map_cons, List.map_nil, List.sum_cons, List.sum_nil, hcnt]
      have h1 : N.outputs.count N.nodes.length = 0 := by
        rw [List.count_eq_zero]; intro hm; exact absurd (h.outputs _ hm) (by omega)
      have h2 : (N.nodes.map fun k => k.children.count N.nodes.length).sum = 0 := by
        apply sum_zero
        intro a ha
        obtain ⟨k, hk, rfl⟩ := List.mem_map.1 ha
        obtain ⟨m, hm⟩ := List.mem_iff_getElem?.1 hk
        rw [List.count_eq_zero]
        intro hmem
        by_cases hg : 2 ≤ m ∧ m ∉ N.inputs
        · have := (h.gate m k hm hg.1 hg.2).2.1 _ hmem
          have := lt_of_get hm
          omega
        · have : k.children = [] := h.nogate m k hm (by
            by_cases hm2 : m < 2
            · exact Or.inl hm2
            · right; by_contra hni; exact hg ⟨by omega, hni⟩)
          rw [this] at hmem; simp at hmem
      omega

/-- a new input -/
theorem WF.addInput {N : Klut} (h : WF N) (np : Nat) (val : BitVec 32) (hv : val = 1#32 ∨ val = 3#32) :
    WF { N with
      nodes := N.nodes ++ [{ children := [], fn := 2, value := val }]
      inputs := N.inputs ++ [N.nodes.length]
      numPis := np } := by
  have key : ∀ n nd, (N.nodes ++ [{ children := [], fn := 2, value := val }])[n]? = some nd →
      (n < N.nodes.length ∧ N.nodes[n]? = some nd) ∨ (n = N.nodes.length ∧ nd = ⟨[], 2, 0, val⟩) := by
    intro n nd hnd
    have hlt := lt_of_get hnd
    rw [List.length_append, List.length_singleton] at hlt
    by_cases hn : n < N.nodes.length
    · left; rw [List.getElem?_append_left hn] at hnd; exact ⟨hn, hnd⟩
    · right
      have : n = N.nodes.length := by omega
      subst this
      rw [List.getElem?_concat_length] at hnd
      exact ⟨rfl, (Option.some.inj hnd).symm⟩
  have hnew : N.nodes.length ∉ N.inputs := fun hm => by have := h.inputs _ hm; omega
  refine ⟨?_, h.cache, h.tables, ?_, ?_, ?_, ?_, ?_, ?_, ?_⟩
  · simp only [List.length_append, List.length_singleton]; have := h.len; omega
  · intro n hn
    simp only [List.mem_append, List.mem_singleton, List.length_append, List.length_singleton] at hn ⊢
    have := h.len
    rcases hn with hn | hn
    · have := h.inputs n hn; omega
    · omega
  · simp only
    rw [List.nodup_append]
    refine ⟨h.inputsNodup, by simp, ?_⟩
    intro a ha b hb
    rw [List.mem_singleton] at hb
    subst hb
    rintro rfl
    exact hnew ha
  · intro n nd hnd
    simp only [List.mem_append, List.mem_singleton]
    rcases key n nd hnd with ⟨e0, e1⟩ | ⟨e1, e2⟩
    · rw [h.flags n nd e1]
      constructor
      · exact Or.inl
      · rintro (hm | hm)
        · exact hm
        · omega
    · rw [e2]; simp [e1, hv]
  · intro n nd hnd h2 hni
    simp only [List.mem_append, List.mem_singleton, not_or] at hni
    rcases key n nd hnd with ⟨e0, e1⟩ | ⟨e1, e2⟩
    · exact h.gate n nd e1 h2 hni.1
    · exact absurd e1 hni.2
  · intro n nd hnd hor
    simp only [List.mem_append, List.mem_singleton] at hor
    rcases key n nd hnd with ⟨e0, e1⟩ | ⟨e1, e2⟩
    · refine h.nogate n nd e1 ?_
      rcases hor with hor | hor | hor
      · exact Or.inl hor
      · exact Or.inr hor
      · omega
    · rw [e2]
  · intro o hm
    have := h.outputs o hm
    simp only [List.length_append, List.length_singleton]; omega
  · intro n nd hnd
    simp only [List.map_append, List.sum_append, List.map_cons, List.map_nil, List.count_nil, List.sum_cons, List.sum_nil]
    rcases key n nd hnd with ⟨e0, e1⟩ | ⟨e1, e2⟩
    · have := h.fanout n nd e1; omega
    · rw [e2, e1]
      have h1 : N.outputs.count N.nodes.length = 0 := by
        rw [List.count_eq_zero]; intro hm; exact absurd (h.outputs _ hm) (by omega)
      have h2 : (N.nodes.map fun k => k.children.count N.nodes.length).sum = 0 := by
        apply sum_zero
        intro a ha
        obtain ⟨k, hk, rfl⟩ := List.mem_map.1 ha
        obtain ⟨m, hm⟩ := List.mem_iff_getElem?.1 hk
        rw [List.count_eq_zero]
        intro hmem
        by_cases hg : 2 ≤ m ∧ m ∉ N.inputs
        · have := (h.gate m k hm hg.1 hg.2).2.1 _ hmem
          have := lt_of_get hm
          omega
        · have : k.children = [] := h.nogate m k hm (by
            by_cases hm2 : m < 2
            · exact Or.inl hm2
            · right; by_contra hni; exact hg ⟨by omega, hni⟩)
          rw [this] at hmem; simp at hmem
      show 0 = _
      omega

/-- a new output -/
theorem WF.addOutput {N : Klut} (h : WF N) (f np : Nat) (la : List Int) (hf : f < N.nodes.length) :
    WF { N with nodes := incFo N.nodes f, outputs := N.outputs ++ [f], numPos := np, latches := la } := by
  have key : ∀ n nd, (incFo N.nodes f)[n]? = some nd →
      ∃ nd0 : KNode, N.nodes[n]? = some nd0 ∧ nd = { nd0 with fo := nd0.fo + (if f = n then 1 else 0) } := by
    intro n nd hnd
    rw [incFo_get] at hnd
    obtain ⟨nd0, e1, e2⟩ := Option.map_eq_some_iff.1 hnd
    exact ⟨nd0, e1, e2.symm⟩
  refine ⟨?_, h.cache, h.tables, ?_, h.inputsNodup, ?_, ?_, ?_, ?_, ?_⟩
  · simp only [incFo_length]; exact h.len
  · simp only [incFo_length]; exact h.inputs
  · intro n nd hnd
    obtain ⟨nd0, e1, e2⟩ := key n nd hnd
    rw [e2]; exact h.flags n nd0 e1
  · intro n nd hnd
    obtain ⟨nd0, e1, e2⟩ := key n nd hnd
    rw [e2]; exact h.gate n nd0 e1
  · intro n nd hnd
    obtain ⟨nd0, e1, e2⟩ := key n nd hnd
    rw [e2]; exact h.nogate n nd0 e1
  · intro o hm
    simp only [List.mem_append, List.mem_singleton, incFo_length] at hm ⊢
    rcases hm with hm | hm
    · exact h.outputs o hm
    · omega
  · intro n nd hnd
    obtain ⟨nd0, e1, e2⟩ := key n nd hnd
    have := h.fanout n nd0 e1
    have hm := incFos_children [f] N.nodes (fun l => l.count n)
    simp only [List.foldl_cons, List.foldl_nil] at hm
    simp only [hm, e2, List.count_append, List.count_cons, List.count_nil, beq_iff_eq]
    omega

theorem initTables_wf : ∀ t ∈ initTables, t.WF := by
  intro t ht
  simp only [initTables, List.mem_cons, List.not_mem_nil, or_false] at ht
  rcases ht with rfl | rfl | rfl | rfl | rfl | rfl | rfl | rfl | rfl | rfl <;> exact TT.wf_ofFn _ _

theorem WF.empty : WF Klut.empty := by
  have hc := TTCache.inserts_spec initTables _ TTCache.inv_empty initTables_wf
  have key : ∀ n nd, Klut.empty.nodes[n]? = some nd → n < 2 ∧ nd.children = [] ∧ nd.value = 0#32 ∧ nd.fo = 0 := by
    intro n nd hnd
    have hlt : n < 2 := lt_of_get hnd
    rcases n with _ | _ | n
    · obtain rfl := Option.some.inj hnd; exact ⟨hlt, rfl, rfl, rfl⟩
    · obtain rfl := Option.some.inj hnd; exact ⟨hlt, rfl, rfl, rfl⟩
    · omega
  refine ⟨le_refl _, hc.1, fun _ _ h => h, ?_, List.nodup_nil, ?_, ?_, ?_, ?_, ?_⟩
  · intro n hn; exact absurd hn List.not_mem_nil
  · intro n nd hnd
    rw [(key n nd hnd).2.2.1]
    constructor
    · intro h; simp at h
    · intro h; exact absurd h List.not_mem_nil
  · intro n nd hnd h2; have := (key n nd hnd).1; omega
  · intro n nd hnd _; exact (key n nd hnd).2.1
  · intro o ho; exact absurd ho List.not_mem_nil
  · intro n nd hnd
    rw [(key n nd hnd).2.2.2]
    simp [Klut.empty]

/-- the cache may grow -/
theorem WF.insert {N : Klut} (h : WF N) (f : TT) (hf : f.WF) : WF { N with cache := (N.cache.insert f).1 } := by
  obtain ⟨c1, _, c3, _⟩ := TTCache.insert_spec N.cache h.cache f hf
  refine ⟨h.len, c1, fun l u hl => c3 l u (h.tables l u hl), h.inputs, h.inputsNodup, h.flags, ?_, h.nogate, h.outputs, h.fanout⟩
  intro n nd hnd h2 hni
  obtain ⟨g1, g2, g, g3, g4⟩ := h.gate n nd hnd h2 hni
  exact ⟨g1, g2, g, c3 _ _ g3, g4⟩

theorem lookup_init (l : Nat) (t : TT) (h : (TTCache.empty.inserts initTables).lookup l = some t) {N : Klut} (hN : WF N) :
    N.cache.lookup l = some t := hN.tables l t h

theorem lit_not : (TTCache.empty.inserts initTables).lookup 3 = some (ofWord 1 0x1) := by decide +kernel
theorem lit_and : (TTCache.empty.inserts initTables).lookup 4 = some (ofWord 2 0x8) := by decide +kernel
theorem lit_or : (TTCache.empty.inserts initTables).lookup 6 = some (ofWord 2 0xe) := by decide +kernel
theorem lit_lt : (TTCache.empty.inserts initTables).lookup 8 = some (ofWord 2 0x4) := by decide +kernel
theorem lit_le : (TTCache.empty.inserts initTables).lookup 11 = some (ofWord 2 0xd) := by decide +kernel
theorem lit_xor : (TTCache.empty.inserts initTables).lookup 12 = some (ofWord 2 0x6) := by decide +kernel
theorem lit_maj : (TTCache.empty.inserts initTables).lookup 14 = some (ofWord 3 0xe8) := by decide +kernel
theorem lit_ite : (TTCache.empty.inserts initTables).lookup 16 = some (ofWord 3 0xd8) := by decide +kernel
theorem lit_xor3 : (TTCache.empty.inserts initTables).lookup 18 = some (ofWord 3 0x96) := by decide +kernel

theorem WF.createNode {N : Klut} (h : WF N) (cs : List Nat) (f : TT) (hc : ∀ c ∈ cs, c < N.nodes.length) (hf : f.WF)
    (hn : f.n = cs.length) : WF (N.createNode cs f).1 := by
  rw [Klut.createNode]
  by_cases h0 : cs.length = 0
  · rw [if_pos h0]; exact h
  · rw [if_neg h0]
    have := TTCache.insert_spec N.cache h.cache f hf
    exact (h.insert f hf).createLit cs _ f (by intro e; rw [e] at h0; simp at h0) hc this.2.1 hf hn

theorem Built.wf {N : Klut} (hN : Built N) : WF N := by
  induction hN with
  | empty => exact WF.empty
  | pi _ ih => exact ih.addInput _ _ (Or.inl rfl)
  | ro _ ih => exact ih.addInput _ _ (Or.inr rfl)
  | po _ hf ih => exact ih.addOutput _ _ _ hf
  | ri _ hf ih => exact ih.addOutput _ _ _ hf
  | node _ hc hf hn ih => exact ih.createNode _ _ hc hf hn
  | not _ ha ih => exact ih.createLit _ _ _ (by simp) (by simpa using ha) (ih.tables _ _ lit_not) (TT.wf_ofFn _ _) rfl
  | and _ ha hb ih => exact ih.createLit _ _ _ (by simp) (by simp [ha, hb]) (ih.tables _ _ lit_and) (TT.wf_ofFn _ _) rfl
  | or _ ha hb ih => exact ih.createLit _ _ _ (by simp) (by simp [ha, hb]) (ih.tables _ _ lit_or) (TT.wf_ofFn _ _) rfl
  | lt _ ha hb ih => exact ih.createLit _ _ _ (by simp) (by simp [ha, hb]) (ih.tables _ _ lit_lt) (TT.wf_ofFn _ _) rfl
  | le _ ha hb ih => exact ih.createLit _ _ _ (by simp) (by simp [ha, hb]) (ih.tables _ _ lit_le) (TT.wf_ofFn _ _) rfl
  | xor _ ha hb ih => exact ih.createLit _ _ _ (by simp) (by simp [ha, hb]) (ih.tables _ _ lit_xor) (TT.wf_ofFn _ _) rfl
  | maj _ ha hb hc ih => exact ih.createLit _ _ _ (by simp) (by simp [ha, hb, hc]) (ih.tables _ _ lit_maj) (TT.wf_ofFn _ _) rfl
  | ite _ ha hb hc ih => exact ih.createLit _ _ _ (by simp) (by simp [ha, hb, hc]) (ih.tables _ _ lit_ite) (TT.wf_ofFn _ _) rfl
  | xor3 _ ha hb hc ih => exact ih.createLit _ _ _ (by simp) (by simp [ha, hb, hc]) (ih.tables _ _ lit_xor3) (TT.wf_ofFn _ _) rfl

/-- the fanins of a LUT come before it -/
theorem WF.lut {N : Klut} (h : WF N) {n : Nat} {cs : List Nat} {f : TT} (hl : N.IsLut n cs f) :
    n < N.nodes.length ∧ cs ≠ [] ∧ (∀ c ∈ cs, c < n) ∧ f.WF ∧ f.n = cs.length := by
  obtain ⟨h2, hni, nd, hnd, rfl, hf⟩ := hl
  obtain ⟨g1, g2, g, g3, g4, g5⟩ := h.gate n nd hnd h2 hni
  rw [hf] at g3
  obtain rfl := Option.some.inj g3
  exact ⟨lt_of_get hnd, g1, g2, g4, g5⟩

theorem IsLut.unique {N : Klut} {n : Nat} {cs cs' : List Nat} {f f' : TT} (h : N.IsLut n cs f) (h' : N.IsLut n cs' f') :
    cs = cs' ∧ f = f' := by
  obtain ⟨_, _, nd, hnd, rfl, hf⟩ := h
  obtain ⟨_, _, nd', hnd', rfl, hf'⟩ := h'
  rw [hnd] at hnd'
  obtain rfl := Option.some.inj hnd'
  rw [hf] at hf'
  exact ⟨rfl, Option.some.inj hf'⟩

theorem args_congr {v w : Nat → Bool} {cs : List Nat} (h : ∀ c ∈ cs, v c = w c) : args v cs = args w cs := by
  funext j
  unfold args
  cases hj : cs[j]? with
  | none => rfl
  | some c => exact h c (List.mem_of_getElem? hj)

/-- every input assignment has a valuation -/
theorem WF.exists {N : Klut} (h : WF N) (x : Nat → Bool) : ∃ v, Consistent N x v := by
  classical
  have step : ∀ k, ∃ v : Nat → Bool, v 0 = false ∧ v 1 = true ∧ (∀ j n, N.inputs[j]? = some n → v n = x j) ∧
      ∀ n cs f, n < k → N.IsLut n cs f → v n = f.eval (args v cs) := by
    intro k
    induction k with
    | zero =>
      refine ⟨fun n => if n = 1 then true else if n = 0 then false else x (N.inputs.idxOf n), rfl, rfl, ?_, ?_⟩
      · intro j n hj
        have := h.inputs n (List.mem_of_getElem? hj)
        simp only [if_neg (by omega : ¬ n = 1), if_neg (by omega : ¬ n = 0)]
        congr 1
        obtain ⟨hlt, rfl⟩ := List.getElem?_eq_some_iff.1 hj
        exact h.inputsNodup.idxOf_getElem j hlt
      · intro n cs f hn; omega
    | succ k ih =>
      obtain ⟨v, v0, v1, vi, vl⟩ := ih
      by_cases hk : ∃ cs f, N.IsLut k cs f
      · obtain ⟨cs, f, hl⟩ := hk
        have hlow := (h.lut hl).2.2.1
        refine ⟨fun n => if n = k then f.eval (args v cs) else v n, ?_, ?_, ?_, ?_⟩
        · have := hl.1; simp only [if_neg (by omega : ¬ 0 = k)]; exact v0
        · have := hl.1; simp only [if_neg (by omega : ¬ 1 = k)]; exact v1
        · intro j n hj
          have : n ≠ k := by rintro rfl; exact hl.2.1 (List.mem_of_getElem? hj)
          simp only [if_neg this]; exact vi j n hj
        · intro n cs' f' hn hl'
          have hc : ∀ c ∈ cs', c < n := (h.lut hl').2.2.1
          have e : args (fun n => if n = k then f.eval (args v cs) else v n) cs' = args v cs' := by
            apply args_congr
            intro c hm
            have := hc c hm
            simp only [if_neg (by omega : ¬ c = k)]
          rw [e]
          by_cases hnk : n = k
          · subst hnk
            obtain ⟨rfl, rfl⟩ := hl.unique hl'
            simp only [if_pos]
          · simp only [if_neg hnk]
            exact vl n cs' f' (by omega) hl'
      · refine ⟨v, v0, v1, vi, ?_⟩
        intro n cs f hn hl
        have : n ≠ k := by rintro rfl; exact hk ⟨cs, f, hl⟩
        exact vl n cs f (by omega) hl
  obtain ⟨v, v0, v1, vi, vl⟩ := step N.nodes.length
  exact ⟨v, v0, v1, vi, fun n cs f hl => vl n cs f (h.lut hl).1 hl⟩

/-- valuations agree on all nodes -/
theorem WF.unique {N : Klut} (h : WF N) {x v w : Nat → Bool} (hv : Consistent N x v) (hw : Consistent N x w) :
    ∀ n, n < N.nodes.length → v n = w n := by
  intro n
  induction n using Nat.strong_induction_on with
  | _ n ih =>
    intro hn
    by_cases h0 : n = 0
    · subst h0; rw [hv.const0, hw.const0]
    by_cases h1 : n = 1
    · subst h1; rw [hv.const1, hw.const1]
    by_cases hi : n ∈ N.inputs
    · obtain ⟨k, hk⟩ := List.mem_iff_getElem?.1 hi
      rw [hv.input k n hk, hw.input k n hk]
    · obtain ⟨nd, hnd⟩ : ∃ nd, N.nodes[n]? = some nd := ⟨_, List.getElem?_eq_getElem hn⟩
      obtain ⟨_, g2, f, g3, _⟩ := h.gate n nd hnd (by omega) hi
      have hl : N.IsLut n nd.children f := ⟨by omega, hi, nd, hnd, rfl, g3⟩
      rw [hv.lut _ _ _ hl, hw.lut _ _ _ hl]
      congr 1
      apply args_congr
      intro c hc
      have := g2 c hc
      exact ih c this (by omega)

end Verif.Klut
