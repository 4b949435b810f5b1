import Verif.Aig.Spec
import Mathlib.Tactic.Tauto
import Mathlib.Tactic.ByContra
import Mathlib.Data.List.Nodup

set_option autoImplicit false

/-!
# Invariants of constructed AIGs (helper lemmas)
-/

namespace Verif.Aig

/-- Invariant of networks built with the construction API. -/
structure WF (N : Aig) : Prop where
  pos : 0 < N.nodes.length
  node0 : ∀ nd, N.nodes[0]? = some nd → nd.c0 = nd.c1 ∧ nd.dead = false
  input : ∀ k n, N.inputs[k]? = some n →
    0 < n ∧ ∃ nd, N.nodes[n]? = some nd ∧ nd.c0 = Sig.ofData k ∧ nd.c1 = Sig.ofData k ∧ nd.dead = false
  gate : ∀ n nd, N.nodes[n]? = some nd → n ≠ 0 → n ∉ N.inputs →
    0 < nd.c0.index ∧ nd.c0.index < nd.c1.index ∧ nd.c1.index < n ∧ nd.dead = false
  table : ∀ t, t ∈ N.table ↔ (t ≠ 0 ∧ t ∉ N.inputs ∧ t < N.nodes.length)
  tableNodup : N.table.Nodup
  inputsNodup : N.inputs.Nodup
  uniq : ∀ t u a b, N.IsGate t a b → N.IsGate u a b → t = u
  outputs : ∀ s ∈ N.outputs, N.Valid s

/-- `N'` has all nodes of `N` (same fanins) and possibly more. -/
structure Ext (N N' : Aig) : Prop where
  len : N.nodes.length ≤ N'.nodes.length
  kids : ∀ (n : Nat) (nd : Node), N.nodes[n]? = some nd → ∃ nd', N'.nodes[n]? = some nd' ∧
    nd'.c0 = nd.c0 ∧ nd'.c1 = nd.c1 ∧ nd'.dead = nd.dead ∧ nd'.phase = nd.phase
  inputs : N.inputs <+: N'.inputs
  inputsNew : ∀ n ∈ N'.inputs, n < N.nodes.length → n ∈ N.inputs

theorem Ext.refl (N : Aig) : Ext N N :=
  ⟨le_rfl, fun _ nd h => ⟨nd, h, rfl, rfl, rfl, rfl⟩, List.prefix_refl _, fun _ h _ => h⟩

theorem Ext.trans {N N' N'' : Aig} (h : Ext N N') (h' : Ext N' N'') : Ext N N'' := by
  refine ⟨h.len.trans h'.len, ?_, h.inputs.trans h'.inputs, ?_⟩
  · intro n nd hn
    obtain ⟨nd', hn', e1, e2, e3, e4⟩ := h.kids n nd hn
    obtain ⟨nd'', hn'', f1, f2, f3, f4⟩ := h'.kids n nd' hn'
    exact ⟨nd'', hn'', f1.trans e1, f2.trans e2, f3.trans e3, f4.trans e4⟩
  · intro n hn hl
    exact h.inputsNew n (h'.inputsNew n hn (lt_of_lt_of_le hl h.len)) hl

theorem lt_of_getElem? {α} {l : List α} {n : Nat} {a : α} (h : l[n]? = some a) : n < l.length := by
  rw [List.getElem?_eq_some_iff] at h; exact h.1

theorem Ext.isGate {N N' : Aig} (h : Ext N N') {n a b} (g : N.IsGate n a b) : N'.IsGate n a b := by
  obtain ⟨h0, h1, nd, hn, hd, e0, e1⟩ := g
  obtain ⟨nd', hn', f0, f1, f2, _⟩ := h.kids n nd hn
  exact ⟨h0, fun hc => h1 (h.inputsNew n hc (lt_of_getElem? hn)), nd', hn', f2.trans hd, f0.trans e0,
    f1.trans e1⟩

theorem Ext.models {N N' : Aig} (h : Ext N N') {v} (hv : N'.Models v) : N.Models v :=
  ⟨hv.const, fun n a b g => hv.gate n a b (h.isGate g)⟩

theorem prefix_getElem? {α} {l l' : List α} (h : l <+: l') {k : Nat} {a : α} (hk : l[k]? = some a) :
    l'[k]? = some a := by
  obtain ⟨t, rfl⟩ := h
  rw [List.getElem?_append_left (lt_of_getElem? hk)]; exact hk

theorem Ext.consistent {N N' : Aig} (h : Ext N N') {x v} (hv : N'.Consistent x v) :
    N.Consistent x v :=
  ⟨h.models hv.models, fun k n hk => hv.input k n (prefix_getElem? h.inputs hk)⟩

theorem Ext.valid {N N' : Aig} (h : Ext N N') {s} (hs : N.Valid s) : N'.Valid s :=
  lt_of_lt_of_le hs h.len

@[simp] theorem valid_not {N : Aig} {s} : N.Valid s.not ↔ N.Valid s := Iff.rfl
@[simp] theorem valid_pos {N : Aig} {s} : N.Valid s.pos ↔ N.Valid s := Iff.rfl
@[simp] theorem valid_neg {N : Aig} {s} : N.Valid s.neg ↔ N.Valid s := Iff.rfl
@[simp] theorem valid_xorb {N : Aig} {s c} : N.Valid (s.xorb c) ↔ N.Valid s := Iff.rfl

theorem WF.valid_const {N : Aig} (h : WF N) (b : Bool) : N.Valid (Sig.const b) := h.pos

/-! ### `incFo` -/

@[simp] theorem incFo_length (N : Aig) (i : Nat) : (N.incFo i).nodes.length = N.nodes.length := by
  simp [incFo]

@[simp] theorem incFo_inputs (N : Aig) (i : Nat) : (N.incFo i).inputs = N.inputs := rfl
@[simp] theorem incFo_outputs (N : Aig) (i : Nat) : (N.incFo i).outputs = N.outputs := rfl
@[simp] theorem incFo_table (N : Aig) (i : Nat) : (N.incFo i).table = N.table := rfl
@[simp] theorem incFo_numPis (N : Aig) (i : Nat) : (N.incFo i).numPis = N.numPis := rfl
@[simp] theorem incFo_numPos (N : Aig) (i : Nat) : (N.incFo i).numPos = N.numPos := rfl
@[simp] theorem incFo_latches (N : Aig) (i : Nat) : (N.incFo i).latches = N.latches := rfl

theorem incFo_get (N : Aig) (i n : Nat) :
    (N.incFo i).nodes[n]? =
      (N.nodes[n]?).map fun nd => if i = n then { nd with fo := nd.fo + 1 } else nd := by
  simp [incFo, List.getElem?_modify]
  

theorem incFo_get_some {N : Aig} {i n : Nat} {nd : Node} (h : (N.incFo i).nodes[n]? = some nd) :
    ∃ nd', N.nodes[n]? = some nd' ∧ nd.c0 = nd'.c0 ∧ nd.c1 = nd'.c1 ∧ nd.dead = nd'.dead ∧
      nd.phase = nd'.phase := by
  rw [incFo_get] at h
  cases hn : N.nodes[n]? with
  | none => rw [hn] at h; simp at h
  | some nd' =>
    rw [hn] at h
    simp only [Option.map_some, Option.some.injEq] at h
    refine ⟨nd', rfl, ?_⟩
    subst h
    split <;> simp

theorem ext_incFo (N : Aig) (i : Nat) : Ext N (N.incFo i) := by
  refine ⟨by simp, ?_, by simp, fun _ h _ => h⟩
  intro n nd hn
  rw [incFo_get, hn]
  refine ⟨_, rfl, ?_⟩
  split <;> simp

theorem incFo_ext (N : Aig) (i : Nat) : Ext (N.incFo i) N := by
  refine ⟨by simp, ?_, by simp, fun _ h _ => h⟩
  intro n nd hn
  obtain ⟨nd', h, e1, e2, e3, e4⟩ := incFo_get_some hn
  exact ⟨nd', h, e1.symm, e2.symm, e3.symm, e4.symm⟩

theorem incFo_isGate (N : Aig) (i n : Nat) (a b : Sig) : (N.incFo i).IsGate n a b ↔ N.IsGate n a b :=
  ⟨(incFo_ext N i).isGate, (ext_incFo N i).isGate⟩

theorem WF.incFo {N : Aig} (h : WF N) (i : Nat) : WF (N.incFo i) := by
  refine ⟨by simpa using h.pos, ?_, ?_, ?_, by simpa using h.table, h.tableNodup, h.inputsNodup, ?_, ?_⟩
  · intro nd hn
    obtain ⟨nd', hn', e0, e1, e2, _⟩ := incFo_get_some hn
    have := h.node0 nd' hn'
    rw [e0, e1, e2]; exact this
  · intro k n hk
    obtain ⟨h0, nd, hn, e0, e1, e2⟩ := h.input k n hk
    obtain ⟨nd', hn', f0, f1, f2, _⟩ := (ext_incFo N i).kids n nd hn
    exact ⟨h0, nd', hn', f0.trans e0, f1.trans e1, f2.trans e2⟩
  · intro n nd hn h0 h1
    obtain ⟨nd', hn', e0, e1, e2, _⟩ := incFo_get_some hn
    have := h.gate n nd' hn' h0 h1
    rw [e0, e1, e2]; exact this
  · intro t u a b
    rw [incFo_isGate, incFo_isGate]; exact h.uniq t u a b
  · intro s hs
    simpa [Valid] using h.outputs s hs

/-! ### adding an input -/

theorem WF.inputs_lt {N : Aig} (h : WF N) {n} (hn : n ∈ N.inputs) : 0 < n ∧ n < N.nodes.length := by
  obtain ⟨k, hk⟩ := List.getElem?_of_mem hn
  obtain ⟨h0, nd, hnd, _⟩ := h.input k n hk
  exact ⟨h0, lt_of_getElem? hnd⟩

theorem append_get_cases {α} {l : List α} {a b : α} {n : Nat} (h : (l ++ [a])[n]? = some b) :
    l[n]? = some b ∨ (n = l.length ∧ b = a) := by
  rw [List.getElem?_append] at h
  split at h
  · exact Or.inl h
  · right
    rename_i hn
    have : n - l.length = 0 := by
      by_contra hc
      rw [List.getElem?_eq_none] at h
      · simp at h
      · simp; omega
    rw [this] at h
    simp at h
    exact ⟨by omega, h.symm⟩

/-- The common part of `create_pi` and `create_ro`. -/
def addCi (N : Aig) : Aig :=
  let d := Sig.ofData N.inputs.length
  { N with nodes := N.nodes ++ [{ c0 := d, c1 := d }], inputs := N.inputs ++ [N.nodes.length] }

theorem ext_addCi (N : Aig) : Ext N N.addCi := by
  refine ⟨by simp [addCi], ?_, by simp [addCi], ?_⟩
  · intro n nd hn
    refine ⟨nd, ?_, rfl, rfl, rfl, rfl⟩
    simp only [addCi]
    rw [List.getElem?_append_left (lt_of_getElem? hn)]; exact hn
  · intro n hn hl
    simp [addCi] at hn
    rcases hn with h | h
    · exact h
    · omega

theorem addCi_isGate (N : Aig) (n : Nat) (a b : Sig) : N.addCi.IsGate n a b ↔ N.IsGate n a b := by
  refine ⟨?_, (ext_addCi N).isGate⟩
  rintro ⟨h0, h1, nd, hn, hd, e0, e1⟩
  simp [addCi] at h1
  refine ⟨h0, h1.1, nd, ?_, hd, e0, e1⟩
  rcases append_get_cases hn with h | ⟨h, _⟩
  · exact h
  · exact absurd h h1.2

theorem WF.addCi {N : Aig} (h : WF N) : WF N.addCi := by
  refine ⟨by simp [Aig.addCi], ?_, ?_, ?_, ?_, h.tableNodup, ?_, ?_, ?_⟩
  · intro nd hn
    rcases append_get_cases hn with h' | ⟨h', _⟩
    · exact h.node0 nd h'
    · have := h.pos; omega
  · intro k n hk
    rcases append_get_cases hk with h' | ⟨h', e⟩
    · obtain ⟨h0, nd, hn, e0, e1, e2⟩ := h.input k n h'
      obtain ⟨nd', hn', f0, f1, f2, _⟩ := (ext_addCi N).kids n nd hn
      exact ⟨h0, nd', hn', f0.trans e0, f1.trans e1, f2.trans e2⟩
    · subst e
      exact ⟨h.pos, { c0 := Sig.ofData N.inputs.length, c1 := Sig.ofData N.inputs.length },
        by simp [Aig.addCi], by simp [h']⟩
  · intro n nd hn h0 h1
    simp [Aig.addCi] at h1
    rcases append_get_cases hn with h' | ⟨h', _⟩
    · exact h.gate n nd h' h0 h1.1
    · exact absurd h' h1.2
  · intro t
    simp only [Aig.addCi, List.mem_append, List.mem_singleton, List.length_append, List.length_singleton]
    rw [h.table]
    constructor
    · rintro ⟨a, b, c⟩; exact ⟨a, by rintro (h | h); exact b h; omega, by omega⟩
    · rintro ⟨a, b, c⟩; exact ⟨a, by tauto, by omega⟩
  · simp only [Aig.addCi]
    rw [List.nodup_append]
    refine ⟨h.inputsNodup, by simp, ?_⟩
    intro a ha b hb
    simp at hb
    have := (h.inputs_lt ha).2
    omega
  · intro t u a b
    rw [addCi_isGate, addCi_isGate]; exact h.uniq t u a b
  · intro s hs
    exact (ext_addCi N).valid (h.outputs s hs)

/-! ### fields the invariant ignores -/

theorem WF.congr {N M : Aig} (h : WF N) (e1 : M.nodes = N.nodes) (e2 : M.inputs = N.inputs)
    (e3 : M.table = N.table) (e4 : ∀ s ∈ M.outputs, M.Valid s) : WF M := by
  have hg : ∀ n a b, M.IsGate n a b ↔ N.IsGate n a b := by
    intro n a b; simp [IsGate, e1, e2]
  refine ⟨by rw [e1]; exact h.pos, by rw [e1]; exact h.node0, by rw [e1, e2]; exact h.input,
    by rw [e1, e2]; exact h.gate, by rw [e1, e2, e3]; exact h.table, by rw [e3]; exact h.tableNodup,
    by rw [e2]; exact h.inputsNodup, ?_, e4⟩
  intro t u a b
  rw [hg, hg]; exact h.uniq t u a b

theorem Ext.congr {N M : Aig} (e1 : M.nodes = N.nodes) (e2 : M.inputs = N.inputs) : Ext N M := by
  refine ⟨by rw [e1], ?_, by rw [e2]; exact List.prefix_refl _, ?_⟩
  · intro n nd h; exact ⟨nd, by rw [e1]; exact h, rfl, rfl, rfl, rfl⟩
  · intro n h _; rwa [e2] at h

theorem WF.createPi {N : Aig} (h : WF N) : WF N.createPi.1 :=
  h.addCi.congr rfl rfl rfl (h.addCi).outputs

theorem WF.createRo {N : Aig} (h : WF N) : WF N.createRo.1 :=
  h.addCi.congr rfl rfl rfl (h.addCi).outputs

theorem ext_createPi (N : Aig) : Ext N N.createPi.1 :=
  (ext_addCi N).trans (Ext.congr rfl rfl)

theorem ext_createRo (N : Aig) : Ext N N.createRo.1 :=
  (ext_addCi N).trans (Ext.congr rfl rfl)

theorem WF.createPo {N : Aig} (h : WF N) {f} (hf : N.Valid f) : WF (N.createPo f) := by
  refine (h.incFo f.index).congr rfl rfl rfl ?_
  intro s hs
  simp [Aig.createPo] at hs
  simp [Valid, Aig.createPo]
  rcases hs with hs | hs
  · exact h.outputs s hs
  · subst hs; exact hf

theorem ext_createPo (N : Aig) (f : Sig) : Ext N (N.createPo f) :=
  (ext_incFo N f.index).trans (Ext.congr rfl rfl)

theorem WF.createRi {N : Aig} (h : WF N) {f} {r} (hf : N.Valid f) : WF (N.createRi f r) := by
  refine (h.incFo f.index).congr rfl rfl rfl ?_
  intro s hs
  simp [Aig.createRi] at hs
  simp [Valid, Aig.createRi]
  rcases hs with hs | hs
  · exact h.outputs s hs
  · subst hs; exact hf

theorem ext_createRi (N : Aig) (f : Sig) (r) : Ext N (N.createRi f r) :=
  (ext_incFo N f.index).trans (Ext.congr rfl rfl)

/-! ### adding an AND node -/

/-- node vector and table after allocating an AND node, before the counters are updated. -/
def pushAnd (N : Aig) (a b : Sig) (ph : Bool) : Aig :=
  { N with nodes := N.nodes ++ [{ c0 := a, c1 := b, phase := ph }], table := N.nodes.length :: N.table }

theorem addAnd_eq (N : Aig) (a b : Sig) : ∃ ph, N.addAnd a b =
    (((N.pushAnd a b ph).incFo a.index).incFo b.index, ⟨N.nodes.length, false⟩) := ⟨_, rfl⟩

theorem ext_pushAnd (N : Aig) (a b : Sig) (ph : Bool) : Ext N (N.pushAnd a b ph) := by
  refine ⟨by simp [pushAnd], ?_, by simp [pushAnd], by simp [pushAnd]; tauto⟩
  intro n nd hn
  refine ⟨nd, ?_, rfl, rfl, rfl, rfl⟩
  simp only [pushAnd]
  rw [List.getElem?_append_left (lt_of_getElem? hn)]; exact hn

theorem WF.not_input_length {N : Aig} (h : WF N) : N.nodes.length ∉ N.inputs := by
  intro hc; have := (h.inputs_lt hc).2; omega

theorem pushAnd_isGate {N : Aig} (h : WF N) (a b : Sig) (ph : Bool) (n : Nat) (c d : Sig) :
    (N.pushAnd a b ph).IsGate n c d ↔ N.IsGate n c d ∨ (n = N.nodes.length ∧ c = a ∧ d = b) := by
  constructor
  · rintro ⟨h0, h1, nd, hn, hd, e0, e1⟩
    rcases append_get_cases hn with h' | ⟨h', e⟩
    · exact Or.inl ⟨h0, h1, nd, h', hd, e0, e1⟩
    · subst e; exact Or.inr ⟨h', e0.symm, e1.symm⟩
  · rintro (g | ⟨rfl, rfl, rfl⟩)
    · exact (ext_pushAnd N a b ph).isGate g
    · exact ⟨by have := h.pos; omega, h.not_input_length, _, by simp [pushAnd]; rfl, rfl, rfl, rfl⟩

theorem WF.pushAnd {N : Aig} (h : WF N) {a b : Sig} (ph : Bool) (ha : 0 < a.index)
    (hab : a.index < b.index) (hb : N.Valid b) (hnew : ∀ n, ¬ N.IsGate n a b) :
    WF (N.pushAnd a b ph) := by
  refine ⟨by simp [Aig.pushAnd], ?_, ?_, ?_, ?_, ?_, h.inputsNodup, ?_, ?_⟩
  · intro nd hn
    rcases append_get_cases hn with h' | ⟨h', _⟩
    · exact h.node0 nd h'
    · have := h.pos; omega
  · intro k n hk
    obtain ⟨h0, nd, hn, e⟩ := h.input k n hk
    refine ⟨h0, nd, ?_, e⟩
    simp only [Aig.pushAnd]
    rw [List.getElem?_append_left (lt_of_getElem? hn)]; exact hn
  · intro n nd hn h0 h1
    rcases append_get_cases hn with h' | ⟨h', e⟩
    · exact h.gate n nd h' h0 h1
    · subst e; subst h'
      exact ⟨ha, hab, hb, rfl⟩
  · intro t
    simp only [Aig.pushAnd, List.mem_cons, List.length_append, List.length_singleton]
    rw [h.table]
    constructor
    · rintro (rfl | ⟨a, b, c⟩)
      · exact ⟨by have := h.pos; omega, h.not_input_length, by omega⟩
      · exact ⟨a, b, by omega⟩
    · rintro ⟨a, b, c⟩
      by_cases ht : t = N.nodes.length
      · exact Or.inl ht
      · exact Or.inr ⟨a, b, by omega⟩
  · simp only [Aig.pushAnd, List.nodup_cons]
    refine ⟨?_, h.tableNodup⟩
    rw [h.table]; omega
  · intro t u c d
    rw [pushAnd_isGate h, pushAnd_isGate h]
    rintro (g | ⟨rfl, rfl, rfl⟩) (g' | ⟨rfl, h1, h2⟩)
    · exact h.uniq t u c d g g'
    · subst h1; subst h2; exact absurd g (hnew t)
    · exact absurd g' (hnew u)
    · rfl
  · intro s hs
    exact (ext_pushAnd N a b ph).valid (h.outputs s hs)

/-! ### the hash lookup -/

theorem WF.isGate_of_table {N : Aig} (h : WF N) {t} (ht : t ∈ N.table) :
    ∃ nd, N.nodes[t]? = some nd ∧ N.IsGate t nd.c0 nd.c1 := by
  obtain ⟨h0, h1, h2⟩ := (h.table t).1 ht
  obtain ⟨nd, hn⟩ : ∃ nd, N.nodes[t]? = some nd := ⟨_, List.getElem?_eq_getElem h2⟩
  exact ⟨nd, hn, h0, h1, nd, hn, (h.gate t nd hn h0 h1).2.2.2, rfl, rfl⟩

theorem WF.hashFind_some {N : Aig} (h : WF N) {a b t} (hf : N.hashFind a b = some t) :
    N.IsGate t a b := by
  have hm := List.mem_of_find?_eq_some hf
  have hp := List.find?_some hf
  obtain ⟨nd, hn, g⟩ := h.isGate_of_table hm
  simp [hasKids, hn] at hp
  rw [hp.1, hp.2] at g; exact g

theorem WF.hashFind_none {N : Aig} (h : WF N) {a b} (hf : N.hashFind a b = none) (n : Nat) :
    ¬ N.IsGate n a b := by
  rintro ⟨h0, h1, nd, hn, hd, e0, e1⟩
  rw [hashFind, List.find?_eq_none] at hf
  refine hf n ((h.table n).2 ⟨h0, h1, lt_of_getElem? hn⟩) ?_
  simp [hasKids, hn, e0, e1]

theorem WF.hashFind_eq {N : Aig} (h : WF N) {a b t} (g : N.IsGate t a b) :
    N.hashFind a b = some t := by
  cases hf : N.hashFind a b with
  | none => exact absurd g (h.hashFind_none hf t)
  | some u => rw [h.uniq u t a b (h.hashFind_some hf) g]

/-! ### `create_and` -/

theorem WF.addAnd {N : Aig} (h : WF N) {a b : Sig} (ha : 0 < a.index)
    (hab : a.index < b.index) (hb : N.Valid b) (hnew : ∀ n, ¬ N.IsGate n a b) :
    WF (N.addAnd a b).1 := by
  obtain ⟨ph, e⟩ := addAnd_eq N a b
  rw [e]
  exact ((h.pushAnd ph ha hab hb hnew).incFo _).incFo _

theorem ext_addAnd (N : Aig) (a b : Sig) : Ext N (N.addAnd a b).1 := by
  obtain ⟨ph, e⟩ := addAnd_eq N a b
  rw [e]
  exact ((ext_pushAnd N a b ph).trans (ext_incFo _ _)).trans (ext_incFo _ _)

theorem addAnd_isGate {N : Aig} (h : WF N) (a b : Sig) (n : Nat) (c d : Sig) :
    (N.addAnd a b).1.IsGate n c d ↔ N.IsGate n c d ∨ (n = N.nodes.length ∧ c = a ∧ d = b) := by
  obtain ⟨ph, e⟩ := addAnd_eq N a b
  rw [e, incFo_isGate, incFo_isGate, pushAnd_isGate h]

@[simp] theorem addAnd_sig (N : Aig) (a b : Sig) : (N.addAnd a b).2 = ⟨N.nodes.length, false⟩ := rfl

@[simp] theorem addAnd_length (N : Aig) (a b : Sig) :
    (N.addAnd a b).1.nodes.length = N.nodes.length + 1 := by
  obtain ⟨ph, e⟩ := addAnd_eq N a b
  rw [e]; simp [pushAnd]

theorem order_cases (a b : Sig) : order a b = (a, b) ∧ a.index ≤ b.index ∨
    order a b = (b, a) ∧ b.index < a.index := by
  unfold order
  split
  · right; exact ⟨rfl, by assumption⟩
  · left; exact ⟨rfl, by omega⟩

/-- Everything later proofs need about one constructor call that returned `r` from `N`:
the returned signal has the value `f v` in every valuation `v` of the new network. -/
structure GateSpec (N : Aig) (f : (Nat → Bool) → Bool) (r : Aig × Sig) : Prop where
  wf : WF r.1
  ext : Ext N r.1
  valid : r.1.Valid r.2
  val : ∀ v, r.1.Models v → r.2.val v = f v
  inputs : r.1.inputs = N.inputs
  outputs : r.1.outputs = N.outputs
  numPis : r.1.numPis = N.numPis
  numPos : r.1.numPos = N.numPos
  latches : r.1.latches = N.latches
  built : Built N → Built r.1

/-- `create_and` after the operands have been ordered. -/
def createAndOrd (N : Aig) (a b : Sig) : Aig × Sig :=
  if a.index = b.index then
    (N, if a.compl = b.compl then a else Sig.const false)
  else if a.index = 0 then
    (N, if a.compl then b else Sig.const false)
  else
    match N.hashFind a b with
    | some t => (N, ⟨t, false⟩)
    | none => N.addAnd a b

theorem createAnd_eq (N : Aig) (a b : Sig) :
    N.createAnd a b = N.createAndOrd (order a b).1 (order a b).2 := rfl

theorem createAnd_ordered {N : Aig} (h : WF N) {a b : Sig} (hab : a.index ≤ b.index)
    (ha : N.Valid a) (hb : N.Valid b) (hB : Built N → Built (N.createAndOrd a b).1) :
    GateSpec N (fun v => a.val v && b.val v) (N.createAndOrd a b) := by
  unfold createAndOrd at *
  split
  · rename_i hi
    refine ⟨h, Ext.refl N, ?_, ?_, rfl, rfl, rfl, rfl, rfl, ?_⟩
    · dsimp only; split
      · exact ha
      · exact h.valid_const _
    · intro v hv
      cases a with | mk i c => cases b with | mk j d =>
        simp only at hi; subst hi
        cases c <;> cases d <;> simp [Sig.val, Sig.const, hv.const]
    · exact fun h => h
  split
  · rename_i hi h0
    refine ⟨h, Ext.refl N, ?_, ?_, rfl, rfl, rfl, rfl, rfl, ?_⟩
    · dsimp only; split
      · exact hb
      · exact h.valid_const _
    · intro v hv
      cases a with | mk i c => 
        simp only at h0; subst h0
        cases c <;> simp [Sig.val, Sig.const, hv.const]
    · exact fun h => h
  rename_i hi h0
  split
  · rename_i t ht
    have g := h.hashFind_some ht
    refine ⟨h, Ext.refl N, ?_, ?_, rfl, rfl, rfl, rfl, rfl, ?_⟩
    · obtain ⟨_, _, nd, hn, _⟩ := g
      exact lt_of_getElem? hn
    · intro v hv
      have := hv.gate t a b g
      simp [Sig.val] at this ⊢
      exact this
    · exact fun h => h
  · rename_i ht
    have hnew := h.hashFind_none ht
    refine ⟨h.addAnd (by omega) (by omega) hb hnew, ext_addAnd N a b, ?_, ?_, rfl, rfl, rfl, rfl, rfl, ?_⟩
    · simp [Valid]
    · intro v hv
      have := hv.gate N.nodes.length a b ((addAnd_isGate h a b _ _ _).2 (Or.inr ⟨rfl, rfl, rfl⟩))
      simp [Sig.val] at this ⊢
      exact this
    · simpa [hi, h0, ht] using hB

theorem createAnd_spec {N : Aig} (h : WF N) {a b : Sig} (ha : N.Valid a) (hb : N.Valid b) :
    GateSpec N (fun v => a.val v && b.val v) (N.createAnd a b) := by
  have hB : Built N → Built (N.createAnd a b).1 := fun hN => Built.and hN ha hb
  rw [createAnd_eq] at hB ⊢
  rcases order_cases a b with ⟨e, hab⟩ | ⟨e, hab⟩
  · rw [e] at hB ⊢; exact createAnd_ordered h hab ha hb hB
  · rw [e] at hB ⊢
    have := createAnd_ordered h (le_of_lt hab) hb ha hB
    exact { this with val := fun v hv => (this.val v hv).trans (Bool.and_comm _ _) }

/-- `create_and` either leaves the network alone or allocates exactly one new gate. -/
theorem createAnd_cases (N : Aig) (a b : Sig) :
    (N.createAnd a b).1 = N ∨
    ∃ c d, order a b = (c, d) ∧ c.index ≠ d.index ∧ c.index ≠ 0 ∧ c.index < d.index ∧
      N.hashFind c d = none ∧ N.createAnd a b = N.addAnd c d := by
  rw [createAnd_eq]
  have hord : (order a b).1.index ≤ (order a b).2.index := by
    rcases order_cases a b with ⟨e, h⟩ | ⟨e, h⟩ <;> rw [e] <;> simp <;> omega
  unfold createAndOrd
  split
  · exact Or.inl rfl
  split
  · exact Or.inl rfl
  split
  · exact Or.inl rfl
  · right
    rename_i h1 h2 _ h3
    exact ⟨(order a b).1, (order a b).2, rfl, h1, h2, lt_of_le_of_ne hord h1, h3, rfl⟩

theorem WF.empty : WF Aig.empty := by
  refine ⟨by simp [Aig.empty], ?_, ?_, ?_, ?_, ?_, ?_, ?_, ?_⟩ <;> simp [Aig.empty]
  · rintro (_ | n) nd hn h0
    · exact absurd rfl h0
    · simp at hn
  · rintro t u a b ⟨h0, _, nd, hn, _⟩
    cases t with
    | zero => exact absurd rfl h0
    | succ n => simp at hn

theorem Built.wf {N : Aig} (h : Built N) : WF N := by
  induction h with
  | empty => exact WF.empty
  | pi _ ih => exact ih.createPi
  | ro _ ih => exact ih.createRo
  | po _ hf ih => exact ih.createPo hf
  | ri _ hf ih => exact ih.createRi hf
  | and _ ha hb ih => exact (createAnd_spec ih ha hb).wf

/-! ### existence and uniqueness of valuations -/

/-- Value of node `n` computed from the inputs by recursion on the index. -/
def value (N : Aig) (x : Nat → Bool) (n : Nat) : Bool :=
  if n = 0 then false
  else if n ∈ N.inputs then x (N.inputs.idxOf n)
  else match N.nodes[n]? with
    | none => false
    | some nd =>
      if _h : nd.c0.index < n ∧ nd.c1.index < n then
        (Bool.xor nd.c0.compl (value N x nd.c0.index)) && (Bool.xor nd.c1.compl (value N x nd.c1.index))
      else false
termination_by n
decreasing_by
  · exact _h.1
  · exact _h.2

theorem WF.isGate_lt {N : Aig} (h : WF N) {n a b} (g : N.IsGate n a b) :
    0 < a.index ∧ a.index < b.index ∧ b.index < n ∧ n < N.nodes.length := by
  obtain ⟨h0, h1, nd, hn, hd, rfl, rfl⟩ := g
  have := h.gate n nd hn h0 h1
  exact ⟨this.1, this.2.1, this.2.2.1, lt_of_getElem? hn⟩

theorem WF.consistent_value {N : Aig} (h : WF N) (x : Nat → Bool) :
    N.Consistent x (N.value x) := by
  refine ⟨⟨?_, ?_⟩, ?_⟩
  · unfold value; simp
  · rintro n a b g
    have hl := h.isGate_lt g
    obtain ⟨h0, h1, nd, hn, hd, rfl, rfl⟩ := g
    rw [value]
    simp only [h0, if_false, h1, hn]
    rw [dif_pos ⟨by omega, by omega⟩]
    rfl
  · intro k n hk
    have h0 := (h.input k n hk).1
    obtain ⟨hlt, he⟩ := List.getElem?_eq_some_iff.1 hk
    have hi : N.inputs.idxOf n = k := by
      rw [← he]; exact h.inputsNodup.idxOf_getElem k hlt
    rw [value, if_neg (by omega), if_pos (List.mem_of_getElem? hk), hi]

theorem WF.unique {N : Aig} (h : WF N) {x v w} (hv : N.Consistent x v) (hw : N.Consistent x w) :
    ∀ n, n < N.nodes.length → v n = w n := by
  intro n
  induction n using Nat.strong_induction_on with
  | _ n ih =>
    intro hl
    by_cases h0 : n = 0
    · subst h0; rw [hv.models.const, hw.models.const]
    by_cases hi : n ∈ N.inputs
    · obtain ⟨k, hk⟩ := List.getElem?_of_mem hi
      rw [hv.input k n hk, hw.input k n hk]
    · obtain ⟨nd, hn⟩ : ∃ nd, N.nodes[n]? = some nd := ⟨_, List.getElem?_eq_getElem hl⟩
      have hg := h.gate n nd hn h0 hi
      have g : N.IsGate n nd.c0 nd.c1 := ⟨h0, hi, nd, hn, hg.2.2.2, rfl, rfl⟩
      rw [hv.models.gate n _ _ g, hw.models.gate n _ _ g]
      simp only [Sig.val]
      rw [ih nd.c0.index (by omega) (by omega), ih nd.c1.index (by omega) (by omega)]

theorem WF.unique_val {N : Aig} (h : WF N) {x v w} (hv : N.Consistent x v) (hw : N.Consistent x w)
    {s} (hs : N.Valid s) : s.val v = s.val w := by
  simp [Sig.val, h.unique hv hw s.index hs]

end Verif.Aig
