import Verif.Klut.Subst
import Verif.Klut.Inv

set_option autoImplicit false

/-!
# substitute_node of LUT networks: helper lemmas
-/

namespace Verif.Klut

theorem incFoMany_get (new n : Nat) : ∀ (l : List Nat) (L : List KNode),
    (l.foldl (fun L _ => incFo L new) L)[n]? =
      (L[n]?).map fun nd => { nd with fo := nd.fo + if n = new then l.length else 0 } := by
  intro l
  induction l with
  | nil => intro L; cases h : L[n]? <;> simp [h]
  | cons a l ih =>
    intro L
    rw [List.foldl_cons, ih, incFo, List.getElem?_modify]
    cases h : L[n]? with
    | none => simp
    | some nd =>
      by_cases e : n = new
      · subst e; simp; omega
      · simp [e, Ne.symm e]

theorem filter_length (old : Nat) (l : List Nat) : (l.filter fun c => decide (c = old)).length = l.count old := by
  rw [List.count, List.countP_eq_length_filter]
  congr 1

theorem substLoop_get (N : List KNode) (old new : Nat) : ∀ (k : Nat), k ≤ N.length → ∀ n : Nat,
    ((List.range k).foldl (substAt old new) N)[n]? = (N[n]?).map fun nd =>
      { nd with
        children := if n < k then replaceIn old new nd.children else nd.children
        fo := nd.fo + if n = new then ((N.take k).map fun nd => nd.children.count old).sum else 0 } := by
  intro k
  induction k with
  | zero => intro _ n; cases h : N[n]? <;> simp [h]
  | succ k ih =>
    intro hk n
    rw [List.range_succ, List.foldl_append, List.foldl_cons, List.foldl_nil]
    have hget := ih (by omega)
    generalize hL : (List.range k).foldl (substAt old new) N = L at *
    obtain ⟨nd, hnd⟩ : ∃ nd, N[k]? = some nd := ⟨_, List.getElem?_eq_getElem (by omega)⟩
    have hLk := hget k
    rw [hnd, Option.map_some, if_neg (by omega : ¬ k < k)] at hLk
    rw [substAt, hLk]
    dsimp only
    rw [incFoMany_get, List.getElem?_modify, hget n, filter_length, List.take_add_one, hnd]
    cases hn : N[n]? with
    | none => simp
    | some nd' =>
      by_cases e : k = n
      · subst e
        rw [hnd] at hn
        obtain rfl := Option.some.inj hn
        by_cases e2 : k = new
        · subst e2; simp; omega
        · simp [e2]
      · have hlt : n < k + 1 ↔ n < k := by omega
        by_cases e2 : n = new
        · subst e2; simp [e, hlt]; omega
        · simp [e, e2, hlt]

theorem subst_get (N : Klut) (old new n : Nat) : (N.substituteNode old new).nodes[n]? = (N.nodes[n]?).map fun nd =>
    { nd with
      children := replaceIn old new nd.children
      fo := if n = old then 0 else nd.fo + if n = new then
        (N.nodes.map fun nd => nd.children.count old).sum + N.outputs.count old else 0 } := by
  rw [substituteNode]
  simp only [List.getElem?_modify]
  rw [incFoMany_get, substLoop_get _ _ _ _ (Nat.le_refl _), filter_length, List.take_length]
  cases hn : N.nodes[n]? with
  | none => simp
  | some nd =>
    have hlt : n < N.nodes.length := lt_of_get hn
    by_cases e : n = old
    · subst e; simp [hlt]
    · by_cases e2 : n = new
      · subst e2; simp [hlt, e, Ne.symm e]; omega
      · simp [hlt, e, e2, Ne.symm e]

theorem count_replaceIn {old new : Nat} (h : old ≠ new) (n : Nat) (l : List Nat) : (replaceIn old new l).count n =
    if n = old then 0 else l.count n + if n = new then l.count old else 0 := by
  unfold replaceIn
  induction l with
  | nil => simp
  | cons a l ih =>
    rw [List.map_cons, List.count_cons, ih]
    simp only [List.count_cons]
    by_cases e1 : a = old
    · subst e1
      by_cases e2 : n = a
      · subst e2; simp [Ne.symm h]
      · by_cases e3 : n = new
        · subst e3; simp [e2, h]; omega
        · simp [e2, e3, Ne.symm e2, Ne.symm e3]
    · by_cases e2 : n = old
      · subst e2; simp [e1]
      · by_cases e3 : n = new
        · subst e3; by_cases e4 : a = n <;> simp [e1, e2, e4]; omega
        · by_cases e4 : a = n <;> simp [e1, e2, e3, e4]

theorem subst_length (N : Klut) (old new : Nat) : (N.substituteNode old new).nodes.length = N.nodes.length := by
  apply Nat.le_antisymm
  · by_contra hc
    have h1 : (N.substituteNode old new).nodes[N.nodes.length]? ≠ none := by
      rw [Ne, List.getElem?_eq_none_iff]; omega
    rw [subst_get] at h1
    simp at h1
  · by_contra hc
    have h1 : (N.substituteNode old new).nodes[(N.substituteNode old new).nodes.length]? = none := by
      rw [List.getElem?_eq_none_iff]
    rw [subst_get] at h1
    simp at h1
    omega

theorem subst_map (N : Klut) (old new : Nat) (g : List Nat → Nat) :
    ((N.substituteNode old new).nodes.map fun nd => g nd.children) = N.nodes.map fun nd => g (replaceIn old new nd.children) := by
  apply List.ext_getElem?
  intro n
  rw [List.getElem?_map, List.getElem?_map, subst_get]
  cases N.nodes[n]? <;> rfl

theorem sum_map_add {α : Type} (f g : α → Nat) (l : List α) : (l.map fun a => f a + g a).sum = (l.map f).sum + (l.map g).sum := by
  induction l with
  | nil => rfl
  | cons a l ih => simp only [List.map_cons, List.sum_cons, ih]; omega

theorem subst_fanout {N : Klut} (hN : WF N) {old new : Nat} (h : old ≠ new) (n : Nat) (nd : KNode)
    (hnd : (N.substituteNode old new).nodes[n]? = some nd) :
    nd.fo = ((N.substituteNode old new).nodes.map fun k => k.children.count n).sum +
      (N.substituteNode old new).outputs.count n := by
  rw [subst_get, Option.map_eq_some_iff] at hnd
  obtain ⟨nd0, hnd0, rfl⟩ := hnd
  have hf := hN.fanout n nd0 hnd0
  rw [subst_map N old new (fun l => l.count n)]
  simp only [count_replaceIn h]
  show _ = _ + (replaceIn old new N.outputs).count n
  rw [count_replaceIn h]
  by_cases e : n = old
  · simp only [e, if_true]
    rw [sum_zero]
    intro a ha
    obtain ⟨_, _, rfl⟩ := List.mem_map.1 ha
    rfl
  · simp only [e, if_false]
    by_cases e2 : n = new
    · simp only [e2, if_true] at *
      rw [sum_map_add, hf]; omega
    · simp only [e2, if_false]
      rw [hf]; rfl

theorem subst_isLut (N : Klut) (old new n : Nat) (cs : List Nat) (f : TT) :
    (N.substituteNode old new).IsLut n cs f ↔ ∃ cs0, N.IsLut n cs0 f ∧ cs = replaceIn old new cs0 := by
  constructor
  · rintro ⟨h2, hi, nd, hnd, rfl, hf⟩
    rw [subst_get, Option.map_eq_some_iff] at hnd
    obtain ⟨nd0, hnd0, rfl⟩ := hnd
    exact ⟨nd0.children, ⟨h2, hi, nd0, hnd0, rfl, hf⟩, rfl⟩
  · rintro ⟨cs0, ⟨h2, hi, nd, hnd, rfl, hf⟩, rfl⟩
    obtain ⟨nd', hnd', e1, e2⟩ : ∃ nd', (N.substituteNode old new).nodes[n]? = some nd' ∧
        nd'.children = replaceIn old new nd.children ∧ nd'.fn = nd.fn := by
      rw [subst_get, hnd]; exact ⟨_, rfl, rfl, rfl⟩
    exact ⟨h2, hi, nd', hnd', e1, by rw [e2]; exact hf⟩

end Verif.Klut
