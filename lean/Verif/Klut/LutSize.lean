import Verif.Klut.Inv
import Verif.Klut.Collapse

set_option autoImplicit false

/-!
# Size of the LUTs made from a mapped AIG (helper lemmas)
-/

namespace Verif.Collapse

/-- every LUT has at most `k` fanins -/
def Small (k : Nat) (K : Klut) : Prop := ∀ (n : Nat) nd, K.nodes[n]? = some nd → nd.children.length ≤ k

theorem Small.incFo {k : Nat} {l : List KNode} (h : ∀ (n : Nat) nd, l[n]? = some nd → nd.children.length ≤ k) (i : Nat) :
    ∀ (n : Nat) nd, (Klut.incFo l i)[n]? = some nd → nd.children.length ≤ k := by
  intro n nd e
  rw [Klut.incFo_get] at e
  cases hn : l[n]? with
  | none => rw [hn] at e; simp at e
  | some nd' =>
    rw [hn] at e
    obtain rfl := Option.some.inj e
    exact h n nd' hn

theorem Small.foldl {k : Nat} : ∀ (cs : List Nat) (l : List KNode), (∀ (n : Nat) nd, l[n]? = some nd → nd.children.length ≤ k) →
    ∀ (n : Nat) nd, (cs.foldl Klut.incFo l)[n]? = some nd → nd.children.length ≤ k := by
  intro cs
  induction cs with
  | nil => intro l h; exact h
  | cons c cs ih => intro l h; exact ih _ (Small.incFo h c)

theorem Small.snoc {k : Nat} {l : List KNode} (h : ∀ (n : Nat) nd, l[n]? = some nd → nd.children.length ≤ k) {d : KNode}
    (hd : d.children.length ≤ k) : ∀ (n : Nat) nd, (l ++ [d])[n]? = some nd → nd.children.length ≤ k := by
  intro n nd e
  rcases Nat.lt_or_ge n l.length with hn | hn
  · rw [List.getElem?_append_left hn] at e; exact h n nd e
  · rw [List.getElem?_append_right hn] at e
    have : nd ∈ [d] := List.mem_of_getElem? e
    rw [List.mem_singleton] at this
    rw [this]; exact hd

theorem Small.createPi {k : Nat} {K : Klut} (h : Small k K) : Small k K.createPi.1 := Small.snoc h (by simp)

theorem Small.createLit {k : Nat} {K : Klut} (h : Small k K) {cs : List Nat} (hc : cs.length ≤ k) (lit : Nat) :
    Small k (K.createLit cs lit).1 := by
  intro n nd e
  have e' : ((cs.foldl Klut.incFo (K.nodes ++ [{ children := cs, fn := lit }])).modify K.nodes.length
      fun nd => { nd with value := 0#32 })[n]? = some nd := e
  rw [List.getElem?_modify] at e'
  have hs := Small.foldl cs _ (Small.snoc h (d := { children := cs, fn := lit }) hc) n
  cases hn : (cs.foldl Klut.incFo (K.nodes ++ [{ children := cs, fn := lit }]))[n]? with
  | none => rw [hn] at e'; simp at e'
  | some nd' =>
    rw [hn] at e'
    have := hs nd' hn
    obtain rfl := Option.some.inj e'
    dsimp only
    split <;> exact this

theorem Small.createNot {k : Nat} {K : Klut} (h : Small k K) (hk : 1 ≤ k) (a : Nat) : Small k (K.createNot a).1 :=
  h.createLit (by simpa using hk) 3

theorem Small.createNode {k : Nat} {K : Klut} (h : Small k K) {cs : List Nat} (hc : cs.length ≤ k) (f : TT) :
    Small k (K.createNode cs f).1 := by
  unfold Klut.createNode
  split
  · exact h
  · exact Small.createLit (K := { K with cache := (K.cache.insert f).1 }) h hc _

theorem Small.createPo {k : Nat} {K : Klut} (h : Small k K) (f : Nat) : Small k (K.createPo f) := Small.incFo h f

theorem Small.empty (k : Nat) : Small k Klut.empty := by
  intro n nd e
  have : nd ∈ Klut.empty.nodes := List.mem_of_getElem? e
  simp only [Klut.empty, List.mem_cons, List.not_mem_nil, or_false] at this
  rcases this with rfl | rfl <;> simp

theorem Small.makePis {k : Nat} (hk : 1 ≤ k) (d : Nat → Driver) : ∀ (l : List Nat) (s : St), Small k s.dest →
    Small k (makePis d l s).dest := by
  intro l
  induction l with
  | nil => intro s h; exact h
  | cons n l ih =>
    intro s h
    apply ih
    unfold makePi
    dsimp only
    split
    · exact h.createPi.createNot hk _
    · exact h.createPi.createNot hk _
    · exact h.createPi

theorem Small.makeCells {k : Nat} {N : Aig} {M : Mapping} (d : Nat → Driver) : ∀ (l : List Nat) (s s' : St),
    (∀ n ∈ l, isCell N M n = some true → ∀ cs, M.cellFanins n = some cs → cs.length ≤ k) →
    Small k s.dest → makeCells N M d l s = some s' → Small k s'.dest := by
  intro l
  induction l with
  | nil => intro s s' _ h e; obtain rfl := Option.some.inj e; exact h
  | cons n l ih =>
    intro s s' hl h e
    have hl' := fun m hm => hl m (List.mem_cons_of_mem _ hm)
    rw [Collapse.makeCells] at e
    cases hc : isCell N M n with
    | none => rw [hc] at e; simp at e
    | some b =>
      rw [hc] at e
      cases b with
      | false => exact ih s s' hl' h e
      | true =>
        dsimp only at e
        cases h1 : M.cellFanins n with
        | none => rw [h1] at e; simp at e
        | some cs =>
          cases h2 : M.cellFunction n with
          | none => rw [h1, h2] at e; simp at e
          | some f =>
            rw [h1, h2] at e
            refine ih _ s' hl' ?_ e
            have hcs : (cs.map s.sig).length ≤ k := by rw [List.length_map]; exact hl n (by simp) hc cs h1
            unfold makeCell
            dsimp only
            split
            · exact h.createNode hcs _
            · exact (h.createNode hcs _).createNode hcs _
            · exact h.createNode hcs _

theorem Small.makePos {k : Nat} (d : Nat → Driver) (s : St) : ∀ (l : List Sig) (K : Klut), Small k K → Small k (makePos d s l K) := by
  intro l
  induction l with
  | nil => intro K h; exact h
  | cons f l ih => intro K h; exact ih _ (h.createPo _)

theorem Small.constants {k : Nat} (d : Nat → Driver) : Small k (constants d Klut.empty).dest := by
  unfold Collapse.constants
  split <;> exact Small.empty k

theorem collapse_small {k : Nat} (hk : 1 ≤ k) {N : Aig} {M : Mapping} {order : List Nat} {K : Klut}
    (hl : ∀ n ∈ order, isCell N M n = some true → ∀ cs, M.cellFanins n = some cs → cs.length ≤ k)
    (e : collapse N M order = some K) : Small k K := by
  unfold collapse at e
  split at e
  · simp at e
  · split at e
    · simp at e
    · rename_i _ d _ _ s hs
      obtain rfl := Option.some.inj e
      exact Small.makePos d s _ _ (Small.makeCells d order _ _ hl (Small.makePis hk d _ _ (Small.constants d)) hs)

end Verif.Collapse
