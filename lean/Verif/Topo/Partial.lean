import Verif.Props.C15

set_option autoImplicit false

/-!
# What a finished traversal says about the network (helper lemmas)

`Verif.Topo.Proof` starts from an acyclic network.  Here the traversal is known to have come back, and the
part of the network it has seen turns out to be acyclic.
-/

namespace Verif.Topo

variable {kids : Nat → List Nat}

/-- `m` is a fanin of `n` -/
def Fanin (kids : Nat → List Nat) (m n : Nat) : Prop := m ∈ kids n

theorem Tfi.not_acc {n m : Nat} (h : Acc (Fanin kids) n) (hm : m ∈ kids n) : ¬ Tfi kids m n := by
  induction h generalizing m with
  | intro n _ ih =>
    intro ht
    have step : ∀ {a b : Nat}, Tfi kids a b → ∀ {k : Nat}, k ∈ kids b → Tfi kids a k :=
      fun h _ hk => h.trans (.step hk (.refl _))
    cases ht with
    | refl => exact ih n hm hm (.refl _)
    | step hk ht' => exact ih _ hm hk (step ht' hm)

/-- the invariant of the traversal, with acyclicity of everything visited -/
structure AccInv (kids : Nat → List Nat) (trav : Nat) (s : St) : Prop where
  inv : Inv kids trav s
  acc : ∀ n ∈ s.order, Acc (Fanin kids) n

theorem topoKids_acc {trav : Nat} {rec : Nat → St → Option St}
    (hrec : ∀ n s s', rec n s = some s' → AccInv kids trav s → AccInv kids trav s' ∧
      s.order <+: s'.order ∧ n ∈ s'.order ∧ ∀ m ∈ s'.order, m ∈ s.order ∨ Tfi kids n m) :
    ∀ (l : List Nat) (s s' : St), topoKids rec l s = some s' → AccInv kids trav s →
      AccInv kids trav s' ∧ s.order <+: s'.order ∧
        (∀ n ∈ l, n ∈ s'.order) ∧ ∀ m ∈ s'.order, m ∈ s.order ∨ ∃ n ∈ l, Tfi kids n m := by
  intro l
  induction l with
  | nil =>
    intro s s' e h
    obtain rfl := Option.some.inj e
    exact ⟨h, List.prefix_refl _, by simp, fun m hm => Or.inl hm⟩
  | cons n l ih =>
    intro s s' e h
    rw [topoKids] at e
    cases e1 : rec n s with
    | none => rw [e1] at e; simp at e
    | some s1 =>
      rw [e1] at e
      obtain ⟨h1, p1, n1, m1⟩ := hrec n s s1 e1 h
      obtain ⟨h2, p2, n2, m2⟩ := ih s1 s' e h1
      refine ⟨h2, p1.trans p2, ?_, ?_⟩
      · intro x hx
        rcases List.mem_cons.1 hx with rfl | hx
        · exact p2.subset n1
        · exact n2 x hx
      · intro m hm
        rcases m2 m hm with h | ⟨x, hx, ht⟩
        · rcases m1 m h with h | h
          · exact Or.inl h
          · exact Or.inr ⟨n, by simp, h⟩
        · exact Or.inr ⟨x, by simp [hx], ht⟩

theorem topoRec_acc {trav : Nat} (ht : 0 < trav) : ∀ (f n : Nat) (s s' : St),
    topoRec kids trav f n s = some s' → AccInv kids trav s → AccInv kids trav s' ∧
      s.order <+: s'.order ∧ n ∈ s'.order ∧ ∀ m ∈ s'.order, m ∈ s.order ∨ Tfi kids n m := by
  intro f
  induction f with
  | zero => intro n s s' h; simp [topoRec] at h
  | succ f ih =>
    intro n s s' e h
    rw [topoRec] at e
    split at e
    · rename_i hv
      obtain rfl := Option.some.inj e
      exact ⟨h, List.prefix_refl _, (h.inv.vis n).1 hv, fun m hm => Or.inl hm⟩
    · rename_i hv
      have hn : n ∉ s.order := fun hn => hv ((h.inv.vis n).2 hn)
      have h0 : AccInv kids trav (s.mark n (trav - 1)) := by
        refine ⟨⟨fun m => ?_, h.inv.nodup, h.inv.first⟩, h.acc⟩
        simp only [St.mark]
        split
        · rename_i e
          subst e
          exact ⟨fun h => by omega, fun h => absurd h hn⟩
        · exact h.inv.vis m
      cases e1 : topoKids (topoRec kids trav f) (kids n) (s.mark n (trav - 1)) with
      | none => rw [e1] at e; simp at e
      | some s1 =>
        rw [e1] at e
        obtain rfl := Option.some.inj e
        obtain ⟨h1, p1, n1, m1⟩ := topoKids_acc ih (kids n) _ _ e1 h0
        have hacc : Acc (Fanin kids) n := ⟨_, fun m hm => h1.acc m (n1 m hm)⟩
        have hn1 : n ∉ s1.order := by
          intro hc
          rcases m1 n hc with h | ⟨x, hx, hx'⟩
          · exact hn h
          · exact Tfi.not_acc hacc hx hx'
        refine ⟨⟨h1.inv.visit hn1 n1, ?_⟩, ?_, by simp [St.push, St.mark], ?_⟩
        · intro m hm
          simp only [St.push, St.mark, List.mem_append, List.mem_singleton] at hm
          rcases hm with hm | rfl
          · exact h1.acc m hm
          · exact hacc
        · simp only [St.push, St.mark] at p1 ⊢
          exact p1.trans (List.prefix_append _ _)
        · intro m hm
          simp only [St.push, St.mark, List.mem_append, List.mem_singleton] at hm
          rcases hm with hm | rfl
          · rcases m1 m hm with h | ⟨x, hx, hx'⟩
            · exact Or.inl h
            · exact Or.inr (.step hx hx')
          · exact Or.inr (.refl _)

theorem topoCos_acc {trav : Nat} (ht : 0 < trav) {f : Nat} : ∀ (l : List Nat) (s s' : St),
    topoCos kids trav f l s = some s' → AccInv kids trav s → AccInv kids trav s' ∧
      s.order <+: s'.order ∧ (∀ n ∈ l, n ∈ s'.order) ∧
      ∀ m ∈ s'.order, m ∈ s.order ∨ ∃ n ∈ l, Tfi kids n m := by
  intro l
  induction l with
  | nil =>
    intro s s' e h
    obtain rfl := Option.some.inj e
    exact ⟨h, List.prefix_refl _, by simp, fun m hm => Or.inl hm⟩
  | cons n l ih =>
    intro s s' e h
    rw [topoCos] at e
    split at e
    · rename_i hv
      obtain ⟨h2, p2, n2, m2⟩ := ih s s' e h
      refine ⟨h2, p2, ?_, ?_⟩
      · intro x hx
        rcases List.mem_cons.1 hx with rfl | hx
        · exact p2.subset ((h.inv.vis x).1 hv)
        · exact n2 x hx
      · intro m hm
        rcases m2 m hm with h | ⟨x, hx, ht⟩
        · exact Or.inl h
        · exact Or.inr ⟨x, by simp [hx], ht⟩
    · cases e1 : topoRec kids trav f n s with
      | none => rw [e1] at e; simp at e
      | some s1 =>
        rw [e1] at e
        obtain ⟨h1, p1, n1, m1⟩ := topoRec_acc ht f n s s1 e1 h
        obtain ⟨h2, p2, n2, m2⟩ := ih s1 s' e h1
        refine ⟨h2, p1.trans p2, ?_, ?_⟩
        · intro x hx
          rcases List.mem_cons.1 hx with rfl | hx
          · exact p2.subset n1
          · exact n2 x hx
        · intro m hm
          rcases m2 m hm with h | ⟨x, hx, ht⟩
          · rcases m1 m h with h | h
            · exact Or.inl h
            · exact Or.inr ⟨n, by simp, h⟩
          · exact Or.inr ⟨x, by simp [hx], ht⟩

/-- If the traversal comes back at all, its order lists fanins first, without duplicates, and contains
exactly the constant, the inputs and the transitive fanin of the roots. -/
theorem updateTopo_acc {cis roots : List Nat} {vis : Nat → Nat} {travId f : Nat}
    (hvis : ∀ n, vis n ≤ travId) (h0 : kids 0 = []) (hci : ∀ n ∈ cis, kids n = []) (hnd : (0 :: cis).Nodup)
    {s : St} (e : updateTopo kids cis roots vis travId f = some s) :
    ∃ rest, s.order = 0 :: cis ++ rest ∧ s.order.Nodup ∧
      FaninsFirst kids s.order ∧
      ∀ m, m ∈ s.order ↔ m = 0 ∨ m ∈ cis ∨ ∃ n ∈ roots, Tfi kids n m := by
  have hinit : Inv kids (travId + 2) ⟨vis, []⟩ :=
    ⟨fun m => by have := hvis m; simp; omega, by simp, fun l1 n l2 e => by simp at e⟩
  have i0 := hinit.visit (n := 0) (by simp) (by simp [h0])
  have hnd' := hnd
  rw [List.nodup_cons] at hnd
  obtain ⟨i1, o1⟩ := topoCis_spec cis _ i0 hnd.2 (fun n hn => ⟨by
    simp only [St.push, St.mark, List.nil_append, List.mem_singleton]
    rintro rfl; exact hnd.1 hn, hci n hn⟩)
  have e2 : (St.push ⟨vis, []⟩ 0).mark 0 (travId + 2) = (St.mark ⟨vis, []⟩ 0 (travId + 2)).push 0 := rfl
  have o1' : (topoCis (travId + 2) cis ((St.push ⟨vis, []⟩ 0).mark 0 (travId + 2))).order = 0 :: cis := by
    rw [e2, o1]; rfl
  rw [← e2] at i1
  have hleaf : ∀ n, kids n = [] → Acc (Fanin kids) n := fun n hn => ⟨_, fun m hm => by
    rw [Fanin, hn] at hm; simp at hm⟩
  have a1 : AccInv kids (travId + 2) (topoCis (travId + 2) cis ((St.push ⟨vis, []⟩ 0).mark 0 (travId + 2))) := by
    refine ⟨i1, ?_⟩
    rw [o1']
    intro n hn
    rcases List.mem_cons.1 hn with rfl | hn
    · exact hleaf _ h0
    · exact hleaf _ (hci n hn)
  obtain ⟨i2, ⟨rest, p2⟩, n2, m2⟩ := topoCos_acc (by omega) (f := f) roots _ _ e a1
  rw [o1'] at p2 m2
  refine ⟨rest, p2.symm, i2.inv.nodup, i2.inv.first, fun m => ⟨fun hm => ?_, fun hm => ?_⟩⟩
  · rcases m2 m hm with h | h
    · rcases List.mem_cons.1 h with h | h
      · exact Or.inl h
      · exact Or.inr (Or.inl h)
    · exact Or.inr (Or.inr h)
  · rcases hm with rfl | hm | ⟨n, hn, ht⟩
    · rw [← p2]; simp
    · rw [← p2]; simp [hm]
    · exact i2.inv.first.mem (n2 n hn) ht

open RefDeref (aigKids)

/-- The view of an AIG that came back. -/
theorem topoView_acc (N : Aig) (hin : ∀ n ∈ N.inputs, n ≠ 0 ∧ N.isCi n = true) (hnd : N.inputs.Nodup)
    (hmarks : ∀ n, visOf N n ≤ N.travId) {f : Nat} {order : List Nat} (e : topoView N f = some order) :
    ∃ rest, order = 0 :: N.inputs ++ rest ∧ order.Nodup ∧ FaninsFirst (aigKids N) order ∧
      ∀ m, m ∈ order ↔ m = 0 ∨ m ∈ N.inputs ∨ ∃ o ∈ N.outputs, Tfi (aigKids N) o.index m := by
  rw [topoView] at e
  cases hu : updateTopo (aigKids N) N.inputs (N.outputs.map (·.index)) (visOf N) N.travId f with
  | none => rw [hu] at e; simp at e
  | some s =>
    rw [hu] at e
    obtain rfl := Option.some.inj e
    obtain ⟨rest, h1, h2, h3, h4⟩ := updateTopo_acc hmarks (by simp [aigKids])
      (fun n hn => by simp [aigKids, hin n hn])
      (by rw [List.nodup_cons]; exact ⟨fun h0 => (hin 0 h0).1 rfl, hnd⟩) hu
    exact ⟨rest, h1, h2, h3, by simpa using h4⟩

end Verif.Topo
