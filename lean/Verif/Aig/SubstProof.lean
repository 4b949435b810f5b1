import Verif.Aig.Subst

set_option autoImplicit false

/-!
# Substitution: helper lemmas
-/

namespace Verif.Aig

/-- Specification: `v` satisfies the constant and the defining equation of every gate node, whether or
not it is marked dead. -/
structure ModelsAll (N : Aig) (v : Nat → Bool) : Prop where
  const : v 0 = false
  gate : ∀ n nd, n ≠ 0 → n ∉ N.inputs → N.nodes[n]? = some nd → v n = (nd.c0.val v && nd.c1.val v)

/-- structural facts needed by substitution -/
structure SWF (N : Aig) : Prop where
  pos : 0 < N.nodes.length
  inputCi : ∀ i ∈ N.inputs, N.isCi i = true
  table : ∀ t ∈ N.table, t ≠ 0 ∧ t ∉ N.inputs
  tableLt : ∀ t ∈ N.table, t < N.nodes.length

/-- same nodes up to counters and dead flags, same inputs, table shrinks -/
structure Same (N M : Aig) : Prop where
  len : M.nodes.length = N.nodes.length
  kids : ∀ n : Nat, (M.nodes[n]?).map (fun nd : Node => (nd.c0, nd.c1)) =
    (N.nodes[n]?).map (fun nd : Node => (nd.c0, nd.c1))
  inputs : M.inputs = N.inputs
  table : ∀ t ∈ M.table, t ∈ N.table

theorem Same.refl (N : Aig) : Same N N := ⟨rfl, fun _ => rfl, rfl, fun _ h => h⟩

theorem Same.trans {N M K : Aig} (h1 : Same N M) (h2 : Same M K) : Same N K :=
  ⟨h2.len.trans h1.len, fun n => (h2.kids n).trans (h1.kids n), h2.inputs.trans h1.inputs,
    fun t ht => h1.table t (h2.table t ht)⟩

theorem Same.isCi {N M : Aig} (h : Same N M) (n : Nat) : M.isCi n = N.isCi n := by
  have := h.kids n
  unfold Aig.isCi
  cases hm : M.nodes[n]? <;> cases hn : N.nodes[n]? <;> simp_all

theorem Same.swf {N M : Aig} (h : Same N M) (w : SWF N) : SWF M where
  pos := by rw [h.len]; exact w.pos
  inputCi i hi := by rw [h.isCi]; exact w.inputCi i (h.inputs ▸ hi)
  table t ht := by rw [h.inputs]; exact w.table t (h.table t ht)
  tableLt t ht := by rw [h.len]; exact w.tableLt t (h.table t ht)

theorem Same.models {N M : Aig} (h : Same N M) {v : Nat → Bool} (w : ModelsAll N v) : ModelsAll M v where
  const := w.const
  gate n nd h0 h1 hn := by
    have := h.kids n
    rw [hn] at this
    cases hN : N.nodes[n]? with
    | none => rw [hN] at this; simp at this
    | some nd' =>
      rw [hN] at this
      simp at this
      rw [this.1, this.2]
      exact w.gate n nd' h0 (by rw [← h.inputs]; exact h1) hN

/-- changing counters or dead flags of one node -/
theorem same_modify (N : Aig) (i : Nat) (f : Node → Node) (hf : ∀ nd, (f nd).c0 = nd.c0 ∧ (f nd).c1 = nd.c1) :
    Same N { N with nodes := N.nodes.modify i f } where
  len := by simp
  kids n := by
    simp only [List.getElem?_modify]
    cases N.nodes[n]? with
    | none => simp
    | some nd => simp; split <;> simp [hf]
  inputs := rfl
  table _ h := h

theorem eraseFirst_mem {p : Nat → Bool} : ∀ {l l' : List Nat}, eraseFirst p l = some l' → ∀ t ∈ l', t ∈ l := by
  intro l
  induction l with
  | nil => intro l' h; cases h
  | cons a l ih =>
    intro l' h t ht
    rw [eraseFirst] at h
    split at h
    · cases h; exact List.mem_cons_of_mem _ ht
    · cases he : eraseFirst p l with
      | none => rw [he] at h; cases h
      | some l2 =>
        rw [he] at h; cases h
        rcases List.mem_cons.1 ht with rfl | ht
        · simp
        · exact List.mem_cons_of_mem _ (ih he t ht)

theorem hashErase_some {N M : Aig} {a b : Sig} (h : N.hashErase a b = some M) :
    ∃ t, M = { N with table := t } ∧ ∀ x ∈ t, x ∈ N.table := by
  unfold hashErase at h
  cases he : eraseFirst (N.hasKids a b) N.table with
  | none => rw [he] at h; cases h
  | some t => rw [he] at h; cases h; exact ⟨t, rfl, eraseFirst_mem he⟩

theorem hashErase_same {N M : Aig} {a b : Sig} (h : N.hashErase a b = some M) :
    Same N M ∧ M.outputs = N.outputs := by
  obtain ⟨t, rfl, ht⟩ := hashErase_some h
  exact ⟨⟨rfl, fun _ => rfl, rfl, ht⟩, rfl⟩

theorem takeOut_same : ∀ (f : Nat) (N : Aig) (n : Nat) (M : Aig), takeOut f N n = some M →
    Same N M ∧ M.outputs = N.outputs := by
  intro f
  induction f with
  | zero => intro N n M h; simp [takeOut] at h
  | succ f ih =>
    have hd : ∀ (N : Aig) (c : Nat) (M : Aig), derefChild (takeOut f) N c = some M →
        Same N M ∧ M.outputs = N.outputs := by
      intro N c M h
      rw [derefChild] at h
      split at h
      · cases h; exact ⟨Same.refl _, rfl⟩
      · dsimp only at h
        have hs := same_modify N c (fun nd => { nd with fo := nd.fo - 1 }) (fun _ => ⟨rfl, rfl⟩)
        split at h
        · obtain ⟨h1, h2⟩ := ih _ _ _ h
          exact ⟨hs.trans h1, h2⟩
        · cases h; exact ⟨hs, rfl⟩
    intro N n M h
    rw [takeOut] at h
    split at h
    · cases h; exact ⟨Same.refl _, rfl⟩
    · split at h
      · cases h
      · rename_i nd hn
        dsimp only at h
        have hs := same_modify N n (fun nd => { nd with fo := 0, dead := true }) (fun _ => ⟨rfl, rfl⟩)
        split at h
        · cases h
        · rename_i N2 h2
          obtain ⟨e1, e2⟩ := hashErase_same h2
          split at h
          · cases h
          · rename_i N3 h3
            obtain ⟨e3, e4⟩ := hd _ _ _ h3
            obtain ⟨e5, e6⟩ := hd _ _ _ h
            exact ⟨((hs.trans e1).trans e3).trans e5, by rw [e6, e4, e2]⟩

theorem hashFind_models {N : Aig} (w : SWF N) {v : Nat → Bool} (m : ModelsAll N v) {a b : Sig} {t : Nat}
    (h : N.hashFind a b = some t) : v t = (a.val v && b.val v) := by
  have hm := List.mem_of_find?_eq_some h
  have hk := List.find?_some h
  obtain ⟨h0, h1⟩ := w.table t hm
  unfold hasKids at hk
  split at hk
  · rename_i nd hn
    simp at hk
    rw [m.gate t nd h0 h1 hn, hk.1, hk.2]
  · cases hk

/-- changing the children of a gate and putting it at the head of the table -/
theorem SWF.rewire {N : Aig} (w : SWF N) {n : Nat} {nd : Node} (hn : N.nodes[n]? = some nd) (h0 : n ≠ 0)
    (hnin : n ∉ N.inputs) (c0 c1 : Sig) {t : List Nat} (ht : ∀ x ∈ t, x ∈ N.table) :
    SWF { N with nodes := N.nodes.modify n fun nd => { nd with c0 := c0, c1 := c1 }, table := n :: t } := by
  refine ⟨by simpa using w.pos, ?_, ?_, ?_⟩
  · intro i hi
    have hin : n ≠ i := by rintro rfl; exact hnin hi
    have := w.inputCi i hi
    unfold Aig.isCi at this ⊢
    simp only [List.getElem?_modify, hin, if_false]
    cases hx : N.nodes[i]? with
    | none => rw [hx] at this; cases this
    | some x => rw [hx] at this; simpa using this
  · intro x hx
    rcases List.mem_cons.1 hx with rfl | hx
    · exact ⟨h0, hnin⟩
    · exact w.table x (ht x hx)
  · intro x hx
    simp only [List.length_modify]
    rcases List.mem_cons.1 hx with rfl | hx
    · exact lt_of_getElem? hn
    · exact w.tableLt x (ht x hx)

theorem replaceCore_swf {N : Aig} (w : SWF N) {n old : Nat} {nd : Node} (hn : N.nodes[n]? = some nd)
    (h0 : n ≠ 0) (hci : N.isCi n = false) {s other : Sig} {M : Aig} {p : Option (Nat × Sig)}
    (h : N.replaceCore n old nd s other = some (M, p)) : SWF M := by
  have hnin : n ∉ N.inputs := fun hi => by rw [w.inputCi n hi] at hci; cases hci
  have hrw : ∀ c0 c1, replaceCore.rewire N n nd s c0 c1 = some (M, p) → SWF M := by
    intro c0 c1 h
    rw [replaceCore.rewire] at h
    split at h
    · cases h
    · rename_i N1 h1
      obtain ⟨t, rfl, ht⟩ := hashErase_some h1
      cases h
      exact (same_modify _ s.index (fun nd => { nd with fo := nd.fo + 1 })
        (fun _ => ⟨rfl, rfl⟩)).swf (w.rewire hn h0 hnin c0 c1 ht)
  rw [replaceCore] at h
  split at h
  · cases h; exact w
  · split at h
    · cases h; exact w
    · split at h
      · split at h
        · cases h; exact w
        · exact hrw _ _ h
      · exact hrw _ _ h

theorem replaceInNode_swf {N : Aig} (w : SWF N) {n old : Nat} {new : Sig} (h0 : n ≠ 0)
    (hci : N.isCi n = false) {M : Aig} {p : Option (Nat × Sig)}
    (h : N.replaceInNode n old new = some (M, p)) : SWF M := by
  rw [replaceInNode] at h
  split at h
  · cases h
  · rename_i nd hn
    split at h
    · exact replaceCore_swf w hn h0 hci h
    · split at h
      · exact replaceCore_swf w hn h0 hci h
      · cases h; exact w

theorem scanNodes_swf {old : Nat} {new : Sig} : ∀ (l : List Nat) (N : Aig) (st : List (Nat × Sig))
    (M : Aig) (st' : List (Nat × Sig)), SWF N → (∀ n ∈ l, n ≠ 0) →
    scanNodes old new l N st = some (M, st') → SWF M := by
  intro l
  induction l with
  | nil => intro N st M st' w _ h; cases h; exact w
  | cons i l ih =>
    intro N st M st' w hl h
    have hl' : ∀ n ∈ l, n ≠ 0 := fun n hn => hl n (by simp [hn])
    rw [scanNodes] at h
    split at h
    · exact ih N st M st' w hl' h
    · rename_i hc
      simp only [not_or, Bool.not_eq_true] at hc
      split at h
      · cases h
      · rename_i N1 hr
        exact ih _ _ _ _ (replaceInNode_swf w (hl i (by simp)) hc.1 hr) hl' h
      · rename_i N1 p hr
        exact ih _ _ _ _ (replaceInNode_swf w (hl i (by simp)) hc.1 hr) hl' h

theorem replaceInOutputs_swf {N : Aig} (w : SWF N) (old : Nat) (new : Sig) :
    SWF (N.replaceInOutputs old new) := by
  unfold replaceInOutputs
  split
  · exact w
  · have hs0 : Same N { N with
        outputs := N.outputs.map fun o => if o.index = old then new.xorb o.compl else o } :=
      ⟨rfl, fun _ => rfl, rfl, fun _ h => h⟩
    dsimp only
    split
    · exact (hs0.trans (same_modify _ new.index
        (fun nd => { nd with fo := nd.fo + N.outputs.countP fun o => o.index == old })
        (fun _ => ⟨rfl, rfl⟩))).swf w
    · exact hs0.swf w

theorem mem_scanList {n k : Nat} (hn : n ∈ (List.range k).drop 1) : n ≠ 0 := by
  rw [List.range_eq_range', List.drop_range'] at hn
  simp [List.mem_range'] at hn
  omega

theorem substLoop_swf : ∀ (f : Nat) (N : Aig) (st : List (Nat × Sig)) (M : Aig),
    SWF N → substLoop f N st = some M → SWF M := by
  intro f
  induction f with
  | zero => intro N st M _ h; simp [substLoop] at h
  | succ f ih =>
    intro N st M w h
    cases st with
    | nil => cases h; exact w
    | cons p st =>
      obtain ⟨old, new⟩ := p
      rw [substLoop] at h
      split at h
      · cases h
      · rename_i N1 st1 hs
        have w1 := scanNodes_swf _ N st N1 st1 w (fun n hn => mem_scanList hn) hs
        have w2 := replaceInOutputs_swf w1 old new
        dsimp only at h
        split at h
        · split at h
          · cases h
          · rename_i N3 h3
            exact ih _ _ _ ((takeOut_same _ _ _ _ h3).1.swf w2) h
        · exact ih _ _ _ w2 h

/-- what a step must keep -/
structure Keeps (v : Nat → Bool) (N M : Aig) : Prop where
  swf : SWF M
  models : ModelsAll M v
  len : M.nodes.length = N.nodes.length
  inputs : M.inputs = N.inputs
  outputs : M.outputs.map (·.val v) = N.outputs.map (·.val v)

theorem order_val (a b : Sig) (v : Nat → Bool) :
    ((order a b).1.val v && (order a b).2.val v) = (a.val v && b.val v) := by
  unfold order
  split
  · exact Bool.and_comm _ _
  · rfl

theorem replaceCore_keeps {N : Aig} {v : Nat → Bool} (w : SWF N) (m : ModelsAll N v) {n old : Nat}
    {nd : Node} (hn : N.nodes[n]? = some nd) (h0 : n ≠ 0) (hci : N.isCi n = false) {s other : Sig}
    (hv : v n = (other.val v && s.val v)) {M : Aig} {p : Option (Nat × Sig)}
    (h : N.replaceCore n old nd s other = some (M, p)) :
    Keeps v N M ∧ ∀ k t, p = some (k, t) → v k = t.val v := by
  rw [replaceCore] at h
  have hov := order_val other s v
  rw [← hv] at hov
  generalize order other s = pr at h hov
  obtain ⟨c0, c1⟩ := pr
  dsimp only at h hov
  have keep : Keeps v N N := ⟨w, m, rfl, rfl, rfl⟩
  have hnin : n ∉ N.inputs := fun hi => by rw [w.inputCi n hi] at hci; cases hci
  have hrw : replaceCore.rewire N n nd s c0 c1 = some (M, p) → c0.index ≠ c1.index →
      Keeps v N M ∧ ∀ k t, p = some (k, t) → v k = t.val v := by
    intro h hne
    rw [replaceCore.rewire] at h
    split at h
    · cases h
    · rename_i N1 h1
      obtain ⟨t, rfl, ht⟩ := hashErase_some h1
      cases h
      refine ⟨?_, by simp⟩
      have hs := same_modify { N with nodes := N.nodes.modify n fun nd => { nd with c0 := c0, c1 := c1 },
                                      table := n :: t } s.index
        (fun nd => { nd with fo := nd.fo + 1 }) (fun _ => ⟨rfl, rfl⟩)
      have hswf : SWF { N with nodes := N.nodes.modify n fun nd => { nd with c0 := c0, c1 := c1 },
                               table := n :: t } :=
        w.rewire hn h0 hnin c0 c1 ht
      have hm : ModelsAll { N with nodes := N.nodes.modify n fun nd => { nd with c0 := c0, c1 := c1 },
                                   table := n :: t } v := by
        refine ⟨m.const, ?_⟩
        intro k x hk0 hki hk
        rw [List.getElem?_modify] at hk
        by_cases e : n = k
        · subst e
          simp [hn] at hk
          subst hk
          exact hov.symm
        · cases hx : N.nodes[k]? with
          | none => rw [hx] at hk; cases hk
          | some y =>
            rw [hx] at hk
            simp [e] at hk
            subst hk
            exact m.gate k y hk0 hki hx
      exact ⟨hs.swf hswf, hs.models hm, by simp, rfl, rfl⟩
  split at h
  · rename_i e
    cases h
    refine ⟨keep, ?_⟩
    intro k t hp
    cases hp
    rw [← hov]
    split
    · rename_i hc
      simp only [Sig.val, e, Sig.const, m.const]
      cases h1 : c0.compl <;> cases h2 : c1.compl <;> simp_all
    · rename_i hc
      simp at hc
      simp [Sig.val, e, hc]
  · rename_i hne
    split at h
    · rename_i e
      cases h
      refine ⟨keep, ?_⟩
      intro k t hp
      cases hp
      rw [← hov]
      cases hc : c0.compl <;> simp [Sig.val, e, hc, m.const, Sig.const]
    · split at h
      · rename_i t hf
        split at h
        · cases h
          refine ⟨keep, ?_⟩
          intro k t hp
          cases hp
          rw [← hov, ← hashFind_models w m hf]
          simp [Sig.val]
        · exact hrw h hne
      · exact hrw h hne

theorem replaceInNode_keeps {N : Aig} {v : Nat → Bool} (w : SWF N) (m : ModelsAll N v) {n old : Nat}
    {new : Sig} (hv : v old = new.val v) (h0 : n ≠ 0) (hci : N.isCi n = false) {M : Aig}
    {p : Option (Nat × Sig)} (h : N.replaceInNode n old new = some (M, p)) :
    Keeps v N M ∧ ∀ k t, p = some (k, t) → v k = t.val v := by
  rw [replaceInNode] at h
  split at h
  · cases h
  · rename_i nd hn
    have hnin : n ∉ N.inputs := fun hi => by rw [w.inputCi n hi] at hci; cases hci
    have hg := m.gate n nd h0 hnin hn
    have hx : ∀ s : Sig, s.index = old → (new.xorb s.compl).val v = s.val v := by
      intro s hs
      rw [Sig.val_xorb, ← hv, ← hs]; simp only [Sig.val]; cases v s.index <;> cases s.compl <;> rfl
    split at h
    · rename_i e
      exact replaceCore_keeps w m hn h0 hci (by rw [hx _ e, hg, Bool.and_comm]) h
    · split at h
      · rename_i e
        exact replaceCore_keeps w m hn h0 hci (by rw [hx _ e, hg]) h
      · cases h
        exact ⟨⟨w, m, rfl, rfl, rfl⟩, by simp⟩

theorem Keeps.trans {v : Nat → Bool} {N M K : Aig} (h1 : Keeps v N M) (h2 : Keeps v M K) : Keeps v N K :=
  ⟨h2.swf, h2.models, h2.len.trans h1.len, h2.inputs.trans h1.inputs, h2.outputs.trans h1.outputs⟩

theorem scanNodes_keeps {v : Nat → Bool} {old : Nat} {new : Sig} (hv : v old = new.val v) :
    ∀ (l : List Nat) (N : Aig) (st : List (Nat × Sig)) (M : Aig) (st' : List (Nat × Sig)),
    SWF N → ModelsAll N v → (∀ n ∈ l, n ≠ 0) → (∀ p ∈ st, v p.1 = p.2.val v) →
    scanNodes old new l N st = some (M, st') →
    Keeps v N M ∧ ∀ p ∈ st', v p.1 = p.2.val v := by
  intro l
  induction l with
  | nil =>
    intro N st M st' w m _ hst h
    cases h
    exact ⟨⟨w, m, rfl, rfl, rfl⟩, hst⟩
  | cons i l ih =>
    intro N st M st' w m hl hst h
    rw [scanNodes] at h
    split at h
    · exact ih N st M st' w m (fun n hn => hl n (by simp [hn])) hst h
    · rename_i hc
      simp only [not_or, Bool.not_eq_true] at hc
      split at h
      · cases h
      · rename_i N1 hr
        obtain ⟨k, _⟩ := replaceInNode_keeps w m hv (hl i (by simp)) hc.1 hr
        obtain ⟨k2, hs⟩ := ih N1 st M st' k.swf k.models (fun n hn => hl n (by simp [hn])) hst h
        exact ⟨k.trans k2, hs⟩
      · rename_i N1 p hr
        obtain ⟨k, hp⟩ := replaceInNode_keeps w m hv (hl i (by simp)) hc.1 hr
        obtain ⟨k2, hs⟩ := ih N1 (p :: st) M st' k.swf k.models (fun n hn => hl n (by simp [hn]))
          (by
            intro q hq
            rcases List.mem_cons.1 hq with rfl | hq
            · exact hp _ _ rfl
            · exact hst q hq) h
        exact ⟨k.trans k2, hs⟩

theorem replaceInOutputs_keeps {N : Aig} {v : Nat → Bool} (w : SWF N) (m : ModelsAll N v) {old : Nat}
    {new : Sig} (hv : v old = new.val v) : Keeps v N (N.replaceInOutputs old new) := by
  unfold replaceInOutputs
  split
  · exact ⟨w, m, rfl, rfl, rfl⟩
  · have hs0 : Same N { N with
        outputs := N.outputs.map fun o => if o.index = old then new.xorb o.compl else o } :=
      ⟨rfl, fun _ => rfl, rfl, fun _ h => h⟩
    have ho : (N.outputs.map fun o => if o.index = old then new.xorb o.compl else o).map (·.val v) =
        N.outputs.map (·.val v) := by
      rw [List.map_map]
      apply List.map_congr_left
      intro o _
      simp only [Function.comp]
      split
      · rename_i e
        rw [Sig.val_xorb, ← hv, ← e]; simp only [Sig.val]; cases v o.index <;> cases o.compl <;> rfl
      · rfl
    dsimp only
    split
    · have hs := hs0.trans (same_modify _ new.index
        (fun nd => { nd with fo := nd.fo + N.outputs.countP fun o => o.index == old }) (fun _ => ⟨rfl, rfl⟩))
      exact ⟨hs.swf w, hs.models m, hs.len, hs.inputs, ho⟩
    · exact ⟨hs0.swf w, hs0.models m, hs0.len, hs0.inputs, ho⟩

theorem substLoop_keeps {v : Nat → Bool} : ∀ (f : Nat) (N : Aig) (st : List (Nat × Sig)) (M : Aig),
    SWF N → ModelsAll N v → (∀ p ∈ st, v p.1 = p.2.val v) → substLoop f N st = some M → Keeps v N M := by
  intro f
  induction f with
  | zero => intro N st M _ _ _ h; simp [substLoop] at h
  | succ f ih =>
    intro N st M w m hst h
    cases st with
    | nil => cases h; exact ⟨w, m, rfl, rfl, rfl⟩
    | cons p st =>
      obtain ⟨old, new⟩ := p
      rw [substLoop] at h
      have hv : v old = new.val v := hst (old, new) (by simp)
      split at h
      · cases h
      · rename_i N1 st1 hs
        obtain ⟨k1, hst1⟩ := scanNodes_keeps hv _ N st N1 st1 w m (by
          intro n hn
          rw [List.range_eq_range', List.drop_range'] at hn
          simp [List.mem_range'] at hn
          omega) (fun p hp => hst p (by simp [hp])) hs
        have k2 := replaceInOutputs_keeps k1.swf k1.models hv (old := old)
        dsimp only at h
        split at h
        · split at h
          · cases h
          · rename_i N3 h3
            obtain ⟨hs3, ho3⟩ := takeOut_same _ _ _ _ h3
            have k3 : Keeps v (N1.replaceInOutputs old new) N3 :=
              ⟨hs3.swf k2.swf, hs3.models k2.models, hs3.len, hs3.inputs, by rw [ho3]⟩
            exact ((k1.trans k2).trans k3).trans (ih _ _ _ k3.swf k3.models hst1 h)
        · exact (k1.trans k2).trans (ih _ _ _ k2.swf k2.models hst1 h)

theorem substituteNode_keeps {v : Nat → Bool} {f : Nat} {N : Aig} {old : Nat} {new : Sig} {M : Aig}
    (w : SWF N) (m : ModelsAll N v) (hv : v old = new.val v) (h : substituteNode f N old new = some M) :
    Keeps v N M :=
  substLoop_keeps f N _ M w m (by simpa using hv) h

end Verif.Aig
