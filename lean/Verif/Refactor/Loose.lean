import Verif.Aig.SubstProof
import Verif.Sop.Factor
import Verif.Props.C11

set_option autoImplicit false

/-!
# Networks between construction and substitution calls: helper lemmas

After a substitution the indices of the nodes are no topological order any more and the hash table may miss gates, so
`WF` does not hold.  `Loose` is what remains.
-/

namespace Verif.Aig

/-- structure of a network that has been constructed and changed by substitutions -/
structure Loose (N : Aig) : Prop extends SWF N where
  fanins : ∀ n nd, n ≠ 0 → n ∉ N.inputs → N.nodes[n]? = some nd →
    N.Valid nd.c0 ∧ N.Valid nd.c1 ∧ nd.c0.index ≠ nd.c1.index
  outs : ∀ o ∈ N.outputs, N.Valid o
  inputsNodup : N.inputs.Nodup
  inputsPos : ∀ n ∈ N.inputs, n ≠ 0
  marks : ∀ nd ∈ N.nodes, nd.visited ≤ N.travId

/-- what no step changes -/
structure Frame (N M : Aig) : Prop where
  inputs : M.inputs = N.inputs
  numPis : M.numPis = N.numPis
  numPos : M.numPos = N.numPos
  outLen : M.outputs.length = N.outputs.length
  travId : N.travId ≤ M.travId
  len : N.nodes.length ≤ M.nodes.length
  ins : ∀ n, n = 0 ∨ n ∈ N.inputs →
    M.nodes[n]?.map (fun nd => (nd.c0, nd.c1)) = N.nodes[n]?.map (fun nd => (nd.c0, nd.c1))

theorem Frame.refl (N : Aig) : Frame N N := ⟨rfl, rfl, rfl, rfl, Nat.le_refl _, Nat.le_refl _, fun _ _ => rfl⟩

theorem Frame.trans {N M K : Aig} (h : Frame N M) (g : Frame M K) : Frame N K :=
  ⟨g.inputs.trans h.inputs, g.numPis.trans h.numPis, g.numPos.trans h.numPos, g.outLen.trans h.outLen,
    h.travId.trans g.travId, h.len.trans g.len, fun n hn =>
      (g.ins n (hn.imp_right fun hi => (h.inputs.symm ▸ hi))).trans (h.ins n hn)⟩

/-- the structure is kept -/
structure LStep (N M : Aig) : Prop where
  loose : Loose M
  frame : Frame N M

theorem LStep.refl {N : Aig} (h : Loose N) : LStep N N := ⟨h, Frame.refl N⟩

theorem LStep.trans {N M K : Aig} (h : LStep N M) (g : LStep M K) : LStep N K := ⟨g.loose, h.frame.trans g.frame⟩

theorem valid_len {N M : Aig} (h : N.nodes.length ≤ M.nodes.length) {s : Sig} (hs : N.Valid s) : M.Valid s :=
  Nat.lt_of_lt_of_le hs h

theorem mem_modify {α : Type} {l : List α} {i : Nat} {f : α → α} {a : α} (h : a ∈ l.modify i f) :
    a ∈ l ∨ ∃ b ∈ l, a = f b := by
  obtain ⟨k, hk⟩ := List.getElem?_of_mem h
  rw [List.getElem?_modify] at hk
  cases hl : l[k]? with
  | none => rw [hl] at hk; simp at hk
  | some b =>
    rw [hl] at hk
    by_cases e : i = k
    · simp [e] at hk
      exact Or.inr ⟨b, List.mem_of_getElem? hl, hk.symm⟩
    · simp [e] at hk
      exact Or.inl (hk ▸ List.mem_of_getElem? hl)

/-- changing counters or flags of one node -/
theorem lstep_modify {N : Aig} (h : Loose N) (i : Nat) (f : Node → Node)
    (hf : ∀ nd, (f nd).c0 = nd.c0 ∧ (f nd).c1 = nd.c1 ∧ (f nd).visited = nd.visited) :
    LStep N { N with nodes := N.nodes.modify i f } := by
  have hs := same_modify N i f fun nd => ⟨(hf nd).1, (hf nd).2.1⟩
  refine ⟨{ hs.swf h.toSWF with
    fanins := ?_, outs := ?_, inputsNodup := h.inputsNodup, inputsPos := h.inputsPos, marks := ?_ },
    ⟨rfl, rfl, rfl, rfl, Nat.le_refl _, Nat.le_of_eq hs.len.symm, fun n _ => hs.kids n⟩⟩
  · intro n nd h0 hi hn
    have hk := hs.kids n
    rw [hn] at hk
    cases hN : N.nodes[n]? with
    | none => rw [hN] at hk; simp at hk
    | some nd' =>
      rw [hN] at hk
      simp only [Option.map_some, Option.some.injEq, Prod.mk.injEq] at hk
      obtain ⟨e0, e1⟩ := hk
      obtain ⟨a, b, c⟩ := h.fanins n nd' h0 hi hN
      rw [e0, e1]
      exact ⟨valid_len (Nat.le_of_eq hs.len.symm) a, valid_len (Nat.le_of_eq hs.len.symm) b, c⟩
  · intro o ho
    exact valid_len (Nat.le_of_eq hs.len.symm) (h.outs o ho)
  · intro nd hnd
    rcases mem_modify hnd with hm | ⟨b, hm, rfl⟩
    · exact h.marks nd hm
    · rw [(hf b).2.2]; exact h.marks b hm

/-- entries leave the hash table -/
theorem lstep_table {N : Aig} (h : Loose N) {t : List Nat} (ht : ∀ x ∈ t, x ∈ N.table) : LStep N { N with table := t } :=
  ⟨{ pos := h.pos, inputCi := h.inputCi, table := fun x hx => h.table x (ht x hx),
     tableLt := fun x hx => h.tableLt x (ht x hx), fanins := h.fanins, outs := h.outs, inputsNodup := h.inputsNodup,
     inputsPos := h.inputsPos, marks := h.marks }, ⟨rfl, rfl, rfl, rfl, Nat.le_refl _, Nat.le_refl _, fun _ _ => rfl⟩⟩

theorem lstep_hashErase {N M : Aig} (h : Loose N) {a b : Sig} (e : N.hashErase a b = some M) : LStep N M := by
  obtain ⟨t, rfl, ht⟩ := hashErase_some e
  exact lstep_table h ht

theorem takeOut_lstep : ∀ (f : Nat) (N : Aig) (n : Nat) (M : Aig), Loose N → takeOut f N n = some M → LStep N M := by
  intro f
  induction f with
  | zero => intro N n M _ h; simp [takeOut] at h
  | succ f ih =>
    have hd : ∀ (N : Aig) (c : Nat) (M : Aig), Loose N → derefChild (takeOut f) N c = some M → LStep N M := by
      intro N c M w h
      rw [derefChild] at h
      split at h
      · cases h; exact LStep.refl w
      · dsimp only at h
        have hs := lstep_modify w c (fun nd => { nd with fo := nd.fo - 1 }) (fun _ => ⟨rfl, rfl, rfl⟩)
        split at h
        · exact hs.trans (ih _ _ _ hs.loose h)
        · cases h; exact hs
    intro N n M w h
    rw [takeOut] at h
    split at h
    · cases h; exact LStep.refl w
    · split at h
      · cases h
      · rename_i nd hn
        dsimp only at h
        have hs := lstep_modify w n (fun nd => { nd with fo := 0, dead := true }) (fun _ => ⟨rfl, rfl, rfl⟩)
        split at h
        · cases h
        · rename_i N2 h2
          have e1 := lstep_hashErase hs.loose h2
          split at h
          · cases h
          · rename_i N3 h3
            have e3 := hd _ _ _ e1.loose h3
            exact ((hs.trans e1).trans e3).trans (hd _ _ _ e3.loose h)

theorem Loose.not_input {N : Aig} (w : Loose N) {n : Nat} (hci : N.isCi n = false) : n ∉ N.inputs := fun hi => by
  rw [w.inputCi n hi] at hci; cases hci

/-- changing the children of a gate and putting it at the head of the table -/
theorem lstep_rewire {N : Aig} (w : Loose N) {n : Nat} {nd : Node} (hn : N.nodes[n]? = some nd) (h0 : n ≠ 0)
    (hnin : n ∉ N.inputs) {c0 c1 : Sig} (hc0 : N.Valid c0) (hc1 : N.Valid c1) (hne : c0.index ≠ c1.index)
    {t : List Nat} (ht : ∀ x ∈ t, x ∈ N.table) :
    LStep N { N with nodes := N.nodes.modify n fun nd => { nd with c0 := c0, c1 := c1 }, table := n :: t } := by
  refine ⟨{ w.toSWF.rewire hn h0 hnin c0 c1 ht with
    fanins := ?_, outs := ?_, inputsNodup := w.inputsNodup, inputsPos := w.inputsPos, marks := ?_ },
    ⟨rfl, rfl, rfl, rfl, Nat.le_refl _, by simp, ?_⟩⟩
  · intro k x hk0 hki hk
    rw [List.getElem?_modify] at hk
    by_cases e : n = k
    · subst e
      simp [hn] at hk
      subst hk
      exact ⟨by simpa [Valid] using hc0, by simpa [Valid] using hc1, hne⟩
    · cases hx : N.nodes[k]? with
      | none => rw [hx] at hk; cases hk
      | some y =>
        rw [hx] at hk
        simp [e] at hk
        subst hk
        obtain ⟨a, b, c⟩ := w.fanins k y hk0 hki hx
        exact ⟨by simpa [Valid] using a, by simpa [Valid] using b, c⟩
  · intro o ho
    have := w.outs o ho
    simpa [Valid] using this
  · intro x hx
    rcases mem_modify hx with hm | ⟨b, hm, rfl⟩
    · exact w.marks x hm
    · exact w.marks b hm
  · intro k hk
    rw [List.getElem?_modify]
    have e : n ≠ k := by
      rintro rfl
      rcases hk with hk | hk
      · exact h0 hk
      · exact hnin hk
    simp [e]

theorem Loose.valid_const {N : Aig} (w : Loose N) (b : Bool) : N.Valid (Sig.const b) := w.pos

theorem order_valid {N : Aig} {a b : Sig} (ha : N.Valid a) (hb : N.Valid b) :
    N.Valid (order a b).1 ∧ N.Valid (order a b).2 := by
  unfold order
  split
  · exact ⟨hb, ha⟩
  · exact ⟨ha, hb⟩

theorem hashFind_valid {N : Aig} (w : Loose N) {a b : Sig} {t : Nat} (h : N.hashFind a b = some t) : t < N.nodes.length :=
  w.tableLt t (List.mem_of_find?_eq_some h)

theorem replaceCore_lstep {N : Aig} (w : Loose N) {n old : Nat} {nd : Node} (hn : N.nodes[n]? = some nd)
    (h0 : n ≠ 0) (hci : N.isCi n = false) {s other : Sig} (hs : N.Valid s) (ho : N.Valid other) {M : Aig}
    {p : Option (Nat × Sig)} (h : N.replaceCore n old nd s other = some (M, p)) :
    LStep N M ∧ ∀ k t, p = some (k, t) → N.Valid t := by
  have hnin := w.not_input hci
  rw [replaceCore] at h
  obtain ⟨v0, v1⟩ := order_valid ho hs
  generalize order other s = pr at h v0 v1
  obtain ⟨c0, c1⟩ := pr
  dsimp only at h v0 v1
  have hrw : replaceCore.rewire N n nd s c0 c1 = some (M, p) → c0.index ≠ c1.index →
      LStep N M ∧ ∀ k t, p = some (k, t) → N.Valid t := by
    intro h hne
    rw [replaceCore.rewire] at h
    split at h
    · cases h
    · rename_i N1 h1
      obtain ⟨t, rfl, ht⟩ := hashErase_some h1
      cases h
      refine ⟨?_, by simp⟩
      have h1 := lstep_rewire w hn h0 hnin v0 v1 hne ht
      exact h1.trans (lstep_modify h1.loose s.index (fun nd => { nd with fo := nd.fo + 1 }) (fun _ => ⟨rfl, rfl, rfl⟩))
  split at h
  · cases h
    refine ⟨LStep.refl w, ?_⟩
    intro k t hp
    cases hp
    split
    · exact w.valid_const _
    · exact v1
  · rename_i hne
    split at h
    · cases h
      refine ⟨LStep.refl w, ?_⟩
      intro k t hp
      cases hp
      split
      · exact v1
      · exact w.valid_const _
    · split at h
      · rename_i t hf
        split at h
        · cases h
          refine ⟨LStep.refl w, ?_⟩
          intro k t hp
          cases hp
          exact hashFind_valid w hf
        · exact hrw h hne
      · exact hrw h hne

theorem replaceInNode_lstep {N : Aig} (w : Loose N) {n old : Nat} {new : Sig} (hnew : N.Valid new) (h0 : n ≠ 0)
    (hci : N.isCi n = false) {M : Aig} {p : Option (Nat × Sig)} (h : N.replaceInNode n old new = some (M, p)) :
    LStep N M ∧ ∀ k t, p = some (k, t) → N.Valid t := by
  have hnin := w.not_input hci
  rw [replaceInNode] at h
  split at h
  · cases h
  · rename_i nd hn
    obtain ⟨a, b, _⟩ := w.fanins n nd h0 hnin hn
    split at h
    · exact replaceCore_lstep w hn h0 hci (show N.Valid (new.xorb _) from hnew) b h
    · split at h
      · exact replaceCore_lstep w hn h0 hci (show N.Valid (new.xorb _) from hnew) a h
      · cases h
        exact ⟨LStep.refl w, by simp⟩

theorem scanNodes_lstep {old : Nat} {new : Sig} : ∀ (l : List Nat) (N : Aig) (st : List (Nat × Sig))
    (M : Aig) (st' : List (Nat × Sig)), Loose N → N.Valid new → (∀ n ∈ l, n ≠ 0) → (∀ p ∈ st, N.Valid p.2) →
    scanNodes old new l N st = some (M, st') → LStep N M ∧ ∀ p ∈ st', M.Valid p.2 := by
  intro l
  induction l with
  | nil =>
    intro N st M st' w _ _ hst h
    cases h
    exact ⟨LStep.refl w, hst⟩
  | cons i l ih =>
    intro N st M st' w hnew hl hst h
    have hl' : ∀ n ∈ l, n ≠ 0 := fun n hn => hl n (by simp [hn])
    rw [scanNodes] at h
    split at h
    · exact ih N st M st' w hnew hl' hst h
    · rename_i hc
      simp only [not_or, Bool.not_eq_true] at hc
      split at h
      · cases h
      · rename_i N1 hr
        obtain ⟨k, _⟩ := replaceInNode_lstep w hnew (hl i (by simp)) hc.1 hr
        obtain ⟨k2, hs⟩ := ih N1 st M st' k.loose (valid_len k.frame.len hnew) hl'
          (fun p hp => valid_len k.frame.len (hst p hp)) h
        exact ⟨k.trans k2, hs⟩
      · rename_i N1 p hr
        obtain ⟨k, hp⟩ := replaceInNode_lstep w hnew (hl i (by simp)) hc.1 hr
        obtain ⟨k2, hs⟩ := ih N1 (p :: st) M st' k.loose (valid_len k.frame.len hnew) hl'
          (by
            intro q hq
            rcases List.mem_cons.1 hq with rfl | hq
            · exact valid_len k.frame.len (hp _ _ rfl)
            · exact valid_len k.frame.len (hst q hq)) h
        exact ⟨k.trans k2, hs⟩

theorem replaceInOutputs_lstep {N : Aig} (w : Loose N) (old : Nat) {new : Sig} (hnew : N.Valid new) :
    LStep N (N.replaceInOutputs old new) := by
  unfold replaceInOutputs
  split
  · exact LStep.refl w
  · have hs0 : LStep N { N with
        outputs := N.outputs.map fun o => if o.index = old then new.xorb o.compl else o } := by
      refine ⟨{ pos := w.pos, inputCi := w.inputCi, table := w.table, tableLt := w.tableLt, fanins := w.fanins,
                outs := ?_, inputsNodup := w.inputsNodup, inputsPos := w.inputsPos, marks := w.marks },
        ⟨rfl, rfl, rfl, by simp, Nat.le_refl _, Nat.le_refl _, fun _ _ => rfl⟩⟩
      intro o ho
      simp only [List.mem_map] at ho
      obtain ⟨o', ho', rfl⟩ := ho
      split
      · exact (show N.Valid (new.xorb _) from hnew)
      · exact w.outs o' ho'
    dsimp only
    split
    · exact hs0.trans (lstep_modify hs0.loose new.index
        (fun nd => { nd with fo := nd.fo + N.outputs.countP fun o => o.index == old }) (fun _ => ⟨rfl, rfl, rfl⟩))
    · exact hs0

theorem substLoop_lstep : ∀ (f : Nat) (N : Aig) (st : List (Nat × Sig)) (M : Aig),
    Loose N → (∀ p ∈ st, N.Valid p.2) → substLoop f N st = some M → LStep N M := by
  intro f
  induction f with
  | zero => intro N st M _ _ h; simp [substLoop] at h
  | succ f ih =>
    intro N st M w hst h
    cases st with
    | nil => cases h; exact LStep.refl w
    | cons p st =>
      obtain ⟨old, new⟩ := p
      have hnew : N.Valid new := hst (old, new) (by simp)
      rw [substLoop] at h
      split at h
      · cases h
      · rename_i N1 st1 hs
        obtain ⟨w1, hv1⟩ := scanNodes_lstep _ N st N1 st1 w hnew (fun n hn => mem_scanList hn)
          (fun p hp => hst p (by simp [hp])) hs
        have w2 := replaceInOutputs_lstep w1.loose old (valid_len w1.frame.len hnew)
        dsimp only at h
        have hv2 : ∀ p ∈ st1, (N1.replaceInOutputs old new).Valid p.2 := fun p hp => valid_len w2.frame.len (hv1 p hp)
        split at h
        · split at h
          · cases h
          · rename_i N3 h3
            have w3 := takeOut_lstep _ _ _ _ w2.loose h3
            exact ((w1.trans w2).trans w3).trans (ih _ _ _ w3.loose (fun p hp => valid_len w3.frame.len (hv2 p hp)) h)
        · exact (w1.trans w2).trans (ih _ _ _ w2.loose hv2 h)

theorem substituteNode_lstep {f : Nat} {N : Aig} {old : Nat} {new : Sig} {M : Aig} (w : Loose N) (hnew : N.Valid new)
    (h : substituteNode f N old new = some M) : LStep N M := substLoop_lstep f N _ M w (by simpa using hnew) h

/-! ### construction on such networks -/

/-- what later proofs need about a constructor call on a `Loose` network -/
structure LooseSpec (N : Aig) (f : (Nat → Bool) → Bool) (r : Aig × Sig) : Prop where
  step : LStep N r.1
  outs : r.1.outputs = N.outputs
  kids : ∀ (n : Nat) (nd : Node), N.nodes[n]? = some nd → ∃ nd', r.1.nodes[n]? = some nd' ∧ nd'.c0 = nd.c0 ∧ nd'.c1 = nd.c1
  valid : r.1.Valid r.2
  val : ∀ v, ModelsAll r.1 v → r.2.val v = f v
  extend : ∀ v, ModelsAll N v → ∃ v', ModelsAll r.1 v' ∧ ∀ n, n < N.nodes.length → v' n = v n

theorem LooseSpec.models {N : Aig} {f r} (h : LooseSpec N f r) {v : Nat → Bool} (m : ModelsAll r.1 v) : ModelsAll N v := by
  refine ⟨m.const, fun n nd h0 hi hn => ?_⟩
  obtain ⟨nd', hn', e0, e1⟩ := h.kids n nd hn
  rw [← e0, ← e1]
  exact m.gate n nd' h0 (h.step.frame.inputs ▸ hi) hn'

theorem looseSpec_same {N : Aig} (h : Loose N) {f : (Nat → Bool) → Bool} {s : Sig} (hs : N.Valid s)
    (hv : ∀ v, ModelsAll N v → s.val v = f v) : LooseSpec N f (N, s) :=
  ⟨LStep.refl h, rfl, fun _ nd hn => ⟨nd, hn, rfl, rfl⟩, hs, hv, fun v m => ⟨v, m, fun _ _ => rfl⟩⟩

theorem LooseSpec.bind {N : Aig} {f g r r'} (h : LooseSpec N f r) (h' : LooseSpec r.1 g r') : LooseSpec N g r' := by
  refine ⟨h.step.trans h'.step, h'.outs.trans h.outs, fun n nd hn => ?_, h'.valid, h'.val, fun v m => ?_⟩
  · obtain ⟨nd1, hn1, a1, b1⟩ := h.kids n nd hn
    obtain ⟨nd2, hn2, a2, b2⟩ := h'.kids n nd1 hn1
    exact ⟨nd2, hn2, a2.trans a1, b2.trans b1⟩
  · obtain ⟨v1, m1, e1⟩ := h.extend v m
    obtain ⟨v2, m2, e2⟩ := h'.extend v1 m1
    exact ⟨v2, m2, fun n hn => (e2 n (Nat.lt_of_lt_of_le hn h.step.frame.len)).trans (e1 n hn)⟩

theorem LooseSpec.mono {N : Aig} {f g : (Nat → Bool) → Bool} {r} (h : LooseSpec N f r)
    (e : ∀ v, v 0 = false → f v = g v) : LooseSpec N g r :=
  { h with val := fun v m => (h.val v m).trans (e v m.const) }

theorem LooseSpec.not {N : Aig} {f : (Nat → Bool) → Bool} {r} (h : LooseSpec N f r) :
    LooseSpec N (fun v => !(f v)) (r.1, r.2.not) :=
  ⟨h.step, h.outs, h.kids, h.valid, fun v m => (by simp [h.val v m]), h.extend⟩

theorem val_congr_valid {N : Aig} {s : Sig} (hs : N.Valid s) {v w : Nat → Bool}
    (h : ∀ n, n < N.nodes.length → v n = w n) : s.val v = s.val w := by
  unfold Sig.val; rw [h _ hs]

theorem addAnd_kids_some {N : Aig} {c d : Sig} {n : Nat} {nd : Node} (hn : N.nodes[n]? = some nd) :
    ∃ nd', (N.addAnd c d).1.nodes[n]? = some nd' ∧ nd'.c0 = nd.c0 ∧ nd'.c1 = nd.c1 := by
  have := addAnd_kids N c d n (lt_of_getElem? hn)
  rw [hn] at this
  cases hm : (N.addAnd c d).1.nodes[n]? with
  | none => rw [hm] at this; simp at this
  | some nd' =>
    rw [hm] at this
    simp only [Option.map_some, Option.some.injEq, Prod.mk.injEq] at this
    exact ⟨nd', rfl, this.1, this.2⟩

theorem addAnd_new {N : Aig} {c d : Sig} : ∃ nd, (N.addAnd c d).1.nodes[N.nodes.length]? = some nd ∧ nd.c0 = c ∧ nd.c1 = d := by
  obtain ⟨ph, e⟩ := addAnd_eq N c d
  rw [e, incFo_get, incFo_get]
  simp only [pushAnd, List.getElem?_concat_length, Option.map_some]
  exact ⟨_, rfl, by split <;> split <;> rfl, by split <;> split <;> rfl⟩

theorem addAnd_visited {N : Aig} {c d : Sig} {nd : Node} (h : nd ∈ (N.addAnd c d).1.nodes) :
    nd.visited = 0 ∨ ∃ nd' ∈ N.nodes, nd.visited = nd'.visited := by
  obtain ⟨ph, e⟩ := addAnd_eq N c d
  rw [e] at h
  have hp : ∀ x ∈ (N.pushAnd c d ph).nodes, x.visited = 0 ∨ ∃ nd' ∈ N.nodes, x.visited = nd'.visited := by
    intro x hx
    simp only [pushAnd, List.mem_append, List.mem_singleton] at hx
    rcases hx with hx | rfl
    · exact Or.inr ⟨x, hx, rfl⟩
    · exact Or.inl rfl
  have hi : ∀ (K : Aig) (i : Nat), (∀ x ∈ K.nodes, x.visited = 0 ∨ ∃ nd' ∈ N.nodes, x.visited = nd'.visited) →
      ∀ x ∈ (K.incFo i).nodes, x.visited = 0 ∨ ∃ nd' ∈ N.nodes, x.visited = nd'.visited := by
    intro K i hK x hx
    rcases mem_modify hx with hm | ⟨b, hm, rfl⟩
    · exact hK x hm
    · exact hK b hm
  exact hi _ _ (hi _ _ hp) nd h

theorem createAnd_lspec {N : Aig} (w : Loose N) {a b : Sig} (ha : N.Valid a) (hb : N.Valid b) :
    LooseSpec N (fun v => a.val v && b.val v) (N.createAnd a b) := by
  have hov := fun v => order_val a b v
  obtain ⟨v0, v1⟩ := order_valid ha hb
  unfold createAnd
  generalize order a b = pr at hov v0 v1
  obtain ⟨c0, c1⟩ := pr
  dsimp only at hov v0 v1 ⊢
  split
  · rename_i e
    refine looseSpec_same w ?_ fun v m => ?_
    · split
      · exact v0
      · exact w.valid_const _
    · rw [← hov]
      obtain ⟨i, p⟩ := c0
      obtain ⟨j, q⟩ := c1
      simp only at e
      subst e
      cases p <;> cases q <;> simp [Sig.val, Sig.const, m.const]
  · rename_i hne
    split
    · rename_i e
      refine looseSpec_same w ?_ fun v m => ?_
      · split
        · exact v1
        · exact w.valid_const _
      · rw [← hov]
        cases hc : c0.compl <;> simp [Sig.val, e, hc, m.const, Sig.const]
    · rename_i h0
      split
      · rename_i t hf
        refine looseSpec_same w (hashFind_valid w hf) fun v m => ?_
        rw [← hov, ← hashFind_models w.toSWF m hf]
        simp [Sig.val]
      · rename_i hf
        have hlen : (N.addAnd c0 c1).1.nodes.length = N.nodes.length + 1 := by simp
        have hle : N.nodes.length ≤ (N.addAnd c0 c1).1.nodes.length := by omega
        have htab : (N.addAnd c0 c1).1.table = N.nodes.length :: N.table := rfl
        have hinp : (N.addAnd c0 c1).1.inputs = N.inputs := rfl
        have hnew : N.nodes.length ∉ N.inputs := fun hi => by
          have := isCi_lt (w.inputCi _ hi); omega
        have hnode : ∀ n nd, (N.addAnd c0 c1).1.nodes[n]? = some nd → (n = N.nodes.length ∧ nd.c0 = c0 ∧ nd.c1 = c1) ∨
            ∃ nd', N.nodes[n]? = some nd' ∧ nd.c0 = nd'.c0 ∧ nd.c1 = nd'.c1 := by
          intro n nd hn
          have := lt_of_getElem? hn
          rw [hlen] at this
          by_cases e : n = N.nodes.length
          · subst e
            obtain ⟨x, hx, e0, e1⟩ := addAnd_new (N := N) (c := c0) (d := c1)
            rw [hn] at hx
            obtain rfl := Option.some.inj hx
            exact Or.inl ⟨rfl, e0, e1⟩
          · have hlt : n < N.nodes.length := by omega
            obtain ⟨x, hx, e0, e1⟩ := addAnd_kids_some (c := c0) (d := c1) (List.getElem?_eq_getElem hlt)
            rw [hn] at hx
            obtain rfl := Option.some.inj hx
            exact Or.inr ⟨_, List.getElem?_eq_getElem hlt, e0, e1⟩
        refine ⟨⟨{ w.toSWF.extend (addAnd_kids N c0 c1) hle (by rw [hinp]; exact fun i h => Or.inl h) ?_ ?_ with
            fanins := ?_, outs := ?_, inputsNodup := w.inputsNodup, inputsPos := w.inputsPos, marks := ?_ },
          ⟨rfl, rfl, rfl, rfl, Nat.le_refl _, hle, fun n hn => addAnd_kids N c0 c1 n (by
            rcases hn with rfl | hn
            · exact w.pos
            · exact isCi_lt (w.inputCi n hn))⟩⟩, rfl, fun n nd hn => addAnd_kids_some hn, ?_, ?_, ?_⟩
        · intro t ht
          rw [htab] at ht
          rw [hinp]
          rcases List.mem_cons.1 ht with rfl | ht
          · exact Or.inr ⟨by have := w.pos; omega, hnew⟩
          · exact Or.inl ⟨ht, id⟩
        · intro t ht
          rw [htab] at ht
          rcases List.mem_cons.1 ht with rfl | ht
          · omega
          · have := w.tableLt t ht; omega
        · intro n nd hn0 hni hn
          rcases hnode n nd hn with ⟨rfl, rfl, rfl⟩ | ⟨nd', hn', e0, e1⟩
          · exact ⟨valid_len hle v0, valid_len hle v1, hne⟩
          · obtain ⟨x, y, z⟩ := w.fanins n nd' hn0 hni hn'
            rw [e0, e1]
            exact ⟨valid_len hle x, valid_len hle y, z⟩
        · exact fun o ho => valid_len hle (w.outs o ho)
        · intro nd hnd
          rcases addAnd_visited hnd with h | ⟨nd', hm, h⟩
          · rw [h]; exact Nat.zero_le _
          · rw [h]; exact w.marks nd' hm
        · show N.nodes.length < _
          omega
        · intro v m
          obtain ⟨x, hx, e0, e1⟩ := addAnd_new (N := N) (c := c0) (d := c1)
          have := m.gate N.nodes.length x (by have := w.pos; omega) hnew hx
          rw [e0, e1, hov] at this
          rw [← this]
          simp [addAnd, Sig.val]
        · intro v m
          refine ⟨fun k => if k = N.nodes.length then c0.val v && c1.val v else v k, ?_, fun n hn => if_neg (by omega)⟩
          have hagree : ∀ s : Sig, N.Valid s →
              s.val (fun k => if k = N.nodes.length then c0.val v && c1.val v else v k) = s.val v := by
            intro s hs
            exact val_congr_valid hs fun n hn => if_neg (by omega)
          refine ⟨?_, fun n nd hn0 hni hn => ?_⟩
          · have := w.pos
            show (if 0 = N.nodes.length then _ else v 0) = false
            rw [if_neg (by omega)]
            exact m.const
          · rcases hnode n nd hn with ⟨rfl, rfl, rfl⟩ | ⟨nd', hn', e0, e1⟩
            · rw [hagree _ v0, hagree _ v1]
              exact if_pos rfl
            · obtain ⟨x, y, _⟩ := w.fanins n nd' hn0 hni hn'
              rw [e0, e1, hagree _ x, hagree _ y]
              have := lt_of_getElem? hn'
              show (if n = N.nodes.length then _ else v n) = _
              rw [if_neg (by omega)]
              exact m.gate n nd' hn0 hni hn'

theorem createOr_lspec {N : Aig} (w : Loose N) {a b : Sig} (ha : N.Valid a) (hb : N.Valid b) :
    LooseSpec N (fun v => a.val v || b.val v) (N.createOr a b) := by
  have := (createAnd_lspec w (a := a.not) (b := b.not) ha hb).not
  exact this.mono (fun v _ => by simp)

theorem LooseSpec.and2 {N : Aig} {f g : (Nat → Bool) → Bool} {r r' : Aig × Sig} (h : LooseSpec N f r)
    (h' : LooseSpec r.1 g r') : LooseSpec N (fun v => f v && g v) (r'.1.createAnd r.2 r'.2) := by
  have hc := createAnd_lspec h'.step.loose (valid_len h'.step.frame.len h.valid) h'.valid
  have := h.bind (h'.bind hc)
  exact { this with val := fun v m => (by
      rw [hc.val v m, h'.val v (hc.models m), h.val v (h'.models (hc.models m))]) }

theorem LooseSpec.or2 {N : Aig} {f g : (Nat → Bool) → Bool} {r r' : Aig × Sig} (h : LooseSpec N f r)
    (h' : LooseSpec r.1 g r') : LooseSpec N (fun v => f v || g v) (r'.1.createOr r.2 r'.2) := by
  have hc := createOr_lspec h'.step.loose (valid_len h'.step.frame.len h.valid) h'.valid
  have := h.bind (h'.bind hc)
  exact { this with val := fun v m => (by
      rw [hc.val v m, h'.val v (hc.models m), h.val v (h'.models (hc.models m))]) }

/-- the networks of `Loose` -/
def looseTheory : Sop.Theory where
  W := Loose
  Spec := LooseSpec
  wf h := h.step.loose
  later h hs := valid_len h.step.frame.len hs
  mono h e := h.mono e
  id h hs := looseSpec_same h hs fun _ _ => rfl
  const h b := looseSpec_same h (h.valid_const b) fun v m => (by simp [Sig.val, Sig.const, m.const])
  not h := h.not
  and2 h g := h.and2 g
  or2 h g := h.or2 g

end Verif.Aig
