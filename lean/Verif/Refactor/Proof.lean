import Verif.Refactor.Basic
import Verif.Refactor.Loose
import Verif.Props.C24
import Verif.Props.C14
import Verif.Choice.MiterProof

set_option autoImplicit false

/-!
# Refactoring: helper lemmas
-/

namespace Verif.Refactor

open Verif.Aig (Loose LStep Frame LooseSpec ModelsAll Built)
open Verif.Topo (St updateTopo visOf)
open Verif.RefDeref (aigKids)

theorem andThen_ok {α β : Type} {r : Except Stop α} {k : α → Except Stop β} {b : β} (h : andThen r k = .ok b) :
    ∃ a, r = .ok a ∧ k a = .ok b := by
  cases r with
  | ok a => exact ⟨a, rfl, h⟩
  | error e => cases h

theorem orBound_ok {α : Type} {o : Option α} {a : α} (h : orBound o = .ok a) : o = some a := by
  cases o with
  | none => cases h
  | some b => cases h; rfl

theorem orUndefined_ok {α : Type} {o : Option α} {a : α} (h : orUndefined o = .ok a) : o = some a := by
  cases o with
  | none => cases h
  | some b => cases h; rfl

/-! ### marks -/

theorem setMarks_kids (N : Aig) (g : Nat → Nat) (n : Nat) :
    (setMarks N g).nodes[n]?.map (fun nd => (nd.c0, nd.c1)) = N.nodes[n]?.map (fun nd => (nd.c0, nd.c1)) := by
  simp only [setMarks, List.getElem?_mapIdx, Option.map_map]
  rfl

theorem setMarks_same (N : Aig) (g : Nat → Nat) : Aig.Same N (setMarks N g) :=
  ⟨by simp [setMarks], setMarks_kids N g, rfl, fun _ h => h⟩

theorem setMarks_loose {N : Aig} (h : Loose N) (g : Nat → Nat) {t : Nat} (ht : N.travId ≤ t) (hg : ∀ n, g n ≤ t) :
    LStep N { setMarks N g with travId := t } := by
  have hs := setMarks_same N g
  have hl : N.nodes.length ≤ (setMarks N g).nodes.length := Nat.le_of_eq hs.len.symm
  have w := hs.swf h.toSWF
  refine ⟨{ pos := w.pos, inputCi := w.inputCi, table := w.table, tableLt := w.tableLt, fanins := ?_,
            outs := fun o ho => Aig.valid_len hl (h.outs o ho), inputsNodup := h.inputsNodup,
            inputsPos := h.inputsPos, marks := ?_ },
    ⟨rfl, rfl, rfl, rfl, ht, hl, fun n _ => setMarks_kids N g n⟩⟩
  · intro n nd h0 hi hn
    have hk := setMarks_kids N g n
    rw [show (setMarks N g).nodes[n]? = some nd from hn] at hk
    cases hN : N.nodes[n]? with
    | none => rw [hN] at hk; simp at hk
    | some nd' =>
      rw [hN] at hk
      simp only [Option.map_some, Option.some.injEq, Prod.mk.injEq] at hk
      obtain ⟨e0, e1⟩ := hk
      obtain ⟨a, b, c⟩ := h.fanins n nd' h0 hi hN
      rw [e0, e1]
      exact ⟨Aig.valid_len hl a, Aig.valid_len hl b, c⟩
  · intro nd hnd
    obtain ⟨k, hk⟩ := List.getElem?_of_mem hnd
    simp only [setMarks, List.getElem?_mapIdx] at hk
    cases hN : N.nodes[k]? with
    | none => rw [hN] at hk; simp at hk
    | some nd' =>
      rw [hN] at hk
      obtain rfl := Option.some.inj hk
      exact hg k

theorem setMarks_models {N : Aig} {g : Nat → Nat} {t : Nat} {v : Nat → Bool} :
    ModelsAll { setMarks N g with travId := t } v ↔ ModelsAll N v := by
  constructor
  · intro m
    refine ⟨m.const, fun n nd h0 hi hn => ?_⟩
    have hk := setMarks_kids N g n
    rw [hn] at hk
    cases hM : (setMarks N g).nodes[n]? with
    | none => rw [hM] at hk; simp at hk
    | some nd' =>
      rw [hM] at hk
      simp only [Option.map_some, Option.some.injEq, Prod.mk.injEq] at hk
      rw [← hk.1, ← hk.2]
      exact m.gate n nd' h0 hi hM
  · intro m
    refine ⟨m.const, fun n nd h0 hi hn => ?_⟩
    have hk := setMarks_kids N g n
    rw [show (setMarks N g).nodes[n]? = some nd from hn] at hk
    cases hM : N.nodes[n]? with
    | none => rw [hM] at hk; simp at hk
    | some nd' =>
      rw [hM] at hk
      simp only [Option.map_some, Option.some.injEq, Prod.mk.injEq] at hk
      rw [hk.1, hk.2]
      exact m.gate n nd' h0 hi hM

section
variable {kids : Nat → List Nat} {trav : Nat}

theorem mark_le {s : St} (h : ∀ n, s.vis n ≤ trav) (n : Nat) {t : Nat} (ht : t ≤ trav) : ∀ k, (s.mark n t).vis k ≤ trav := by
  intro k
  show (if k = n then t else s.vis k) ≤ trav
  split
  · exact ht
  · exact h k

theorem topoKids_le {rec : Nat → St → Option St}
    (hrec : ∀ n s s', rec n s = some s' → (∀ k, s.vis k ≤ trav) → ∀ k, s'.vis k ≤ trav) :
    ∀ (l : List Nat) (s s' : St), Topo.topoKids rec l s = some s' → (∀ k, s.vis k ≤ trav) → ∀ k, s'.vis k ≤ trav := by
  intro l
  induction l with
  | nil => intro s s' e h; cases e; exact h
  | cons n l ih =>
    intro s s' e h
    rw [Topo.topoKids] at e
    split at e
    · cases e
    · rename_i s1 h1
      exact ih s1 s' e (hrec n s s1 h1 h)

theorem topoRec_le : ∀ (f n : Nat) (s s' : St), Topo.topoRec kids trav f n s = some s' → (∀ k, s.vis k ≤ trav) →
    ∀ k, s'.vis k ≤ trav := by
  intro f
  induction f with
  | zero => intro n s s' e; cases e
  | succ f ih =>
    intro n s s' e h
    rw [Topo.topoRec] at e
    split at e
    · cases e; exact h
    · split at e
      · cases e
      · rename_i s1 h1
        cases e
        exact mark_le (topoKids_le ih _ _ _ h1 (mark_le h n (Nat.sub_le _ _))) n (Nat.le_refl _)

theorem topoCos_le {f : Nat} : ∀ (l : List Nat) (s s' : St), Topo.topoCos kids trav f l s = some s' →
    (∀ k, s.vis k ≤ trav) → ∀ k, s'.vis k ≤ trav := by
  intro l
  induction l with
  | nil => intro s s' e h; cases e; exact h
  | cons n l ih =>
    intro s s' e h
    rw [Topo.topoCos] at e
    split at e
    · exact ih s s' e h
    · split at e
      · cases e
      · rename_i s1 h1
        exact ih s1 s' e (topoRec_le _ _ _ _ h1 h)

theorem topoCis_le : ∀ (l : List Nat) (s : St), (∀ k, s.vis k ≤ trav) → ∀ k, (Topo.topoCis trav l s).vis k ≤ trav := by
  intro l
  induction l with
  | nil => intro s h; exact h
  | cons n l ih =>
    intro s h
    rw [Topo.topoCis]
    apply ih
    split
    · exact h
    · exact mark_le (s := s.push n) h n (Nat.le_refl _)
end

theorem view_loose {N : Aig} (h : Loose N) {f : Nat} {r : Aig × List Nat} (e : view N f = some r) :
    LStep N r.1 ∧ r.1.travId = N.travId + 2 ∧ r.1.nodes.length = N.nodes.length ∧ r.1.outputs = N.outputs ∧
      ∀ v, ModelsAll r.1 v ↔ ModelsAll N v := by
  rw [view] at e
  split at e
  · cases e
  · rename_i s hs
    cases e
    refine ⟨setMarks_loose h _ (by omega) ?_, rfl, by simp [setMarks], rfl, fun v => setMarks_models⟩
    rw [updateTopo] at hs
    refine topoCos_le _ _ _ hs (topoCis_le _ _ (mark_le (s := St.push ⟨visOf N, []⟩ 0) ?_ 0 (Nat.le_refl _)))
    intro n
    show visOf N n ≤ N.travId + 2
    unfold visOf
    split
    · rename_i nd hn
      have := h.marks nd (List.mem_of_getElem? hn)
      omega
    · omega

/-! ### the start -/

theorem loose_of_built {N : Aig} (hN : Built N) : Loose N := by
  have hr := hN.reach
  refine { hr.swf with fanins := ?_, outs := hN.wf.outputs, inputsNodup := hN.wf.inputsNodup, inputsPos := ?_, marks := ?_ }
  · intro n nd h0 hi hn
    obtain ⟨a, b, c, _⟩ := hN.wf.gate n nd hn h0 hi
    have := Aig.lt_of_getElem? hn
    exact ⟨by show _ < _; omega, by show _ < _; omega, by omega⟩
  · intro n hn
    obtain ⟨k, hk⟩ := List.getElem?_of_mem hn
    have := (hN.wf.input k n hk).1
    omega
  · intro nd hnd
    rw [hN.visited.1 nd hnd]
    exact Nat.zero_le _

/-- the constant and the inputs look like primary inputs -/
def PiOk (N : Aig) : Prop := ∀ n, n = 0 ∨ n ∈ N.inputs → N.isPi n = true

theorem PiOk.frame {N M : Aig} (h : PiOk N) (hf : Frame N M) : PiOk M := by
  intro n hn
  rw [hf.inputs] at hn
  have hk := hf.ins n hn
  have hp := h n hn
  unfold Aig.isPi at hp ⊢
  rw [hf.numPis]
  cases hN : N.nodes[n]? with
  | none => rw [hN] at hp; cases hp
  | some nd =>
    rw [hN] at hk hp
    cases hM : M.nodes[n]? with
    | none => rw [hM] at hk; simp at hk
    | some nd' =>
      rw [hM] at hk
      simp only [Option.map_some, Option.some.injEq, Prod.mk.injEq] at hk
      dsimp only at hp ⊢
      rw [hk.1, hk.2]
      exact hp

theorem piOk_of_built {N : Aig} (hN : Built N) (hpi : N.inputs.length = N.numPis) (hk : 0 < N.numPis) : PiOk N := by
  intro n hn
  rcases hn with rfl | hn
  · exact ChoiceMiter.isPi_zero hN hk
  · obtain ⟨k, hk⟩ := List.getElem?_of_mem hn
    obtain ⟨_, nd, hnd, e0, e1, _⟩ := hN.wf.input k n hk
    have hlt := Aig.lt_of_getElem? hk
    unfold Aig.isPi
    rw [hnd]
    simp [e0, e1]
    omega

/-- a network without inputs has only the constant node -/
theorem nodes_of_noInputs {N : Aig} (hN : Built N) (h : N.inputs = []) : N.nodes.length = 1 := by
  have hpos := hN.wf.pos
  by_contra hne
  have key : ∀ n, n ≠ 0 → n < N.nodes.length → False := by
    intro n
    induction n using Nat.strong_induction_on with
    | _ n ih =>
      intro h0 hl
      obtain ⟨a, b, c, _⟩ := hN.wf.gate n _ (List.getElem?_eq_getElem hl) h0 (by simp [h])
      exact ih _ c (by omega) (by omega)
  exact key 1 (by omega) (by omega)

/-! ### factoring on such networks -/

theorem factor_spec {T : Sop.Theory} {t : TT} (ht : t.WF) (hn : t.n ≤ 31) {N : Aig} (hN : T.W N) {leaves : List Sig}
    (hl : leaves.length = t.n) (hv : ∀ s ∈ leaves, N.Valid s) :
    ∃ r, Sop.factor N t leaves (factorFuel t) = some r ∧ T.Spec N (fun v => t.eval (Sop.leafAssign leaves v)) r := by
  unfold Sop.factor
  by_cases c0 : t.isConst0 = true
  · rw [if_pos c0]
    exact ⟨_, rfl, T.mono (T.const hN false) fun v _ => ((TT.isConst0_iff ht).1 c0 _).symm⟩
  simp only [if_neg c0]
  by_cases c1 : t.not.isConst0 = true
  · rw [if_pos c1]
    refine ⟨_, rfl, T.mono (T.const hN true) fun v _ => ?_⟩
    have := (TT.isConst0_iff (TT.wf_not t)).1 c1 (Sop.leafAssign leaves v)
    rw [TT.eval_not] at this
    simpa using this.symm
  simp only [if_neg c1]
  obtain ⟨cs, neg, e, hg, hval⟩ := Sop.getIsop_spec ht hn
    (by obtain ⟨x, hx⟩ := Sop.ne_const (TT.wf_not t) c1; exact ⟨x, by rw [TT.eval_not] at hx; simpa using hx⟩)
    (Sop.ne_const ht c0)
  have hf : factorFuel t = Sop.lits (Sop.ofCubes cs t.n) + 66 := by rw [factorFuel, e]
  obtain ⟨r, e2, s⟩ := Sop.genFactor_spec (T := T) (ch := leaves) (n := 2 * t.n) (by omega) (by omega) (factorFuel t) N _ hN
    hv hg (by omega)
  rw [e]
  dsimp only
  rw [e2]
  refine ⟨_, rfl, ?_⟩
  cases neg with
  | false =>
    refine T.mono s fun v _ => ?_
    have : Bool.xor false (Sop.val (Sop.leafVal leaves v) (Sop.ofCubes cs t.n)) = _ := hval (Sop.leafAssign leaves v)
    simpa using this
  | true =>
    refine T.mono (T.not s) fun v _ => ?_
    have : Bool.xor true (Sop.val (Sop.leafVal leaves v) (Sop.ofCubes cs t.n)) = _ := hval (Sop.leafAssign leaves v)
    simpa using this

/-! ### the cut -/

theorem kids_valid {N : Aig} (h : Loose N) {n k : Nat} (hk : k ∈ aigKids N n) : k < N.nodes.length := by
  unfold RefDeref.aigKids at hk
  split at hk
  · simp at hk
  · rename_i hc
    split at hk
    · rename_i nd hnd
      obtain ⟨v0, v1, _⟩ := h.fanins n nd (fun h => hc (Or.inl h)) (fun hi => hc (Or.inr (h.inputCi _ hi))) hnd
      simp only [List.mem_cons, List.not_mem_nil, or_false] at hk
      rcases hk with rfl | rfl
      · exact v0
      · exact v1
    · simp at hk

theorem pickLeaf_spec {N : Aig} {d : Depths} {seen : List Nat} {L : List Nat} : ∀ (l : List Nat) (c : Option Nat) (b : Nat)
    (lv : Option Nat) (c' : Nat) (b' : Nat), (∀ k ∈ l, k ∈ L) → (c ≠ none → b ∈ L ∧ leafCost N seen b = c) →
    pickLeaf N d seen l c b lv = .ok (some c', b') → b' ∈ L ∧ leafCost N seen b' = some c' := by
  intro l
  induction l with
  | nil =>
    intro c b lv c' b' _ hc h
    cases h
    exact hc (by simp)
  | cons k l ih =>
    intro c b lv c' b' hl hc h
    rw [pickLeaf] at h
    obtain ⟨x, _, h⟩ := andThen_ok h
    dsimp only at h
    generalize (costLt _ c || _) = cond at h
    split at h
    · split at h
      · rename_i hz
        rw [hz] at h
        cases h
        exact ⟨hl k (by simp), hz⟩
      · exact ih _ _ _ _ _ (fun y hy => hl y (by simp [hy])) (fun _ => ⟨hl k (by simp), rfl⟩) h
    · exact ih _ _ _ _ _ (fun y hy => hl y (by simp [hy])) hc h

theorem addKids_mem : ∀ (l seen leaves : List Nat) (k : Nat), k ∈ (addKids l seen leaves).2 → k ∈ leaves ∨ k ∈ l := by
  intro l
  induction l with
  | nil => intro seen leaves k h; exact Or.inl h
  | cons a l ih =>
    intro seen leaves k h
    rw [addKids] at h
    split at h
    · exact (ih _ _ _ h).imp_right (by simp +contextual)
    · rcases ih _ _ _ h with h | h
      · rw [List.mem_append] at h
        rcases h with h | h
        · exact Or.inl h
        · exact Or.inr (by simp at h; simp [h])
      · exact Or.inr (by simp [h])

theorem addKids_len : ∀ (l seen leaves : List Nat),
    (addKids l seen leaves).2.length ≤ leaves.length + (l.filter fun k => decide (k ∉ seen)).length := by
  intro l
  induction l with
  | nil => intro seen leaves; simp [addKids]
  | cons a l ih =>
    intro seen leaves
    rw [addKids]
    split
    · rename_i h
      simpa [h] using ih seen leaves
    · rename_i h
      have h1 := ih (seen ++ [a]) (leaves ++ [a])
      have h2 : (l.filter fun k => decide (k ∉ seen ++ [a])).length ≤ (l.filter fun k => decide (k ∉ seen)).length := by
        rw [← List.countP_eq_length_filter, ← List.countP_eq_length_filter]
        apply List.countP_mono_left
        intro x _
        simp only [List.mem_append, not_or, decide_eq_true_eq]
        exact fun h => h.1
      simp only [List.length_append, List.length_singleton] at h1
      rw [List.filter_cons_of_pos (by simpa using h), List.length_cons]
      omega

theorem growCut_spec {N : Aig} (w : Loose N) {d : Depths} {m : Nat} : ∀ (f : Nat) (seen leaves : List Nat)
    (q : List Nat × List Nat), leaves.length ≤ max 2 m → (∀ k ∈ leaves, k < N.nodes.length) →
    growCut N d m f seen leaves = .ok q → q.2.length ≤ max 2 m ∧ ∀ k ∈ q.2, k < N.nodes.length := by
  intro f
  induction f with
  | zero => intro seen leaves q _ _ h; cases h
  | succ f ih =>
    intro seen leaves q hl hv h
    rw [growCut] at h
    obtain ⟨⟨c, b⟩, hp, h⟩ := andThen_ok h
    cases c with
    | none => cases h; exact ⟨hl, hv⟩
    | some c =>
      dsimp only at h
      split at h
      · cases h; exact ⟨hl, hv⟩
      · rename_i h0
        split at h
        · cases h; exact ⟨hl, hv⟩
        · rename_i hle
          obtain ⟨hb, hc⟩ := pickLeaf_spec (L := leaves) leaves none 0 none c b (fun _ h => h) (by simp) hp
          refine ih _ _ q ?_ ?_ h
          · refine (addKids_len _ _ _).trans ?_
            rw [List.length_erase_of_mem hb]
            unfold leafCost at hc
            split at hc
            · cases hc
            · rename_i nd hnd
              split at hc
              · cases hc
              · rename_i hci
                simp only [Bool.not_eq_true] at hci
                rw [Aig.aigKids_gate h0 hci hnd]
                have : ([nd.c0.index, nd.c1.index].filter fun k => decide (k ∉ seen)).length = c := by
                  dsimp only at hc
                  by_cases a0 : nd.c0.index ∈ seen <;> by_cases a1 : nd.c1.index ∈ seen <;>
                    simp [a0, a1] at hc ⊢ <;> first | exact hc | skip
                  exact hc.2
                rw [this]
                omega
          · intro k hk
            rcases addKids_mem _ _ _ _ hk with hk | hk
            · exact hv k (List.mem_of_mem_erase hk)
            · exact kids_valid w hk

theorem reconvCut_spec {N : Aig} (w : Loose N) {d : Depths} {m f root : Nat} {q : List Nat × List Nat}
    (h : reconvCut N d m f root = .ok q) : q.2.length ≤ max 2 m ∧ ∀ k ∈ q.2, k < N.nodes.length := by
  refine growCut_spec w f _ _ q ?_ (fun k hk => kids_valid w hk) h
  refine Nat.le_trans ?_ (Nat.le_max_left _ _)
  unfold RefDeref.aigKids
  split
  · simp
  · split <;> simp

/-! ### the table of the cone -/

/-- every entry holds the function of its node over the leaves -/
def TablesOk (N : Aig) (leaves : List Nat) (t : Tables) : Prop :=
  ∀ p ∈ t, p.2.WF ∧ p.2.n = leaves.length ∧
    ∀ v, ModelsAll N v → v p.1 = p.2.eval (Sop.leafAssign (leaves.map fun l => ⟨l, false⟩) v)

theorem Tables.get?_mem {t : Tables} {n : Nat} {x : TT} (h : t.get? n = some x) : (n, x) ∈ t := by
  unfold Tables.get? at h
  cases hf : t.find? (fun p => p.1 == n) with
  | none => rw [hf] at h; cases h
  | some p =>
    rw [hf] at h
    cases h
    have h1 := List.find?_some hf
    have h2 := List.mem_of_find?_eq_some hf
    simp only [beq_iff_eq] at h1
    obtain ⟨a, b⟩ := p
    subst h1
    exact h2

theorem leafTables_ok (N : Aig) (leaves : List Nat) : TablesOk N leaves (leafTables leaves) := by
  intro p hp
  obtain ⟨k, hk⟩ := List.getElem?_of_mem hp
  rw [leafTables, List.getElem?_mapIdx] at hk
  cases hl : leaves[k]? with
  | none => rw [hl] at hk; cases hk
  | some l =>
    rw [hl] at hk
    obtain rfl := Option.some.inj hk
    refine ⟨TT.wf_nthVar _ _, rfl, fun v _ => ?_⟩
    dsimp only
    rw [TT.eval_nthVar (Aig.lt_of_getElem? hl), Sop.leafAssign, List.getElem?_map, hl]
    simp [Sig.val]

theorem edge_spec (t : TT) (c : Bool) (x : Nat → Bool) : (edge t c).eval x = Bool.xor c (t.eval x) ∧ (edge t c).n = t.n := by
  cases c <;> simp [edge]

theorem coneTables_ok {N : Aig} (hp : PiOk N) {leaves : List Nat} : ∀ (l : List Nat) (t t' : Tables),
    TablesOk N leaves t → coneTables N l t = .ok t' → TablesOk N leaves t' := by
  intro l
  induction l with
  | nil => intro t t' h e; cases e; exact h
  | cons n l ih =>
    intro t t' h e
    rw [coneTables] at e
    split at e
    · exact ih t t' h e
    · rename_i hpi
      obtain ⟨nd, hnd, e⟩ := andThen_ok e
      obtain ⟨t0, h0, e⟩ := andThen_ok e
      obtain ⟨t1, h1, e⟩ := andThen_ok e
      have hnd := orUndefined_ok hnd
      obtain ⟨w0, n0, v0⟩ := h _ (Tables.get?_mem (orUndefined_ok h0))
      obtain ⟨w1, n1, v1⟩ := h _ (Tables.get?_mem (orUndefined_ok h1))
      refine ih _ _ ?_ e
      intro p hpm
      rw [List.mem_append] at hpm
      rcases hpm with hpm | hpm
      · exact h p hpm
      · simp only [List.mem_singleton] at hpm
        subst hpm
        refine ⟨TT.wf_and _ _, ?_, fun v m => ?_⟩
        · rw [TT.n_and, (edge_spec t0 _ (fun _ => false)).2]; exact n0
        · have hg := m.gate n nd (fun h0 => hpi (hp n (Or.inl h0))) (fun hi => hpi (hp n (Or.inr hi))) hnd
          dsimp only
          rw [TT.eval_and (by rw [(edge_spec t0 _ (fun _ => false)).2, (edge_spec t1 _ (fun _ => false)).2, n0, n1]),
            (edge_spec _ _ _).1, (edge_spec _ _ _).1, hg]
          rw [← v0 v m, ← v1 v m]
          rfl

theorem coneTT_spec {N : Aig} (hp : PiOk N) {leaves order : List Nat} {root : Nat} {t : TT}
    (e : coneTT N leaves order root = .ok t) : t.WF ∧ t.n = leaves.length ∧
      ∀ v, ModelsAll N v → v root = t.eval (Sop.leafAssign (leaves.map fun l => ⟨l, false⟩) v) := by
  obtain ⟨ts, h, e⟩ := andThen_ok e
  exact coneTables_ok hp _ _ _ (leafTables_ok N leaves) h _ (Tables.get?_mem (orUndefined_ok e))

/-! ### the loop -/

/-- `M` has the structure of `N` and every valuation of `N` has a counterpart in `M` with the same inputs and outputs -/
structure Rel (N M : Aig) : Prop where
  step : LStep N M
  follow : ∀ v, ModelsAll N v → ∃ v', ModelsAll M v' ∧ (∀ n ∈ N.inputs, v' n = v n) ∧
    M.outputs.map (·.val v') = N.outputs.map (·.val v)

theorem Rel.refl {N : Aig} (h : Loose N) : Rel N N := ⟨LStep.refl h, fun v m => ⟨v, m, fun _ _ => rfl, rfl⟩⟩

theorem Rel.trans {N M K : Aig} (h : Rel N M) (g : Rel M K) : Rel N K := by
  refine ⟨h.step.trans g.step, fun v m => ?_⟩
  obtain ⟨v1, m1, i1, o1⟩ := h.follow v m
  obtain ⟨v2, m2, i2, o2⟩ := g.follow v1 m1
  exact ⟨v2, m2, fun n hn => (i2 n (h.step.frame.inputs.symm ▸ hn)).trans (i1 n hn), o2.trans o1⟩

theorem rel_setMarks {N : Aig} (h : Loose N) (g : Nat → Nat) (hg : ∀ n, g n ≤ N.travId) : Rel N (setMarks N g) :=
  ⟨setMarks_loose h g (Nat.le_refl _) hg, fun v m =>
    ⟨v, (setMarks_models (t := N.travId)).2 m, fun _ _ => rfl, rfl⟩⟩

theorem rel_looseSpec {N : Aig} {f r} (w : Loose N) (h : LooseSpec N f r) : Rel N r.1 := by
  refine ⟨h.step, fun v m => ?_⟩
  obtain ⟨v', m', e⟩ := h.extend v m
  refine ⟨v', m', fun n hn => e n (Aig.isCi_lt (w.inputCi n hn)), ?_⟩
  rw [h.outs]
  apply List.map_congr_left
  intro o ho
  exact Aig.val_congr_valid (w.outs o ho) e

theorem rel_substitute {N M : Aig} (w : Loose N) {f root : Nat} {g : Sig} (hg : N.Valid g)
    (hv : ∀ v, ModelsAll N v → v root = g.val v) (e : N.substituteNode f root g = some M) : Rel N M := by
  refine ⟨Aig.substituteNode_lstep w hg e, fun v m => ?_⟩
  have k := Aig.substituteNode_keeps w.toSWF m (hv v m) e
  exact ⟨v, k.models, fun _ _ => rfl, k.outputs⟩

theorem onSignal_rel {P : RfParams} {f top : Nat} {rd : Depths} {root : Nat} {leaves order : List Nat} {s s' : State}
    {g : Sig} (w : Loose s.net) (hg : s.net.Valid g) (hv : ∀ v, ModelsAll s.net v → v root = g.val v)
    (e : onSignal P f top rd root leaves order s g = .ok s') : Rel s.net s'.net := by
  rw [onSignal] at e
  obtain ⟨q1, _, e⟩ := andThen_ok e
  obtain ⟨q2, _, e⟩ := andThen_ok e
  obtain ⟨rd, _, e⟩ := andThen_ok e
  obtain ⟨q3, _, e⟩ := andThen_ok e
  split at e
  · obtain ⟨M, hM, e⟩ := andThen_ok e
    dsimp only at e
    obtain ⟨d, _, e⟩ := andThen_ok e
    cases e
    exact rel_substitute w hg hv (orBound_ok hM)
  · obtain ⟨q4, _, e⟩ := andThen_ok e
    obtain ⟨q5, _, e⟩ := andThen_ok e
    cases e
    exact Rel.refl w

theorem gateStep_rel {P : RfParams} (hP : P.maxLeaves ≤ 31) {f top : Nat} {rd : Depths} {s s' : State} {n : Nat}
    (w : Loose s.net) (ht : 1 ≤ s.net.travId) (hp : PiOk s.net)
    (e : gateStep P f top rd s n = .ok s') : Rel s.net s'.net := by
  rw [gateStep] at e
  split at e
  · cases e; exact Rel.refl w
  · obtain ⟨q, hq, e⟩ := andThen_ok e
    obtain ⟨hl, hlv⟩ := reconvCut_spec w hq
    dsimp only at e
    have R1 : Rel s.net (setMarks s.net fun k => if k ∈ q.1 then 1 else 0) :=
      rel_setMarks w _ fun n => by split <;> omega
    generalize hN : (setMarks s.net fun k => if k ∈ q.1 then 1 else 0) = N at e R1
    have hp1 := hp.frame R1.step.frame
    obtain ⟨c, _, e⟩ := andThen_ok e
    split at e
    · obtain ⟨t, ht, e⟩ := andThen_ok e
      obtain ⟨wt, nt, vt⟩ := coneTT_spec hp1 ht
      rw [replaceSub] at e
      obtain ⟨r, hr, e⟩ := andThen_ok e
      obtain ⟨r', hr', sp⟩ := factor_spec (T := Aig.looseTheory) wt (by omega) (N := N) R1.step.loose
        (leaves := q.2.map fun l => ⟨l, false⟩) (by simp [nt]) (by
          intro x hx
          simp only [List.mem_map] at hx
          obtain ⟨l, hl, rfl⟩ := hx
          exact Aig.valid_len R1.step.frame.len (hlv l hl))
      rw [orBound_ok hr] at hr'
      obtain rfl := Option.some.inj hr'
      have sp : LooseSpec N _ r := sp
      have R2 := rel_looseSpec R1.step.loose sp
      have R3 := onSignal_rel R2.step.loose sp.valid (fun v m => by
        rw [sp.val v m]
        exact vt v (sp.models m)) e
      exact (R1.trans R2).trans R3
    · cases e
      exact R1

theorem gateLoop_rel {P : RfParams} (hP : P.maxLeaves ≤ 31) {f top : Nat} {rd : Depths} : ∀ (l : List Nat) (s s' : State),
    Loose s.net → 1 ≤ s.net.travId → PiOk s.net → gateLoop P f top rd l s = .ok s' → Rel s.net s'.net := by
  intro l
  induction l with
  | nil => intro s s' w _ _ e; cases e; exact Rel.refl w
  | cons n l ih =>
    intro s s' w ht hp e
    rw [gateLoop] at e
    obtain ⟨s1, h1, e⟩ := andThen_ok e
    have R := gateStep_rel hP w ht hp h1
    have := R.step.frame.travId
    exact R.trans (ih s1 s' R.step.loose (by omega) (hp.frame R.step.frame) e)

theorem rel_view {N : Aig} (h : Loose N) {f : Nat} {r : Aig × List Nat} (e : view N f = some r) : Rel N r.1 := by
  obtain ⟨st, _, _, ho, hm⟩ := view_loose h e
  exact ⟨st, fun v m => ⟨v, (hm v).2 m, fun _ _ => rfl, by rw [ho]⟩⟩

theorem refactorCore_rel {P : RfParams} (hP : P.maxLeaves ≤ 31) {f : Nat} {N M : Aig} (hN : Built N)
    (hpi : N.inputs.length = N.numPis) (e : refactorCore P f N = .ok M) : Rel N M := by
  have w := loose_of_built hN
  rw [refactorCore] at e
  obtain ⟨v1, h1, e⟩ := andThen_ok e
  obtain ⟨q, _, e⟩ := andThen_ok e
  obtain ⟨v2, h2, e⟩ := andThen_ok e
  obtain ⟨rd, _, e⟩ := andThen_ok e
  obtain ⟨s, hs, e⟩ := andThen_ok e
  cases e
  have h1 := orBound_ok h1
  have h2 := orBound_ok h2
  have R1 := rel_view w h1
  have R2 := rel_view R1.step.loose h2
  have R := R1.trans R2
  have t1 := (view_loose w h1).2.1
  have t2 := (view_loose R1.step.loose h2).2.1
  have l1 := (view_loose w h1).2.2.1
  have l2 := (view_loose R1.step.loose h2).2.2.1
  refine R.trans ?_
  by_cases hk : 0 < N.numPis
  · exact gateLoop_rel hP _ ⟨v2.1, initVals N, q.1, initFanouts v2.1⟩ s R2.step.loose
      (show 1 ≤ v2.1.travId by omega) ((piOk_of_built hN hpi hk).frame R.step.frame) hs
  · have : N.nodes.length = 1 := nodes_of_noInputs hN (List.eq_nil_of_length_eq_zero (by omega))
    rw [l2, l1, this] at hs
    cases hs
    exact Rel.refl R2.step.loose

theorem _root_.Verif.Aig.Loose.source {N : Aig} (w : Loose N) : Aig.Source N := by
  refine ⟨fun n hn => ⟨w.inputsPos n hn, w.inputCi n hn⟩, w.inputsNodup, ?_, ?_, ?_⟩
  · intro n
    unfold visOf
    split
    · rename_i nd hn; exact w.marks nd (List.mem_of_getElem? hn)
    · exact Nat.zero_le _
  · intro n h0 hc
    by_contra hi
    unfold Aig.isCi at hc
    cases hn : N.nodes[n]? with
    | none => rw [hn] at hc; cases hc
    | some nd =>
      rw [hn] at hc
      simp only [beq_iff_eq] at hc
      exact (w.fanins n nd h0 hi hn).2.2 (by rw [hc])
  · intro o ho n ht
    generalize hm : o.index = m at ht
    have hlt : m < N.nodes.length := hm ▸ w.outs o ho
    clear hm
    induction ht with
    | refl => exact hlt
    | step hk _ ih => exact ih (kids_valid w hk)

end Verif.Refactor
