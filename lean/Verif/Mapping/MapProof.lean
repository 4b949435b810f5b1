import Verif.Mapping.Map
import Verif.Choice.Spec
import Verif.Klut.Cover
import Verif.Props.C20
import Verif.Props.C21
import Verif.Props.C33
import Verif.Props.C14
import Verif.Props.C15

set_option autoImplicit false

/-!
# LUT mapping (helper lemmas)
-/

namespace Verif.Mapper
open Cuts
open RefDeref (aigKids)
open Topo (Tfi)

variable {β : Type}

/-! ### cut sets -/

/-- `insert` into a set with room, or where something is removed -/
theorem insert_keeps (lt : Cut (FData β) → Cut (FData β) → Bool) {s : CutSet (FData β)} {c : Cut (FData β)}
    (h : s.Inv maxCutNum) (hroom : s.view.length < maxCutNum ∨ ∃ x ∈ s.view, c.dominates x = true) :
    ∃ s', s.insert maxCutNum lt c = some s' ∧ s'.Inv maxCutNum ∧
      (∀ x, x ∈ s'.view ↔ x = stored c ∨ (x ∈ s.view ∧ c.dominates x = false)) := by
  obtain ⟨s', i, h1, h2, h3, h4, h5⟩ := insert_view maxCutNum lt s c h (by decide)
  have hlt : (s.view.filter fun o => !c.dominates o).length < maxCutNum := by
    have hle : s.view.length ≤ maxCutNum := by rw [CutSet.view_length h]; exact h.len
    rcases hroom with hr | ⟨x, hx, hd⟩
    · exact Nat.lt_of_le_of_lt (List.length_filter_le _ _) hr
    · refine Nat.lt_of_lt_of_le ?_ hle
      apply List.length_filter_lt_length_iff_exists.2
      exact ⟨x, hx, by simp [hd]⟩
  refine ⟨s', h1, h2, ?_⟩
  rcases h5 with ⟨hh, _, _⟩ | ⟨hh, _, _⟩ | ⟨_, hv⟩
  · omega
  · omega
  · intro x
    rw [hv, List.mem_insertIdx h4, List.mem_filter]
    simp

/-- a step of the merge loop without minimisation: new cuts have the union of the leaves, and a set that has a
cut does not get empty -/
theorem mergeStep_new {P : Params β} {N : Aig} (hmin : P.minimize = false) (hk : P.cutSize ≤ maxCutSize) {n : Nat}
    {st st' : TTCache × CutSet (FData β)} (hinv : st.2.Inv maxCutNum) {c1 c2 : Cut (FData β)} (h1 : c1.WF) (h2 : c2.WF)
    (e : mergeStep P N n st c1 c2 = some st') :
    (∀ c ∈ st'.2.view, c ∈ st.2.view ∨ ((∀ x, x ∈ c.leaves ↔ x ∈ c1.leaves ∨ x ∈ c2.leaves) ∧ c.leaves.length ≤ P.cutSize)) ∧
    (st.2.view ≠ [] → st'.2.view ≠ []) ∧ (unionCard c1.leaves c2.leaves ≤ P.cutSize → st'.2.view ≠ []) := by
  have hm := C19_merge_partial maxCutSize P.cutSize hk c1 c2 c1 h1 h2
  rw [mergeStep] at e
  cases hr : c1.merge maxCutSize c2 c1 P.cutSize with
  | overflow => rw [hr] at e; simp at e
  | tooLarge =>
    rw [hr] at e hm
    obtain rfl := Option.some.inj e
    exact ⟨fun c hc => Or.inl hc, fun h => h, fun h => by dsimp only at hm; omega⟩
  | ok r =>
    rw [hr] at e hm
    obtain ⟨m1, m2, m3, m4, m5⟩ := hm
    dsimp only at e
    by_cases hd : st.2.isDominated r = true
    · rw [if_pos hd] at e
      obtain rfl := Option.some.inj e
      refine ⟨fun c hc => Or.inl hc, fun h => h, fun _ he => ?_⟩
      rw [CutSet.isDominated, he] at hd
      simp at hd
    · rw [if_neg hd] at e
      cases ht : computeTruth N P.minimize st.1 n c1 c2 r with
      | none => rw [ht] at e; simp at e
      | some q =>
        obtain ⟨cache', r'⟩ := q
        rw [ht] at e
        dsimp only at e
        have hl : r'.leaves = r.leaves := by
          rw [computeTruth] at ht
          split at ht
          · rw [hmin] at ht
            simp only [Bool.false_eq_true, false_and, if_false, Option.some.injEq, Prod.mk.injEq] at ht
            rw [← ht.2]
          · simp at ht
        obtain ⟨s', i, g1, g2, g3, g4, g5⟩ := insert_view maxCutNum P.lt st.2
          { r' with data := { r'.data with cost := P.cost n r' } } hinv (by decide)
        rw [g1] at e
        obtain rfl := Option.some.inj e
        dsimp only
        have hne : s'.view ≠ [] := by
          rcases g5 with ⟨ha, _, hv⟩ | ⟨ha, hb, hv⟩ | ⟨ha, hv⟩
          · intro e; rw [hv] at e; rw [e] at ha; simp [maxCutNum] at ha
          · intro e
            have : i ≤ (List.filter (fun o => !Cut.dominates { r' with data := { r'.data with cost := P.cost n r' } } o) st.2.view).dropLast.length := by
              rw [List.length_dropLast]; omega
            have hmem := (List.mem_insertIdx (a := stored { r' with data := { r'.data with cost := P.cost n r' } })
              (b := stored { r' with data := { r'.data with cost := P.cost n r' } }) this).2 (Or.inl rfl)
            rw [← hv, e] at hmem; simp at hmem
          · intro e
            have hmem := (List.mem_insertIdx (a := stored { r' with data := { r'.data with cost := P.cost n r' } })
              (b := stored { r' with data := { r'.data with cost := P.cost n r' } }) g4).2 (Or.inl rfl)
            rw [← hv, e] at hmem; simp at hmem
        refine ⟨?_, fun _ => hne, fun _ => hne⟩
        obtain ⟨s'', e'', _, s2⟩ := insert_mem (maxCuts := maxCutNum) (by decide) P.lt
          (c := { r' with data := { r'.data with cost := P.cost n r' } }) hinv
        rw [g1] at e''
        obtain rfl := Option.some.inj e''
        intro c hc
        rcases s2 c hc with rfl | hc
        · right
          refine ⟨fun x => ?_, ?_⟩
          · show x ∈ r'.leaves ↔ _
            rw [hl]; exact m3 x
          · show r'.leaves.length ≤ _
            rw [hl]; omega
        · exact Or.inl hc

theorem mergeStep_inv {P : Params β} {N : Aig} {n : Nat}
    {st st' : TTCache × CutSet (FData β)} (hinv : st.2.Inv maxCutNum) {c1 c2 : Cut (FData β)}
    (e : mergeStep P N n st c1 c2 = some st') : st'.2.Inv maxCutNum := by
  rw [mergeStep] at e
  split at e
  · simp at e
  · obtain rfl := Option.some.inj e; exact hinv
  · split at e
    · obtain rfl := Option.some.inj e; exact hinv
    · split at e
      · simp at e
      · rename_i cache r' _
        obtain ⟨s', h1, h2, _⟩ := insert_mem (maxCuts := maxCutNum) (by decide) P.lt
          (c := { r' with data := { r'.data with cost := P.cost n r' } }) hinv
        rw [h1] at e
        obtain rfl := Option.some.inj e
        exact h2

/-- the whole merge loop -/
theorem mergeLoop_new {P : Params β} {N : Aig} (hmin : P.minimize = false) (hk : P.cutSize ≤ maxCutSize) {n : Nat} :
    ∀ (ps : List (Cut (FData β) × Cut (FData β))) (st st' : TTCache × CutSet (FData β)), st.2.Inv maxCutNum →
    (∀ p ∈ ps, p.1.WF ∧ p.2.WF) → mergeLoop P N n st ps = some st' →
    (∀ c ∈ st'.2.view, c ∈ st.2.view ∨ ∃ p ∈ ps, (∀ x, x ∈ c.leaves ↔ x ∈ p.1.leaves ∨ x ∈ p.2.leaves) ∧ c.leaves.length ≤ P.cutSize) ∧
    (st.2.view ≠ [] → st'.2.view ≠ []) ∧ ((∃ p ∈ ps, unionCard p.1.leaves p.2.leaves ≤ P.cutSize) → st'.2.view ≠ []) := by
  intro ps
  induction ps with
  | nil =>
    intro st st' _ _ e
    obtain rfl := Option.some.inj e
    exact ⟨fun c hc => Or.inl hc, fun h => h, fun ⟨p, hp, _⟩ => by simp at hp⟩
  | cons p ps ih =>
    intro st st' hinv hp e
    obtain ⟨c1, c2⟩ := p
    rw [mergeLoop] at e
    cases hs : mergeStep P N n st c1 c2 with
    | none => rw [hs] at e; simp at e
    | some s1 =>
      rw [hs] at e
      dsimp only at e
      obtain ⟨a1, a2, a3⟩ := mergeStep_new hmin hk hinv (hp (c1, c2) (by simp)).1 (hp (c1, c2) (by simp)).2 hs
      obtain ⟨b1, b2, b3⟩ := ih s1 st' (mergeStep_inv hinv hs) (fun q hq => hp q (by simp [hq])) e
      refine ⟨?_, fun h => b2 (a2 h), ?_⟩
      · intro c hc
        rcases b1 c hc with h | ⟨q, hq, h⟩
        · rcases a1 c h with h | h
          · exact Or.inl h
          · exact Or.inr ⟨(c1, c2), by simp, h⟩
        · exact Or.inr ⟨q, by simp [hq], h⟩
      · rintro ⟨q, hq, hu⟩
        rcases List.mem_cons.1 hq with rfl | hq
        · exact b2 (a3 hu)
        · exact b3 ⟨q, hq, hu⟩

/-- `finish` with a limit between 3 and 11: first a cut that was there before, the unit cut is last, and there
is room for one more cut. -/
theorem finish_new {P : Params β} {n : Nat} {s s' : CutSet (FData β)} (h : s.Inv maxCutNum) (hne : s.view ≠ [])
    (hl3 : 3 ≤ P.cutLimit) (hl11 : P.cutLimit < maxCutNum) (h2 : ∀ c ∈ s.view, 2 ≤ c.leaves.length)
    (e : finish P n s = some s') :
    s'.Inv maxCutNum ∧ (∃ l d, s'.view = l ++ [⟨[n], signature [n], d⟩] ∧ d.func = 2 ∧ l ≠ [] ∧ ∀ c ∈ l, c ∈ s.view) ∧
    s'.view.length < maxCutNum := by
  rw [finish] at e
  cases hl : s.limit (limitArg P.cutLimit) with
  | none => rw [hl] at e; simp at e
  | some s1 =>
    obtain ⟨l1, l2, l3, l4, l5, l6⟩ := limit_spec h hl
    rw [hl] at e
    dsimp only at e
    rw [limitArg_eq (by omega)] at l5 l4 hl
    have hlen0 : s.len ≠ 0 := by
      intro h0; apply hne; rw [CutSet.view, h0]; simp
    have hs1 : s1.len ≠ 0 ∧ s1.len ≤ P.cutLimit - 1 := by
      rcases Nat.lt_or_ge (P.cutLimit - 1) s.len with hx | hx
      · have := l5 hx; omega
      · rw [CutSet.limit, if_neg (by omega)] at hl
        obtain rfl := Option.some.inj hl
        exact ⟨hlen0, hx⟩
    have hlen : s1.ptrs.length = maxCutNum := l1.length
    have h0 : 0 < s1.ptrs.length := by rw [hlen]; decide
    rw [List.getElem?_eq_getElem h0] at e
    dsimp only at e
    have hfirst : s1.store s1.ptrs[0] ∈ s1.view := by
      rw [CutSet.view]
      apply List.mem_map_of_mem
      rw [List.mem_take_iff_getElem]
      exact ⟨0, by omega, rfl⟩
    have h2' := h2 _ (l2 _ hfirst)
    rw [if_pos (Or.inr (by omega))] at e
    obtain ⟨s2, d, ea, a1, a2, a3⟩ := addCut_spec [n] (fun d : FData β => { d with func := 2 }) l1 (by omega)
    rw [CutSet.addFixed, ea] at e
    obtain rfl := Option.some.inj e
    refine ⟨a1, ⟨s1.view, _, a2, rfl, fun he => ?_, l2⟩, ?_⟩
    · rw [he] at hfirst; simp at hfirst
    · rw [CutSet.view_length a1, a3]; omega

/-! ### the cuts of one node -/

/-- the parameters with minimisation; `CutOk` for them says nothing about separation -/
def loose (p : CutPs) : CutPs := { p with minimize := true }

/-- what holds for every stored cut of node `n`: correct, and either the unit cut or a cut strictly below. `CutOk` is
used without the separation of `n` from the inputs, which does not hold for the cuts of choice nodes. -/
structure MapOk (p : CutPs) (C : Choice) (cache : TTCache) (n : Nat) (c : Cut (FData β)) : Prop where
  ok : ∀ h : Heur β, CutOk (cutParams (loose p) h) C.net cache n c
  tfi : ∀ x ∈ c.leaves, Tfi (C.deps) n x
  kind : c.leaves = [n] ∨ (2 ≤ c.leaves.length ∧ c.leaves.length ≤ p.cutSize ∧ ∀ x ∈ c.leaves, x < n)

theorem MapOk.mono {p : CutPs} {C : Choice} {cache cache' : TTCache} {n : Nat} {c : Cut (FData β)} (h : MapOk p C cache n c)
    (hc : ∀ l u, cache.lookup l = some u → cache'.lookup l = some u) : MapOk p C cache' n c :=
  ⟨fun k => (h.ok k).mono hc, h.tfi, h.kind⟩

theorem MapOk.wf {p : CutPs} {C : Choice} {cache : TTCache} {n : Nat} {c : Cut (FData β)} (h : MapOk p C cache n c) : c.WF :=
  (h.ok ⟨fun _ _ => false, fun c => c.data.cost, fun _ => false, fun _ => false, fun _ _ => false⟩).wf

theorem MapOk.table {p : CutPs} {C : Choice} {cache : TTCache} {n : Nat} {c : Cut (FData β)} (h : MapOk p C cache n c) :
    RightTable C.net cache n c :=
  (h.ok ⟨fun _ _ => false, fun c => c.data.cost, fun _ => false, fun _ => false, fun _ _ => false⟩).table

theorem MapOk.stored {p : CutPs} {C : Choice} {cache : TTCache} {n : Nat} {c : Cut (FData β)} (h : MapOk p C cache n c) :
    MapOk p C cache n (stored c) := by
  refine ⟨fun k => ?_, h.tfi, h.kind⟩
  have := h.ok k
  exact ⟨⟨this.wf.sorted, rfl⟩, this.leaf, this.size, this.table, this.sep⟩

/-- the set and the best cut of a node that has been processed -/
structure NodeOk (p : CutPs) (C : Choice) (st : MapSt β) (n : Nat) (s : CutSet (FData β)) (b : Cut (FData β)) : Prop where
  set : st.sets[n]? = some s
  best : st.best[n]? = some b
  inv : s.Inv maxCutNum
  cuts : ∀ c ∈ s.view, MapOk p C st.cache n c
  unit : ∃ c ∈ s.view, c.leaves = [n]
  room : s.view.length < maxCutNum ∨ ∃ x ∈ s.view, b.dominates x = true
  bok : MapOk p C st.cache n b
  gate : C.equivs[n]? = some none → ∀ a c, C.net.IsGate n a c → b.leaves ≠ [n]

/-- processed -/
def Done (p : CutPs) (C : Choice) (st : MapSt β) (n : Nat) : Prop := ∃ s b, NodeOk p C st n s b

theorem Done.of_eq {p : CutPs} {C : Choice} {st st' : MapSt β} {n : Nat} (h : Done p C st n)
    (hs : st'.sets[n]? = st.sets[n]?) (hb : st'.best[n]? = st.best[n]?)
    (hc : ∀ l u, st.cache.lookup l = some u → st'.cache.lookup l = some u) : Done p C st' n := by
  obtain ⟨s, b, h⟩ := h
  exact ⟨s, b, by rw [hs]; exact h.set, by rw [hb]; exact h.best, h.inv, fun c hx => (h.cuts c hx).mono hc, h.unit, h.room,
    h.bok.mono hc, h.gate⟩

theorem getElem?_set_other {α : Type} {l : List α} {n m : Nat} {a : α} (h : m ≠ n) : (l.set n a)[m]? = l[m]? :=
  List.getElem?_set_ne (fun e => h e.symm)

theorem insertBest_spec {p : CutPs} {C : Choice} {st : MapSt β} {m : Nat} (lt : Cut (FData β) → Cut (FData β) → Bool)
    (h : Done p C st m) : ∃ st', st.insertBest lt m = some st' ∧ Done p C st' m ∧ st'.cache = st.cache ∧ st'.best = st.best ∧
      (∀ k, k ≠ m → st'.sets[k]? = st.sets[k]?) ∧ st'.sets.length = st.sets.length := by
  obtain ⟨s, b, h⟩ := h
  obtain ⟨s', e, i1, i2⟩ := insert_keeps lt h.inv h.room
  have hml : m < st.sets.length := (List.getElem?_eq_some_iff.1 h.set).1
  rw [MapSt.insertBest, h.set, h.best]
  dsimp only
  rw [e]
  have hmem : stored b ∈ s'.view := (i2 _).2 (Or.inl rfl)
  refine ⟨_, rfl, ⟨s', b, by simp [hml], h.best, i1, ?_, ?_, Or.inr ⟨_, hmem, ?_⟩, h.bok, h.gate⟩, rfl, rfl,
    fun k hk => getElem?_set_other hk, by simp⟩
  · intro c hc
    rcases (i2 c).1 hc with rfl | ⟨hc, _⟩
    · exact h.bok.stored
    · exact h.cuts c hc
  · obtain ⟨u, hu, hul⟩ := h.unit
    by_cases hd : b.dominates u = true
    · refine ⟨_, hmem, ?_⟩
      have hsub := (C18_dominates b u h.bok.wf (h.cuts u hu).wf).1 hd
      rw [hul] at hsub
      rcases h.bok.kind with hk | ⟨h2, _, hlt⟩
      · exact hk
      · exfalso
        obtain ⟨x, hx⟩ := List.exists_mem_of_length_pos (by omega : 0 < b.leaves.length)
        have e1 := hlt x hx
        have e2 := hsub x hx
        simp only [List.mem_singleton] at e2
        omega
    · exact ⟨u, (i2 u).2 (Or.inr ⟨hu, by simpa using hd⟩), hul⟩
  · exact (C18_dominates b (stored b) h.bok.wf h.bok.stored.wf).2 fun x hx => hx

/-- facts about the state that hold all the time -/
structure StInv (p : CutPs) (C : Choice) (st : MapSt β) : Prop where
  len : st.sets.length = C.net.nodes.length
  blen : st.best.length = C.net.nodes.length
  cache : st.cache.Inv
  unit : st.cache.lookup 2 = some (TT.nthVar 1 0)
  sets : ∀ (n : Nat) s, st.sets[n]? = some s → s.Inv maxCutNum

/-- parameters the mapper works with -/
structure PsOk (p : CutPs) : Prop where
  size2 : 2 ≤ p.cutSize
  size7 : p.cutSize ≤ maxCutSize
  limit3 : 3 ≤ p.cutLimit
  limit11 : p.cutLimit < maxCutNum
  min : p.minimize = false

theorem unionCard_pair {a b : Nat} : unionCard [a] [b] ≤ 2 := by
  unfold unionCard
  have := Finset.card_union_le [a].toFinset [b].toFinset
  simp at this ⊢
  omega

theorem aigKids_of_gate {N : Aig} (hN : N.Built) {n : Nat} {a b : Sig} (h : N.IsGate n a b) :
    a.index ∈ aigKids N n ∧ b.index ∈ aigKids N n := by
  have hci := h.not_ci hN.wf
  obtain ⟨h0, _, nd, hnd, _, rfl, rfl⟩ := h
  rw [Aig.aigKids_gate h0 hci hnd]; simp

theorem deps_of_gate {C : Choice} (hN : C.net.Built) {n : Nat} {a b : Sig} (h : C.net.IsGate n a b) :
    a.index ∈ C.deps n ∧ b.index ∈ C.deps n :=
  ⟨List.mem_append_left _ (aigKids_of_gate hN h).1, List.mem_append_left _ (aigKids_of_gate hN h).2⟩

theorem mergeCuts_spec {p : CutPs} (hp : PsOk p) {C : Choice} (hN : C.net.Built) {n : Nat} {a b : Sig} (hg : C.net.IsGate n a b)
    (h : Heur β) {st : MapSt β} (hi : StInv p C st) (ha : Done p C st a.index) (hb : Done p C st b.index) {st' : MapSt β}
    (e : mergeCuts p C.net h st n = some st') :
    StInv p C st' ∧ (∀ m, m ≠ n → Done p C st m → Done p C st' m) ∧ st'.best = st.best ∧
    (∀ l u, st.cache.lookup l = some u → st'.cache.lookup l = some u) ∧
    ∃ s c0 rest, st'.sets[n]? = some s ∧ s.view = c0 :: rest ∧ c0.leaves ≠ [n] ∧ (∀ c ∈ s.view, MapOk p C st'.cache n c) ∧
      (∃ c ∈ s.view, c.leaves = [n]) ∧ s.view.length < maxCutNum := by
  have hlt := hN.wf.isGate_lt hg
  obtain ⟨hn0, hnin, nd, hnd, hdead, rfl, rfl⟩ := id hg
  have hnl : n < st.sets.length := by rw [hi.len]; exact Aig.lt_of_getElem? hnd
  rw [mergeCuts, hnd, List.getElem?_eq_getElem hnl] at e
  dsimp only at e
  obtain ⟨ci, cv⟩ := clear_inv maxCutNum (st.sets[n])
  have ha0 : Done p C { st with sets := st.sets.set n (st.sets[n].clear maxCutNum) } nd.c0.index :=
    ha.of_eq (getElem?_set_other (by omega)) rfl fun _ _ h => h
  obtain ⟨st1, e1, d1, k1, b1, o1, l1⟩ := insertBest_spec h.lt ha0
  rw [e1] at e
  dsimp only at e
  have hb1 : Done p C st1 nd.c1.index := hb.of_eq
    (by rw [o1 _ (by omega)]; exact getElem?_set_other (by omega)) (by rw [b1]) (by rw [k1]; exact fun _ _ h => h)
  obtain ⟨st2, e2, d2, k2, b2, o2, l2⟩ := insertBest_spec h.lt hb1
  rw [e2] at e
  dsimp only at e
  have ha2 : Done p C st2 nd.c0.index := d1.of_eq (o2 _ (by omega)) (by rw [b2]) (by rw [k2]; exact fun _ _ h => h)
  obtain ⟨s0, q0, h0⟩ := ha2
  obtain ⟨s1, q1, h1⟩ := d2
  have hsn : st2.sets[n]? = some (st.sets[n].clear maxCutNum) := by
    rw [o2 _ (by omega), o1 _ (by omega)]
    simp [hnl]
  have hcache : st2.cache = st.cache := by rw [k2, k1]
  rw [h0.set, h1.set, hsn] at e
  dsimp only at e
  cases hml : mergeLoop (cutParams p h) C.net n (st2.cache, st.sets[n].clear maxCutNum) (pairs s0.view s1.view) with
  | none => rw [hml] at e; simp at e
  | some q =>
    obtain ⟨cache, r⟩ := q
    rw [hml] at e
    dsimp only at e
    have hpairs : ∀ q ∈ pairs s0.view s1.view, q.1 ∈ s0.view ∧ q.2 ∈ s1.view := by
      intro q hq
      obtain ⟨c1, hc1, hq⟩ := List.mem_flatMap.1 hq
      obtain ⟨c2, hc2, rfl⟩ := List.mem_map.1 hq
      exact ⟨hc1, hc2⟩
    have hloop := mergeLoop_spec_of (P := cutParams p h) (Q := cutParams (loose p) h) rfl (fun e => by simp [cutParams, loose] at e) hN hg hp.size7 (cache0 := st2.cache) (pairs s0.view s1.view)
      (st2.cache, st.sets[n].clear maxCutNum) ⟨by rw [hcache]; exact hi.cache, fun _ _ h => h, ci, by intro c hc; rw [cv] at hc; simp at hc⟩
      (fun q hq => ⟨(h0.cuts _ (hpairs q hq).1).ok h, (h1.cuts _ (hpairs q hq).2).ok h⟩)
    rw [hml] at hloop
    obtain ⟨st3, e3, hli⟩ : ∃ st', some (cache, r) = some st' ∧ LoopInv (cutParams (loose p) h) C.net n st2.cache st' := by
      rcases hloop with ⟨e, _⟩ | h
      · simp at e
      · exact h
    obtain rfl := Option.some.inj e3
    obtain ⟨n1, n2, n3⟩ := mergeLoop_new (P := cutParams p h) (N := C.net) (n := n) hp.min hp.size7 (pairs s0.view s1.view) _ _ ci
      (fun q hq => ⟨(h0.cuts _ (hpairs q hq).1).wf, (h1.cuts _ (hpairs q hq).2).wf⟩) hml
    have hne : r.view ≠ [] := by
      obtain ⟨u0, hu0, e0⟩ := h0.unit
      obtain ⟨u1, hu1, e1⟩ := h1.unit
      apply n3
      refine ⟨(u0, u1), List.mem_flatMap.2 ⟨u0, hu0, List.mem_map.2 ⟨u1, hu1, rfl⟩⟩, ?_⟩
      show unionCard u0.leaves u1.leaves ≤ p.cutSize
      rw [e0, e1]
      exact Nat.le_trans unionCard_pair hp.size2
    have hview : ∀ c ∈ r.view, (∀ x ∈ c.leaves, Tfi (C.deps) n x) ∧ 2 ≤ c.leaves.length ∧ c.leaves.length ≤ p.cutSize ∧
        ∀ x ∈ c.leaves, x < n := by
      intro c hc
      rcases n1 c hc with hc' | ⟨q, hq, hx, hlen⟩
      · rw [cv] at hc'; simp at hc'
      · obtain ⟨q1, q2⟩ := hpairs q hq
        have m0 := h0.cuts _ q1
        have m1 := h1.cuts _ q2
        have k0 := deps_of_gate hN hg
        have hcwf := (hli.ok c hc).wf
        refine ⟨?_, ?_, hlen, ?_⟩
        · intro x hxx
          rcases (hx x).1 hxx with hxx | hxx
          · exact .step k0.1 (m0.tfi x hxx)
          · exact .step k0.2 (m1.tfi x hxx)
        · have hnd : c.leaves.Nodup := hcwf.sorted.imp (fun h => Nat.ne_of_lt h)
          have hge : ∀ l : List Nat, l.Nodup → (∀ x ∈ l, x ∈ c.leaves) → l.length ≤ c.leaves.length :=
            fun l hl hs => (hl.subperm hs).length_le
          rcases m0.kind with e0 | ⟨g0, _⟩
          · rcases m1.kind with e1 | ⟨g1, _⟩
            · refine hge [nd.c0.index, nd.c1.index] ?_ ?_
              · simp only [List.nodup_cons, List.mem_singleton, List.not_mem_nil, not_false_eq_true, List.nodup_nil, and_true]
                omega
              · intro x hxx
                rw [hx, e0, e1]
                simp only [List.mem_cons, List.not_mem_nil, or_false] at hxx ⊢
                exact hxx
            · exact Nat.le_trans g1 (hge _ (m1.wf.sorted.imp (fun h => Nat.ne_of_lt h)) fun x hxx => (hx x).2 (Or.inr hxx))
          · exact Nat.le_trans g0 (hge _ (m0.wf.sorted.imp (fun h => Nat.ne_of_lt h)) fun x hxx => (hx x).2 (Or.inl hxx))
        · intro x hxx
          rcases (hx x).1 hxx with hxx | hxx
          · rcases m0.kind with e0 | ⟨_, _, g0⟩
            · rw [e0, List.mem_singleton] at hxx; omega
            · have := g0 x hxx; omega
          · rcases m1.kind with e0 | ⟨_, _, g0⟩
            · rw [e0, List.mem_singleton] at hxx; omega
            · have := g0 x hxx; omega
    cases hf : finish (cutParams p h) n r with
    | none => rw [hf] at e; simp at e
    | some r' =>
      rw [hf] at e
      obtain rfl := Option.some.inj e
      obtain ⟨f1, ⟨l, d, f2, f3, f4, f5⟩, f6⟩ := finish_new hli.set hne hp.limit3 hp.limit11 (fun c hc => (hview c hc).2.1) hf
      have hmono : ∀ l u, st.cache.lookup l = some u → cache.lookup l = some u := by
        intro l u hl
        exact hli.mono l u (by rw [hcache]; exact hl)
      have hset2 : ∀ (k : Nat) s, st2.sets[k]? = some s → s.Inv maxCutNum := by
        intro k s hs
        by_cases hk1 : k = nd.c1.index
        · subst hk1; rw [h1.set] at hs; obtain rfl := Option.some.inj hs; exact h1.inv
        · by_cases hk0 : k = nd.c0.index
          · subst hk0; rw [h0.set] at hs; obtain rfl := Option.some.inj hs; exact h0.inv
          · rw [o2 k hk1, o1 k hk0] at hs
            by_cases hkn : k = n
            · subst hkn
              simp only [List.getElem?_set_self hnl, Option.some.injEq] at hs
              subst hs; exact ci
            · rw [getElem?_set_other hkn] at hs; exact hi.sets k s hs
      have hnl2 : n < st2.sets.length := by rw [l2, l1]; simpa using hnl
      have hcut : ∀ c ∈ r'.view, MapOk p C cache n c := by
        intro c hc
        rw [f2, List.mem_append, List.mem_singleton] at hc
        rcases hc with hc | rfl
        · have hv := hview c (f5 c hc)
          refine ⟨fun k => ?_, hv.1, Or.inr hv.2⟩
          have := hli.ok c (f5 c hc)
          exact ⟨this.wf, this.leaf, this.size, this.table, this.sep⟩
        · exact ⟨fun k => unit_ok (hmono _ _ hi.unit) n d f3, by simp [Tfi.refl], Or.inl rfl⟩
      refine ⟨⟨?_, ?_, hli.cache, hmono _ _ hi.unit, ?_⟩, ?_, by rw [b2, b1], hmono, ?_⟩
      · simp only [List.length_set]; rw [l2, l1]; simpa using hi.len
      · show st2.best.length = _; rw [b2, b1]; exact hi.blen
      · intro k s hs
        by_cases hkn : k = n
        · subst hkn
          simp only [List.getElem?_set_self hnl2, Option.some.injEq] at hs
          subst hs; exact f1
        · rw [getElem?_set_other hkn] at hs; exact hset2 k s hs
      · intro m hm hd
        by_cases hk1 : m = nd.c1.index
        · subst hk1
          exact Done.of_eq (st := st2) ⟨s1, q1, h1⟩ (getElem?_set_other hm) rfl hli.mono
        · by_cases hk0 : m = nd.c0.index
          · subst hk0
            exact Done.of_eq (st := st2) ⟨s0, q0, h0⟩ (getElem?_set_other hm) rfl hli.mono
          · refine hd.of_eq ?_ ?_ hmono
            · simp only
              rw [getElem?_set_other hm, o2 m hk1, o1 m hk0, getElem?_set_other hm]
            · simp only; rw [b2, b1]
      · obtain ⟨c0, l', rfl⟩ : ∃ c0 l', l = c0 :: l' := List.exists_cons_of_ne_nil f4
        refine ⟨r', c0, _, by simp [hnl2], by rw [f2, List.cons_append], ?_, hcut, ?_, f6⟩
        · have := (hview c0 (f5 c0 (by simp))).2.1
          intro e
          rw [e] at this; simp at this
        · exact ⟨_, by rw [f2]; exact List.mem_append_right _ (List.mem_singleton.2 rfl), rfl⟩

theorem first_eq {st : MapSt β} {n : Nat} {s : CutSet (FData β)} {c0 : Cut (FData β)} {rest : List (Cut (FData β))}
    (hs : st.sets[n]? = some s) (hi : s.Inv maxCutNum) (hv : s.view = c0 :: rest) : st.first n = some c0 := by
  rw [MapSt.first, hs]
  dsimp only
  have hlen : 0 < s.len := by
    have := CutSet.view_length hi
    rw [hv] at this; simp at this; omega
  have h0 : s.view[0]? = some c0 := by rw [hv]; rfl
  rw [CutSet.view, List.getElem?_map, List.getElem?_take, if_pos hlen] at h0
  exact h0

theorem mapAnd_spec {p : CutPs} (hp : PsOk p) {C : Choice} (hN : C.net.Built) {n : Nat} {a b : Sig} (hg : C.net.IsGate n a b)
    (h : Heur β) (first : Bool) {st : MapSt β} (hi : StInv p C st) (ha : Done p C st a.index) (hb : Done p C st b.index)
    (hfirst : first = true ∨ Done p C st n) {st' : MapSt β} (e : mapAnd p C.net h first st n = some st') :
    StInv p C st' ∧ Done p C st' n ∧ ∀ m, Done p C st m → Done p C st' m := by
  rw [mapAnd] at e
  cases hm : mergeCuts p C.net h st n with
  | none => rw [hm] at e; simp at e
  | some st1 =>
    rw [hm] at e
    dsimp only at e
    obtain ⟨g1, g2, g3, g4, s, c0, rest, g5, g6, g7, g8, g9, g10⟩ := mergeCuts_spec hp hN hg h hi ha hb hm
    have hinv := g1.sets n s g5
    have hf := first_eq g5 hinv g6
    rw [hf] at e
    dsimp only at e
    have hnl : n < st1.best.length := by
      rw [g1.blen, ← g1.len]; exact (List.getElem?_eq_some_iff.1 g5).1
    have hall : ∀ (st' : MapSt β), StInv p C st' → Done p C st' n → (∀ m, m ≠ n → Done p C st1 m → Done p C st' m) →
        StInv p C st' ∧ Done p C st' n ∧ ∀ m, Done p C st m → Done p C st' m := by
      intro st' i1 i2 i3
      refine ⟨i1, i2, fun m hm => ?_⟩
      by_cases hmn : m = n
      · subst hmn; exact i2
      · exact i3 m hmn (g2 m hmn hm)
    by_cases hc : c0.leaves.length < 1 ∨ (first || h.accept c0) = true
    · rw [if_pos hc, MapSt.setBest, hf] at e
      dsimp only at e
      rw [if_pos hnl] at e
      obtain rfl := Option.some.inj e
      refine hall _ ⟨g1.len, by simpa using g1.blen, g1.cache, g1.unit, g1.sets⟩ ?_ ?_
      · exact ⟨s, c0, g5, by simp [hnl], hinv, g8, g9, Or.inl g10, g8 c0 (by rw [g6]; simp), fun _ _ _ _ => g7⟩
      · intro m hmn hd
        exact hd.of_eq rfl (getElem?_set_other hmn) fun _ _ h => h
    · rw [if_neg hc] at e
      obtain rfl := Option.some.inj e
      refine hall _ g1 ?_ (fun _ _ h => h)
      rcases hfirst with rfl | ⟨s', b', hd⟩
      · exact absurd (Or.inr (by simp)) hc
      · exact ⟨s, b', g5, by rw [g3]; exact hd.best, hinv, g8, g9, Or.inl g10, hd.bok.mono g4, hd.gate⟩

end Verif.Mapper
