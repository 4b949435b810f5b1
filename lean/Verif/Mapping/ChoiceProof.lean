import Verif.Mapping.MapProof
import Verif.Props.C39

set_option autoImplicit false

/-!
# LUT mapping with choices (helper lemmas)
-/

namespace Verif.Mapper
open Cuts
open Topo (Tfi)

variable {β : Type}

/-- flipping the lowest bit of a literal complements the table -/
theorem lookup_flip {c : TTCache} {l : Nat} {t : TT} (e : c.lookup l = some t) :
    ∃ u, c.lookup (l ^^^ 1) = some u ∧ u.n = t.n ∧ ∀ x, u.eval x = !t.eval x := by
  have h2 : (l ^^^ 1) / 2 = l / 2 := by
    rw [← Nat.shiftRight_one, ← Nat.shiftRight_one, Nat.shiftRight_xor_distrib]; simp
  have h1 : (l ^^^ 1) % 2 = 1 - l % 2 := by
    rw [Nat.xor_mod_two_eq]; omega
  rw [TTCache.lookup] at e ⊢
  rw [h2, h1]
  split at e
  · simp at e
  · rename_i u _
    obtain rfl := Option.some.inj e
    rcases Nat.mod_two_eq_zero_or_one l with h | h
    · rw [h]; exact ⟨u.not, rfl, rfl, fun x => by simp⟩
    · rw [h]; exact ⟨u, rfl, rfl, fun x => by simp⟩

/-- the nodes of the class behind `n` -/
theorem chain_spec {C : Choice} (hO : C.Ordered) (hS : C.Sound) : ∀ (f : Nat) (e : Option Nat) (n : Nat) (l : List Nat),
    C.equivs[n]? = some e → C.chain f e = some l →
    ∀ m ∈ l, m < n ∧ Tfi C.deps n m ∧ ∀ v, C.net.Models v →
      Bool.xor (v n) (C.net.phaseOf n) = Bool.xor (v m) (C.net.phaseOf m) := by
  intro f
  induction f with
  | zero =>
    intro e n l _ hl m hm
    cases e with
    | none => rw [Choice.chain] at hl; obtain rfl := Option.some.inj hl; simp at hm
    | some k => rw [Choice.chain] at hl; simp at hl
  | succ f ih =>
    intro e n l he hl m hm
    cases e with
    | none => rw [Choice.chain] at hl; obtain rfl := Option.some.inj hl; simp at hm
    | some k =>
      rw [Choice.chain] at hl
      have hk : k < n ∧ Tfi C.deps n k := ⟨(hO.lt n k he).2, .step (List.mem_append_right _ (by rw [he]; simp)) (.refl _)⟩
      split at hl
      · simp at hl
      · rename_i e' he'
        obtain ⟨l', hl', rfl⟩ := Option.map_eq_some_iff.1 hl
        rcases List.mem_cons.1 hm with rfl | hm
        · exact ⟨hk.1, hk.2, hS n m he⟩
        · obtain ⟨a, b, c⟩ := ih e' k l' he' hl' m hm
          exact ⟨by omega, hk.2.trans b, fun v hv => (hS n k he v hv).trans (c v hv)⟩

/-- a cut of a class member with at least two leaves, with its function flipped according to the phases, is a cut of `n` -/
theorem MapOk.choice {p : CutPs} {C : Choice} {cache : TTCache} {n m : Nat} {c : Cut (FData β)} (h : MapOk p C cache m c)
    (h2 : ¬ c.leaves.length < 2) (hm : m < n) (ht : Tfi C.deps n m)
    (hs : ∀ v, C.net.Models v → Bool.xor (v n) (C.net.phaseOf n) = Bool.xor (v m) (C.net.phaseOf m)) :
    MapOk p C cache n (flipFunc (Bool.xor (C.net.phaseOf n) (C.net.phaseOf m)) c) := by
  have hl : ∀ b, (flipFunc b c).leaves = c.leaves := by intro b; cases b <;> rfl
  have hwf : ∀ b, (flipFunc b c).WF := by
    intro b
    cases b
    · exact h.wf
    · exact ⟨h.wf.sorted, h.wf.2⟩
  have hk : 2 ≤ c.leaves.length ∧ c.leaves.length ≤ p.cutSize ∧ ∀ x ∈ c.leaves, x < m := by
    refine h.kind.resolve_left fun e => ?_
    rw [e] at h2; simp at h2
  have htab : RightTable C.net cache n (flipFunc (Bool.xor (C.net.phaseOf n) (C.net.phaseOf m)) c) := by
    obtain ⟨t, t1, t2, t3⟩ := h.table
    cases hb : Bool.xor (C.net.phaseOf n) (C.net.phaseOf m) with
    | false =>
      refine ⟨t, t1, t2, fun v hv => ?_⟩
      rw [show (flipFunc false c).leaves = c.leaves from rfl, ← t3 v hv]
      have := hs v hv
      revert this hb
      cases v n <;> cases v m <;> cases C.net.phaseOf n <;> cases C.net.phaseOf m <;> simp
    | true =>
      obtain ⟨u, u1, u2, u3⟩ := lookup_flip t1
      refine ⟨u, u1, u2.trans t2, fun v hv => ?_⟩
      rw [show (flipFunc true c).leaves = c.leaves from rfl, u3, ← t3 v hv]
      have := hs v hv
      revert this hb
      cases v n <;> cases v m <;> cases C.net.phaseOf n <;> cases C.net.phaseOf m <;> simp
  refine ⟨fun k => ⟨?_, ?_, ?_, htab, ?_⟩, ?_, ?_⟩
  · exact hwf _
  · intro x hx; rw [hl] at hx; have := hk.2.2 x hx; omega
  · rw [hl]; exact Nat.le_trans hk.2.1 (le_max_left _ _)
  · intro e; simp [cutParams, loose] at e
  · intro x hx; rw [hl] at hx; exact ht.trans (h.tfi x hx)
  · right; rw [hl]; exact ⟨hk.1, hk.2.1, fun x hx => by have := hk.2.2 x hx; omega⟩

theorem insert_ne {lt : Cut (FData β) → Cut (FData β) → Bool} {s s' : CutSet (FData β)} {c : Cut (FData β)}
    (h : s.Inv maxCutNum) (e : s.insert maxCutNum lt c = some s') : s'.view ≠ [] := by
  obtain ⟨s1, i, g1, g2, g3, g4, g5⟩ := insert_view maxCutNum lt s c h (by decide)
  rw [g1] at e
  obtain rfl := Option.some.inj e
  rcases g5 with ⟨ha, _, hv⟩ | ⟨ha, hb, hv⟩ | ⟨ha, hv⟩
  · intro e; rw [hv] at e; rw [e] at ha; simp [maxCutNum] at ha
  · intro e
    have : i ≤ (List.filter (fun o => !c.dominates o) s.view).dropLast.length := by
      rw [List.length_dropLast]; omega
    have hmem := (List.mem_insertIdx (a := stored c) (b := stored c) this).2 (Or.inl rfl)
    rw [← hv, e] at hmem; simp at hmem
  · intro e
    have hmem := (List.mem_insertIdx (a := stored c) (b := stored c) g4).2 (Or.inl rfl)
    rw [← hv, e] at hmem; simp at hmem

theorem insertChoices_spec {p : CutPs} {C : Choice} {cache : TTCache} {n : Nat} (h : Heur β) (m : Nat) (phase : Bool) :
    ∀ (l : List (Cut (FData β))) (s s' : CutSet (FData β)), s.Inv maxCutNum → s.view ≠ [] → (∀ c ∈ s.view, MapOk p C cache n c) →
    (∀ c ∈ l, ¬ c.leaves.length < 2 → MapOk p C cache n (flipFunc phase c)) → insertChoices h m phase l s = some s' →
    s'.Inv maxCutNum ∧ s'.view ≠ [] ∧ ∀ c ∈ s'.view, MapOk p C cache n c := by
  intro l
  induction l with
  | nil => intro s s' hi hne ho _ e; obtain rfl := Option.some.inj e; exact ⟨hi, hne, ho⟩
  | cons c l ih =>
    intro s s' hi hne ho hl e
    rw [insertChoices] at e
    by_cases hc : c.leaves.length < 2 ∨ h.skip m c = true
    · rw [if_pos hc] at e
      exact ih s s' hi hne ho (fun d hd => hl d (by simp [hd])) e
    · rw [if_neg hc] at e
      rw [not_or] at hc
      obtain ⟨s1, e1, i1, m1⟩ := insert_mem (maxCuts := maxCutNum) (by decide) h.lt (c := flipFunc phase c) hi
      rw [e1] at e
      refine ih s1 s' i1 (insert_ne hi e1) ?_ (fun d hd => hl d (by simp [hd])) e
      intro d hd
      rcases m1 d hd with rfl | hd
      · exact (hl c (by simp) hc.1).stored
      · exact ho d hd

/-- the state during the loop over the class of `n` -/
structure ChInv (p : CutPs) (C : Choice) (st0 st : MapSt β) (n : Nat) : Prop where
  inv : StInv p C st
  cache : st.cache = st0.cache
  best : st.best = st0.best
  other : ∀ k, k ≠ n → st.sets[k]? = st0.sets[k]?
  set : ∃ s, st.sets[n]? = some s ∧ s.view ≠ [] ∧ ∀ c ∈ s.view, MapOk p C st.cache n c

theorem choiceLoop_spec {p : CutPs} (hp : PsOk p) {C : Choice} (h : Heur β) {n : Nat} {st0 : MapSt β} :
    ∀ (l : List Nat), (∀ m ∈ l, m < n ∧ Tfi C.deps n m ∧ (∀ v, C.net.Models v →
      Bool.xor (v n) (C.net.phaseOf n) = Bool.xor (v m) (C.net.phaseOf m)) ∧ Done p C st0 m) →
    ∀ (st st' : MapSt β), ChInv p C st0 st n → choiceLoop p C.net h n l st = some st' →
    ChInv p C st0 st' n ∧ (l ≠ [] ∨ (∃ s, st.sets[n]? = some s ∧ s.len + 1 < maxCutNum) → ∃ s, st'.sets[n]? = some s ∧ s.len + 1 < maxCutNum) := by
  intro l
  induction l with
  | nil =>
    intro _ st st' hi e
    obtain rfl := Option.some.inj e
    exact ⟨hi, fun h => h.resolve_left (by simp)⟩
  | cons m l ih =>
    intro hl st st' hi e
    obtain ⟨hmn, htfi, hs, sm, bm, hd⟩ := hl m (by simp)
    obtain ⟨s, es, hne, hok⟩ := hi.set
    have hsm : st.sets[m]? = some sm := by rw [hi.other m (by omega)]; exact hd.set
    rw [choiceLoop, hsm, es] at e
    dsimp only at e
    have hlen : sm.len ≠ 0 := by
      obtain ⟨u, hu, _⟩ := hd.unit
      intro h0
      rw [CutSet.view, h0] at hu; simp at hu
    rw [if_neg hlen] at e
    cases h1 : insertChoices h m (Bool.xor (C.net.phaseOf n) (C.net.phaseOf m)) sm.view s with
    | none => rw [h1] at e; simp at e
    | some s1 =>
      rw [h1] at e
      dsimp only at e
      obtain ⟨i1, n1, o1⟩ := insertChoices_spec (p := p) (C := C) (cache := st.cache) (n := n) h m _ sm.view s s1 (hi.inv.sets n s es) hne hok (by
        intro c hc h2
        have := hd.cuts c hc
        rw [← hi.cache] at this
        exact this.choice h2 hmn htfi hs) h1
      cases h2 : s1.limit (limitArg p.cutLimit) with
      | none => rw [h2] at e; simp at e
      | some s2 =>
        rw [h2] at e
        dsimp only at e
        obtain ⟨l1, l2, l3, l4, l5, l6⟩ := limit_spec i1 h2
        have h3 := hp.limit3
        have h11 := hp.limit11
        rw [limitArg_eq (by omega)] at l5 l4 h2
        have hs1 : s1.len ≠ 0 := by
          intro h0; apply n1; rw [CutSet.view, h0]; simp
        have hs2 : s2.len ≠ 0 ∧ s2.len ≤ p.cutLimit - 1 := by
          rcases Nat.lt_or_ge (p.cutLimit - 1) s1.len with hx | hx
          · have := l5 hx; omega
          · rw [CutSet.limit, if_neg (by omega)] at h2
            obtain rfl := Option.some.inj h2
            exact ⟨hs1, hx⟩
        have hnl : n < st.sets.length := (List.getElem?_eq_some_iff.1 es).1
        obtain ⟨j1, j2⟩ := ih (fun k hk => hl k (by simp [hk])) { st with sets := st.sets.set n s2 } st' (by
          refine ⟨⟨by simpa using hi.inv.len, hi.inv.blen, hi.inv.cache, hi.inv.unit, ?_⟩, hi.cache, hi.best, ?_, ?_⟩
          · intro k t ht
            by_cases hk : k = n
            · subst hk
              simp only [List.getElem?_set_self hnl, Option.some.injEq] at ht
              subst ht; exact l1
            · rw [getElem?_set_other hk] at ht; exact hi.inv.sets k t ht
          · intro k hk
            rw [← hi.other k hk]; exact getElem?_set_other hk
          · refine ⟨s2, by simp [hnl], ?_, fun c hc => o1 c (l2 c hc)⟩
            intro e
            have := CutSet.view_length l1
            rw [e] at this; simp at this; omega) e
        refine ⟨j1, fun _ => j2 (Or.inr ⟨s2, by simp [hnl], ?_⟩)⟩
        omega

theorem mapChoice_spec {p : CutPs} (hp : PsOk p) {C : Choice} (hO : C.Ordered) (hS : C.Sound) {n : Nat} {m : Nat}
    (hm : C.equivs[n]? = some (some m)) (h : Heur β) (first : Bool) {st : MapSt β} (hi : StInv p C st) (hd : Done p C st n)
    (hcl : ∀ k, k < n → Tfi C.deps n k → Done p C st k) {st' : MapSt β} (e : mapChoice p C h first st n = some st') :
    StInv p C st' ∧ Done p C st' n ∧ ∀ k, Done p C st k → Done p C st' k := by
  rw [mapChoice, hm] at e
  dsimp only at e
  cases hc : C.chain (C.equivs.length + 1) (some m) with
  | none => rw [hc] at e; simp at e
  | some l =>
    rw [hc] at e
    dsimp only at e
    have hsp := chain_spec hO hS _ _ n l hm hc
    have hlne : l ≠ [] := by
      rw [Choice.chain] at hc
      split at hc
      · simp at hc
      · obtain ⟨l', _, rfl⟩ := Option.map_eq_some_iff.1 hc; simp
    obtain ⟨s, b, hd⟩ := hd
    cases h1 : choiceLoop p C.net h n l st with
    | none => rw [h1] at e; simp at e
    | some st1 =>
      rw [h1] at e
      dsimp only at e
      obtain ⟨j1, j2⟩ := choiceLoop_spec hp (C := C) h (st0 := st) l (fun k hk => by
          obtain ⟨a, b, c⟩ := hsp k hk
          exact ⟨a, b, c, hcl k a b⟩) st st1 ⟨hi, rfl, rfl, fun _ _ => rfl, s, hd.set, by
            obtain ⟨u, hu, _⟩ := hd.unit
            exact List.ne_nil_of_mem hu, hd.cuts⟩ h1
      obtain ⟨s1, es1, hroom⟩ := j2 (Or.inl hlne)
      obtain ⟨s1', es1', hne, hok⟩ := j1.set
      rw [es1] at es1'
      obtain rfl := Option.some.inj es1'
      have hinv := j1.inv.sets n s1 es1
      obtain ⟨c0, rest, hv⟩ : ∃ c0 rest, s1.view = c0 :: rest := List.exists_cons_of_ne_nil hne
      have hf := first_eq es1 hinv hv
      rw [hf] at e
      dsimp only at e
      have hnl : n < st1.sets.length := (List.getElem?_eq_some_iff.1 es1).1
      have hbl : n < st1.best.length := by rw [j1.inv.blen, ← j1.inv.len]; exact hnl
      have hbok : ∀ bs, (bs = st1.best ∨ bs = st1.best.set n c0) → bs.length = st1.best.length ∧ (∀ k, k ≠ n → bs[k]? = st1.best[k]?) ∧
          ∃ b, bs[n]? = some b ∧ MapOk p C st1.cache n b := by
        rintro bs (rfl | rfl)
        · exact ⟨rfl, fun _ _ => rfl, b, by rw [j1.best]; exact hd.best, by rw [j1.cache]; exact hd.bok⟩
        · exact ⟨by simp, fun k hk => getElem?_set_other hk, c0, by simp [hbl], hok c0 (by rw [hv]; simp)⟩
      have hend : ∀ bs, (bs = st1.best ∨ bs = st1.best.set n c0) → ∀ st', MapSt.addUnit { st1 with best := bs } n = some st' →
          StInv p C st' ∧ Done p C st' n ∧ ∀ k, Done p C st k → Done p C st' k := by
        intro bs hbs st' e
        obtain ⟨b1, b2, bb, b3, b4⟩ := hbok bs hbs
        rw [MapSt.addUnit, es1] at e
        dsimp only at e
        obtain ⟨s2, d, ea, a1, a2, a3⟩ := addCut_spec [n] (fun d : FData β => { d with func := 2 }) hinv (by omega)
        rw [CutSet.addFixed, ea] at e
        dsimp only at e
        obtain rfl := Option.some.inj e
        have hdn : Done p C { st1 with best := bs, sets := st1.sets.set n s2 } n := by
          refine ⟨s2, bb, by simp [hnl], b3, a1, ?_, ?_, Or.inl ?_, b4, ?_⟩
          · intro c hc
            rw [a2, List.mem_append, List.mem_singleton] at hc
            rcases hc with hc | rfl
            · exact hok c hc
            · exact ⟨fun k => unit_ok j1.inv.unit n _ rfl, by simp [Tfi.refl], Or.inl rfl⟩
          · exact ⟨_, by rw [a2]; exact List.mem_append_right _ (List.mem_singleton_self _), rfl⟩
          · rw [CutSet.view_length a1, a3]; omega
          · intro e; rw [hm] at e; simp at e
        refine ⟨⟨by simpa using j1.inv.len, by rw [b1]; exact j1.inv.blen, j1.inv.cache, j1.inv.unit, ?_⟩, hdn, ?_⟩
        · intro k t ht
          by_cases hk : k = n
          · subst hk
            simp only [List.getElem?_set_self hnl, Option.some.injEq] at ht
            subst ht; exact a1
          · rw [getElem?_set_other hk] at ht; exact j1.inv.sets k t ht
        · intro k hk
          by_cases hkn : k = n
          · subst hkn; exact hdn
          · refine hk.of_eq ?_ ?_ ?_
            · rw [getElem?_set_other hkn]; exact j1.other k hkn
            · show bs[k]? = _
              rw [b2 k hkn, j1.best]
            · rw [j1.cache]; exact fun _ _ h => h
      by_cases ha : (first || h.acceptChoice c0) = true
      · rw [if_pos ha, MapSt.setBest, hf] at e
        dsimp only at e
        rw [if_pos hbl] at e
        exact hend _ (Or.inr rfl) st' e
      · rw [if_neg ha] at e
        exact hend st1.best (Or.inl rfl) st' e

/-! ### nothing goes wrong -/

theorem chain_defined {C : Choice} (hO : C.Ordered) : ∀ (f : Nat) (e : Option Nat), (∀ m, e = some m → m < f ∧ m < C.equivs.length) →
    ∃ l, C.chain f e = some l := by
  intro f
  induction f with
  | zero =>
    intro e he
    cases e with
    | none => exact ⟨[], by rw [Choice.chain]⟩
    | some m => have := he m rfl; omega
  | succ f ih =>
    intro e he
    cases e with
    | none => exact ⟨[], by rw [Choice.chain]⟩
    | some m =>
      obtain ⟨hm, hl⟩ := he m rfl
      rw [Choice.chain, List.getElem?_eq_getElem hl]
      dsimp only
      obtain ⟨l, e⟩ := ih C.equivs[m] (by
        intro k hk
        have := (hO.lt m k (by rw [List.getElem?_eq_getElem hl, hk])).2
        omega)
      rw [e]
      exact ⟨_, rfl⟩

theorem insertChoices_defined (h : Heur β) (m : Nat) (phase : Bool) : ∀ (l : List (Cut (FData β))) (s : CutSet (FData β)), s.Inv maxCutNum →
    ∃ s', insertChoices h m phase l s = some s' := by
  intro l
  induction l with
  | nil => intro s _; exact ⟨s, rfl⟩
  | cons c l ih =>
    intro s hi
    rw [insertChoices]
    split
    · exact ih s hi
    · obtain ⟨s1, e1, i1, _⟩ := insert_mem (maxCuts := maxCutNum) (by decide) h.lt (c := flipFunc phase c) hi
      rw [e1]
      exact ih s1 i1

theorem choiceLoop_defined {p : CutPs} (hp : PsOk p) {C : Choice} (h : Heur β) {n : Nat} {st0 : MapSt β} :
    ∀ (l : List Nat), (∀ m ∈ l, m < n ∧ Tfi C.deps n m ∧ (∀ v, C.net.Models v →
      Bool.xor (v n) (C.net.phaseOf n) = Bool.xor (v m) (C.net.phaseOf m)) ∧ Done p C st0 m) →
    ∀ (st : MapSt β), ChInv p C st0 st n → ∃ st', choiceLoop p C.net h n l st = some st' := by
  intro l
  induction l with
  | nil => intro _ st _; exact ⟨st, rfl⟩
  | cons m l ih =>
    intro hl st hi
    have hm := hl m (by simp)
    obtain ⟨sm, bm, hd⟩ := hm.2.2.2
    obtain ⟨s, es, hne, hok⟩ := hi.set
    have hsm : st.sets[m]? = some sm := by rw [hi.other m (by omega)]; exact hd.set
    have hlen : sm.len ≠ 0 := by
      obtain ⟨u, hu, _⟩ := hd.unit
      intro h0
      rw [CutSet.view, h0] at hu; simp at hu
    obtain ⟨s1, h1⟩ := insertChoices_defined h m (Bool.xor (C.net.phaseOf n) (C.net.phaseOf m)) sm.view s (hi.inv.sets n s es)
    have h3 := hp.limit3
    obtain ⟨s2, h2⟩ : ∃ s2, s1.limit (limitArg p.cutLimit) = some s2 := by
      rw [limitArg_eq (by omega), CutSet.limit]
      split
      · rw [if_neg (by omega)]; exact ⟨_, rfl⟩
      · exact ⟨_, rfl⟩
    have hone : choiceLoop p C.net h n [m] st = some { st with sets := st.sets.set n s2 } := by
      rw [choiceLoop, hsm, es]
      dsimp only
      rw [if_neg hlen, h1]
      dsimp only
      rw [h2]
      rfl
    obtain ⟨i1, _⟩ := choiceLoop_spec hp (C := C) h (st0 := st0) [m] (fun k hk => by rw [List.mem_singleton.1 hk]; exact hm) st _ hi hone
    obtain ⟨st', e'⟩ := ih (fun k hk => hl k (by simp [hk])) _ i1
    refine ⟨st', ?_⟩
    rw [choiceLoop, hsm, es]
    dsimp only
    rw [if_neg hlen, h1]
    dsimp only
    rw [h2]
    exact e'

theorem mapChoice_defined {p : CutPs} (hp : PsOk p) {C : Choice} (hO : C.Ordered) (hS : C.Sound) {n : Nat} {m : Nat}
    (hn : n < C.net.nodes.length) (hm : C.equivs[n]? = some (some m)) (h : Heur β) (first : Bool) {st : MapSt β} (hi : StInv p C st)
    (hd : Done p C st n) (hcl : ∀ k, k < n → Tfi C.deps n k → Done p C st k) : ∃ st', mapChoice p C h first st n = some st' := by
  have hmn := hO.lt n m hm
  have hlen := hO.len
  obtain ⟨l, hc⟩ := chain_defined hO (C.equivs.length + 1) (some m) (fun k hk => by
    obtain rfl := Option.some.inj hk
    omega)
  have hsp := chain_spec hO hS _ _ n l hm hc
  have hlne : l ≠ [] := by
    rw [Choice.chain] at hc
    split at hc
    · simp at hc
    · obtain ⟨l', _, rfl⟩ := Option.map_eq_some_iff.1 hc; simp
  obtain ⟨s, b, hd⟩ := hd
  have h0 : ChInv p C st st n := ⟨hi, rfl, rfl, fun _ _ => rfl, s, hd.set, by
    obtain ⟨u, hu, _⟩ := hd.unit
    exact List.ne_nil_of_mem hu, hd.cuts⟩
  have hl : ∀ m ∈ l, m < n ∧ Tfi C.deps n m ∧ (∀ v, C.net.Models v →
      Bool.xor (v n) (C.net.phaseOf n) = Bool.xor (v m) (C.net.phaseOf m)) ∧ Done p C st m := by
    intro k hk
    obtain ⟨a, b, c⟩ := hsp k hk
    exact ⟨a, b, c, hcl k a b⟩
  obtain ⟨st1, h1⟩ := choiceLoop_defined hp h l hl st h0
  obtain ⟨j1, j2⟩ := choiceLoop_spec hp (C := C) h (st0 := st) l hl st st1 h0 h1
  obtain ⟨s1, es1, hroom⟩ := j2 (Or.inl hlne)
  obtain ⟨s1', es1', hne, hok⟩ := j1.set
  rw [es1] at es1'
  obtain rfl := Option.some.inj es1'
  have hinv := j1.inv.sets n s1 es1
  obtain ⟨c0, rest, hv⟩ : ∃ c0 rest, s1.view = c0 :: rest := List.exists_cons_of_ne_nil hne
  have hf := first_eq es1 hinv hv
  have hbl : n < st1.best.length := by rw [j1.inv.blen]; exact hn
  obtain ⟨s2, d, ea, _⟩ := addCut_spec [n] (fun d : FData β => { d with func := 2 }) hinv (by omega)
  have hadd : ∀ bs, MapSt.addUnit { st1 with best := bs } n = some { st1 with best := bs, sets := st1.sets.set n s2 } := by
    intro bs
    rw [MapSt.addUnit, es1]
    dsimp only
    rw [CutSet.addFixed, ea]
  rw [mapChoice, hm]
  dsimp only
  rw [hc]
  dsimp only
  rw [h1]
  dsimp only
  rw [hf]
  dsimp only
  by_cases ha : (first || h.acceptChoice c0) = true
  · rw [if_pos ha, MapSt.setBest, hf]
    dsimp only
    rw [if_pos hbl]
    exact ⟨_, hadd _⟩
  · rw [if_neg ha]
    exact ⟨_, hadd st1.best⟩

end Verif.Mapper
