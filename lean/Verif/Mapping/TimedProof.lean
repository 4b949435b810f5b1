import Verif.Mapping.Timed
import Verif.Mapping.CoverProof
import Verif.Props.C37

set_option autoImplicit false

/-!
# The LUT mapper with its costs (helper lemmas)
-/

namespace Verif.Mapper
open Cuts
open Topo (Tfi FaninsFirst)

variable {β : Type}

/-! ### the cost data of cuts -/

theorem mergeStep_cost {P : Params β} {N : Aig} {n : Nat} {g : List Nat → β} (hg : ∀ c, P.cost n c = g c.leaves)
    {st st' : TTCache × CutSet (FData β)} (hinv : st.2.Inv maxCutNum) {c1 c2 : Cut (FData β)}
    (hq : ∀ c ∈ st.2.view, c.data.cost = g c.leaves) (e : mergeStep P N n st c1 c2 = some st') :
    ∀ c ∈ st'.2.view, c.data.cost = g c.leaves := by
  rw [mergeStep] at e
  split at e
  · simp at e
  · obtain rfl := Option.some.inj e; exact hq
  · split at e
    · obtain rfl := Option.some.inj e; exact hq
    · split at e
      · simp at e
      · rename_i r' _
        obtain ⟨s', e', _, hm⟩ := insert_mem (by decide : 0 < maxCutNum) P.lt
          (c := { r' with data := { r'.data with cost := P.cost n r' } }) hinv
        rw [e'] at e
        obtain rfl := Option.some.inj e
        intro c hc
        rcases hm c hc with rfl | hc
        · exact hg r'
        · exact hq c hc

theorem mergeLoop_cost {P : Params β} {N : Aig} {n : Nat} {g : List Nat → β} (hg : ∀ c, P.cost n c = g c.leaves) :
    ∀ (ps : List (Cut (FData β) × Cut (FData β))) (st st' : TTCache × CutSet (FData β)), st.2.Inv maxCutNum →
    (∀ c ∈ st.2.view, c.data.cost = g c.leaves) → mergeLoop P N n st ps = some st' →
    st'.2.Inv maxCutNum ∧ ∀ c ∈ st'.2.view, c.data.cost = g c.leaves := by
  intro ps
  induction ps with
  | nil => intro st st' hi hq e; obtain rfl := Option.some.inj e; exact ⟨hi, hq⟩
  | cons q ps ih =>
    intro st st' hi hq e
    obtain ⟨c1, c2⟩ := q
    rw [mergeLoop] at e
    cases hs : mergeStep P N n st c1 c2 with
    | none => rw [hs] at e; simp at e
    | some st1 =>
      rw [hs] at e
      exact ih st1 st' (mergeStep_inv hi hs) (mergeStep_cost hg hi hq hs) e

theorem finish_cost {P : Params β} {n : Nat} {g : List Nat → β} {s s' : CutSet (FData β)} (h : s.Inv maxCutNum)
    (hq : ∀ c ∈ s.view, c.data.cost = g c.leaves) (e : finish P n s = some s') :
    ∀ c ∈ s'.view, c.leaves = [n] ∨ c.data.cost = g c.leaves := by
  rw [finish] at e
  cases hl : s.limit (limitArg P.cutLimit) with
  | none => rw [hl] at e; simp at e
  | some s1 =>
    rw [hl] at e
    dsimp only at e
    obtain ⟨i1, v1, _⟩ := limit_spec h hl
    split at e
    · simp at e
    · split at e
      · by_cases hlen : s1.len < maxCutNum
        · obtain ⟨s2, d, e2, _, v2, _⟩ := addCut_spec [n] (fun d : FData β => { d with func := 2 }) i1 hlen
          rw [CutSet.addFixed, e2] at e
          obtain rfl := Option.some.inj e
          intro c hc
          rw [v2, List.mem_append, List.mem_singleton] at hc
          rcases hc with hc | rfl
          · exact Or.inr (hq c (v1 c hc))
          · exact Or.inl rfl
        · rw [CutSet.addFixed, CutSet.addCut, List.getElem?_eq_none (by rw [i1.length]; omega)] at e
          simp at e
      · obtain rfl := Option.some.inj e
        exact fun c hc => Or.inr (hq c (v1 c hc))

theorem mergeCuts_cost {p : CutPs} {C : Choice} (hN : C.net.Built) {n : Nat} {a b : Sig} (hg : C.net.IsGate n a b)
    (h : Heur β) {g : List Nat → β} (hcost : ∀ c, h.cost c = g c.leaves) {st : MapSt β} (hi : StInv p C st)
    (ha : Done p C st a.index) (hb : Done p C st b.index) {st' : MapSt β} (e : mergeCuts p C.net h st n = some st') :
    ∀ s, st'.sets[n]? = some s → ∀ c ∈ s.view, c.leaves = [n] ∨ c.data.cost = g c.leaves := by
  have hlt := hN.wf.isGate_lt hg
  obtain ⟨hn0, hnin, nd, hnd, hdead, rfl, rfl⟩ := id hg
  have hnl : n < st.sets.length := by rw [hi.len]; exact Aig.lt_of_getElem? hnd
  rw [mergeCuts, hnd, List.getElem?_eq_getElem hnl] at e
  dsimp only at e
  obtain ⟨ci, cv⟩ := clear_inv maxCutNum (st.sets[n])
  have ha0 : Done p C { st with sets := st.sets.set n (st.sets[n].clear maxCutNum) } nd.c0.index :=
    ha.of_eq (getElem?_set_other (by omega)) rfl fun _ _ h => h
  obtain ⟨st1, e1, d1, k1, b1, o1, l1⟩ := insertBest_spec h.lt ha0
  rw [e1] at e
  dsimp only at e
  have hb1 : Done p C st1 nd.c1.index := hb.of_eq
    (by rw [o1 _ (by omega)]; exact getElem?_set_other (by omega)) (by rw [b1]) (by rw [k1]; exact fun _ _ h => h)
  obtain ⟨st2, e2, d2, k2, b2, o2, l2⟩ := insertBest_spec h.lt hb1
  rw [e2] at e
  dsimp only at e
  have hsn : st2.sets[n]? = some (st.sets[n].clear maxCutNum) := by
    rw [o2 _ (by omega), o1 _ (by omega)]
    simp [hnl]
  have hnl2 : n < st2.sets.length := (List.getElem?_eq_some_iff.1 hsn).1
  rw [hsn] at e
  split at e
  · rename_i s0 s1 s e0 e1 e2
    obtain rfl := Option.some.inj e2
    cases hml : mergeLoop (cutParams p h) C.net n (st2.cache, st.sets[n].clear maxCutNum) (pairs s0.view s1.view) with
    | none => rw [hml] at e; simp at e
    | some q =>
      obtain ⟨cache, r⟩ := q
      rw [hml] at e
      dsimp only at e
      obtain ⟨ri, rq⟩ := mergeLoop_cost (P := cutParams p h) (N := C.net) (n := n) (g := g) hcost _ _ _ ci
        (by intro c hc; rw [cv] at hc; simp at hc) hml
      cases hf : finish (cutParams p h) n r with
      | none => rw [hf] at e; simp at e
      | some r' =>
        rw [hf] at e
        obtain rfl := Option.some.inj e
        intro s hs
        simp only [List.getElem?_set_self hnl2, Option.some.injEq] at hs
        subst hs
        exact finish_cost ri rq hf
  · simp at e

/-- what `mapAnd` does to the best cuts -/
theorem mapAnd_best {p : CutPs} (hp : PsOk p) {C : Choice} (hN : C.net.Built) {n : Nat} {a b : Sig} (hg : C.net.IsGate n a b)
    (h : Heur β) (first : Bool) {g : List Nat → β} (hcost : ∀ c, h.cost c = g c.leaves) {st : MapSt β} (hi : StInv p C st)
    (ha : Done p C st a.index) (hb : Done p C st b.index) {st' : MapSt β} (e : mapAnd p C.net h first st n = some st') :
    (∀ m, m ≠ n → st'.best[m]? = st.best[m]?) ∧
    ((st'.best[n]? = st.best[n]? ∧ ∃ c, (first || h.accept c) = false) ∨
      ∃ c, st'.best[n]? = some c ∧ (first || h.accept c) = true ∧ c.data.cost = g c.leaves) := by
  rw [mapAnd] at e
  cases hm : mergeCuts p C.net h st n with
  | none => rw [hm] at e; simp at e
  | some st1 =>
    rw [hm] at e
    dsimp only at e
    obtain ⟨g1, g2, g3, g4, s, c0, rest, g5, g6, g7, g8, g9, g10⟩ := mergeCuts_spec hp hN hg h hi ha hb hm
    have hk := mergeCuts_cost hN hg h hcost hi ha hb hm s g5 c0 (by rw [g6]; simp)
    have hf := first_eq g5 (g1.sets n s g5) g6
    rw [hf] at e
    dsimp only at e
    have hnl : n < st1.best.length := by
      rw [g1.blen, ← g1.len]; exact (List.getElem?_eq_some_iff.1 g5).1
    by_cases hc : c0.leaves.length < 1 ∨ (first || h.accept c0) = true
    · rw [if_pos hc, MapSt.setBest, hf] at e
      dsimp only at e
      rw [if_pos hnl] at e
      obtain rfl := Option.some.inj e
      refine ⟨fun m hm => ?_, Or.inr ⟨c0, by simp [hnl], hc.resolve_left ?_, hk.resolve_left g7⟩⟩
      · rw [← g3]; exact getElem?_set_other hm
      · rcases (g8 c0 (by rw [g6]; simp)).kind with h | h
        · exact absurd h g7
        · omega
    · rw [if_neg hc] at e
      obtain rfl := Option.some.inj e
      rw [not_or] at hc
      exact ⟨fun m _ => by rw [g3], Or.inl ⟨by rw [g3], c0, by simpa using hc.2⟩⟩

/-! ### heuristics with the same decisions -/

theorem insertChoices_congr {h h' : Heur β} (hl : h.lt = h'.lt) (hs : h.skip = h'.skip) (m : Nat) (phase : Bool) :
    ∀ (l : List (Cut (FData β))) (s : CutSet (FData β)), insertChoices h m phase l s = insertChoices h' m phase l s := by
  intro l
  induction l with
  | nil => intro s; rfl
  | cons c l ih =>
    intro s
    rw [insertChoices, insertChoices, hl, hs, ih s]
    cases s.insert maxCutNum h'.lt (flipFunc phase c) with
    | none => rfl
    | some s1 => dsimp only; rw [ih s1]

theorem choiceLoop_congr {p : CutPs} {N : Aig} {h h' : Heur β} (hl : h.lt = h'.lt) (hs : h.skip = h'.skip) (n : Nat) :
    ∀ (l : List Nat) (st : MapSt β), choiceLoop p N h n l st = choiceLoop p N h' n l st := by
  intro l
  induction l with
  | nil => intro st; rfl
  | cons m l ih =>
    intro st
    rw [choiceLoop, choiceLoop]
    cases st.sets[m]? with
    | none => rfl
    | some sm =>
      cases st.sets[n]? with
      | none => rfl
      | some s =>
        dsimp only
        rw [ih st, insertChoices_congr hl hs]
        split
        · rfl
        · cases insertChoices h' m _ sm.view s with
          | none => rfl
          | some s1 =>
            dsimp only
            cases s1.limit (limitArg p.cutLimit) with
            | none => rfl
            | some s2 => dsimp only; rw [ih]

theorem mapChoice_congr {p : CutPs} {C : Choice} {h h' : Heur β} {first first' : Bool} (hl : h.lt = h'.lt) (hs : h.skip = h'.skip)
    (ha : ∀ c, (first || h.acceptChoice c) = (first' || h'.acceptChoice c)) (st : MapSt β) (n : Nat) :
    mapChoice p C h first st n = mapChoice p C h' first' st n := by
  rw [mapChoice, mapChoice]
  simp only [choiceLoop_congr hl hs, ha]

theorem mapAnd_congr {p : CutPs} {N : Aig} {h : Heur β} {first first' : Bool}
    (ha : ∀ c, (first || h.accept c) = (first' || h.accept c)) (st : MapSt β) (n : Nat) :
    mapAnd p N h first st n = mapAnd p N h first' st n := by
  rw [mapAnd, mapAnd]
  simp only [ha]

theorem mapRound_congr {p : CutPs} {C : Choice} {H H' : Nat → Heur β} {first : Bool} :
    ∀ (l : List Nat) (st : MapSt β), (∀ n ∈ l, H n = H' n) → mapRound p C H first l st = mapRound p C H' first l st := by
  intro l
  induction l with
  | nil => intro st _; rfl
  | cons n l ih =>
    intro st h
    rw [mapRound, mapRound, h n (by simp)]
    cases mapNode p C (H' n) first st n with
    | none => rfl
    | some st1 => exact ih st1 fun m hm => h m (by simp [hm])

theorem mapRounds_congr {p : CutPs} {C : Choice} {H H' : Nat → Nat → Heur β} {order : List Nat} :
    ∀ (l : List Bool) (k : Nat) (st : MapSt β), (∀ j, k ≤ j → H j = H' j) →
    mapRounds p C H order k l st = mapRounds p C H' order k l st := by
  intro l
  induction l with
  | nil => intro k st _; rfl
  | cons b l ih =>
    intro k st h
    rw [mapRounds, mapRounds, h k le_rfl]
    cases mapRound p C (H' k) b order st with
    | none => rfl
    | some st1 => exact ih (k + 1) st1 fun j hj => h j (by omega)

namespace Timed

/-! ### one node -/

theorem probe_keeps {f : Cover → (List Nat → Nat) → Nat → List Nat → RefDeref.Vals → Option (RefDeref.Vals × Nat)} {C : Choice}
    {r : Round} {S S' : St} {n : Nat} (e : probe f C r S n = some S') : S'.map = S.map ∧ S'.req = S.req ∧ S'.est = S.est := by
  rw [probe] at e
  split at e
  · split at e
    · simp at e
    · obtain rfl := Option.some.inj e; exact ⟨rfl, rfl, rfl⟩
  · obtain rfl := Option.some.inj e; exact ⟨rfl, rfl, rfl⟩

theorem newCost_leaves (C : Choice) (m : Mode) (S : St) : ∃ g : List Nat → Cost, (∀ c, newCost C m S c = g c.leaves) ∧
    ∀ l, (g l).delay = cutDelay S.map l := by
  unfold newCost
  by_cases h : m = .area
  · simp only [if_pos h]
    exact ⟨fun l => ⟨cutDelay S.map l, exact C S (fun _ => 1) l, exact C S List.length l⟩, fun _ => rfl, fun _ => rfl⟩
  · simp only [if_neg h]
    exact ⟨fun l => ⟨cutDelay S.map l, flow (·.area) S l 1, flow (·.edge) S l l.length⟩, fun _ => rfl, fun _ => rfl⟩

theorem inTime_none (c : Cut (FData Cost)) : inTime none c = true := rfl

/-- one node is a node of the mapper with some heuristics -/
theorem node_map {p : CutPs} {C : Choice} {r : Round} {S S' : St} {n : Nat} (e : node p C r S n = some S') :
    S'.req = S.req ∧ ∃ h : Heur Cost, h.accept = inTime (S.req n) ∧ h.acceptChoice = inTime (S.req n) ∧
      (∃ g : List Nat → Cost, (∀ c, h.cost c = g c.leaves) ∧ ∀ l, (g l).delay = cutDelay S.map l) ∧
      ∀ first, (first = true → S.req n = none) → mapNode p C h first S.map n = some S'.map := by
  rw [node] at e
  by_cases hc : C.net.isCi n = true ∨ n = 0
  · rw [if_pos hc] at e
    obtain rfl := Option.some.inj e
    refine ⟨rfl, heur C r S n, rfl, rfl, newCost_leaves C _ S, fun first _ => ?_⟩
    rw [mapNode, if_pos hc]
  · rw [if_neg hc] at e
    cases h1 : probe cutDeref C r (estimate r S n) n with
    | none => rw [h1] at e; simp at e
    | some S1 =>
      rw [h1] at e
      dsimp only at e
      obtain ⟨m1, q1, _⟩ := probe_keeps h1
      have m1' : S1.map = S.map := m1
      have q1' : S1.req = S.req := q1
      have hfirst : ∀ (first : Bool) (k : Cut (FData Cost) → Bool), (first = true → S.req n = none) → k = inTime (S.req n) →
          ∀ c, (first || k c) = (false || k c) := by
        intro first k hf hk c
        cases first with
        | false => rfl
        | true => rw [hk, hf rfl]; rfl
      have hkey : ∀ st2, mapAnd p C.net (heur C r S1 n) false S1.map n = some st2 → ∀ first, (first = true → S.req n = none) →
          mapAnd p C.net (heur C r S1 n) first S.map n = some st2 := by
        intro st2 e2 first hf
        rw [← m1', ← e2]
        exact mapAnd_congr (hfirst first _ hf (by show inTime (S1.req n) = _; rw [q1'])) _ _
      refine ⟨?_, heur C r S1 n, by show inTime (S1.req n) = _; rw [q1'], by show inTime (S1.req n) = _; rw [q1'], ?_, fun first hf => ?_⟩
      rotate_left
      · have := newCost_leaves C r.ps.eCutMode S1
        rw [m1'] at this; exact this
      all_goals
        cases h2 : mapAnd p C.net (heur C r S1 n) false S1.map n with
        | none => rw [h2] at e; simp at e
        | some st2 =>
          rw [h2] at e
          dsimp only at e
          cases h3 : probe cutRef C r { S1 with map := st2 } n with
          | none => rw [h3] at e; simp at e
          | some S3 =>
            rw [h3] at e
            dsimp only at e
            obtain ⟨m3, q3, _⟩ := probe_keeps h3
            cases h4 : C.equivs[n]? with
            | none => rw [h4] at e; simp at e
            | some eq =>
              rw [h4] at e
              dsimp only at e
              by_cases h5 : eq.isSome = true ∧ C.net.fanoutSize n > 0
              · rw [if_pos h5] at e
                cases h6 : probe cutDeref C r S3 n with
                | none => rw [h6] at e; simp at e
                | some S4 =>
                  rw [h6] at e
                  dsimp only at e
                  obtain ⟨m4, q4, _⟩ := probe_keeps h6
                  cases h7 : mapChoice p C (heur C r S4 n) false S4.map n with
                  | none => rw [h7] at e; simp at e
                  | some st5 =>
                    rw [h7] at e
                    dsimp only at e
                    obtain ⟨m5, q5, _⟩ := probe_keeps e
                    have q41 : S4.req = S1.req := by rw [q4, q3]
                    first
                      | (rw [q5]; show S4.req = _; rw [q41, q1'])
                      | (rw [mapNode, if_neg hc, hkey st2 h2 first hf, h4]
                         dsimp only
                         rw [if_pos h5, m5]
                         show _ = some st5
                         rw [← h7, m4, m3]
                         refine mapChoice_congr (h := heur C r S1 n) (h' := heur C r S4 n) rfl ?_ ?_ _ _
                         · show (fun m c => r.mode != 1 && !inTime (S1.req m) c) = fun m c => r.mode != 1 && !inTime (S4.req m) c
                           rw [q41]
                         · show ∀ c, (first || inTime (S1.req n) c) = (false || inTime (S4.req n) c)
                           rw [q41]
                           exact hfirst first _ hf (by rw [q1']))
              · rw [if_neg h5] at e
                obtain rfl := Option.some.inj e
                first
                  | (rw [q3]; exact q1')
                  | (rw [mapNode, if_neg hc, hkey st2 h2 first hf, h4]
                     dsimp only
                     rw [if_neg h5, m3])

/-- a round is a round of the mapper with some heuristics -/
theorem loop_map {p : CutPs} {C : Choice} {r : Round} : ∀ (l : List Nat) (S S' : St), l.Nodup → loop p C r l S = some S' →
    S'.req = S.req ∧ ∃ H : Nat → Heur Cost, ∀ first, (first = true → ∀ n ∈ l, S.req n = none) →
      mapRound p C H first l S.map = some S'.map := by
  intro l
  induction l with
  | nil =>
    intro S S' _ e
    obtain rfl := Option.some.inj e
    refine ⟨rfl, fun n => heur C r S n, fun _ _ => rfl⟩
  | cons n l ih =>
    intro S S' hnd e
    rw [List.nodup_cons] at hnd
    rw [loop] at e
    cases h1 : node p C r S n with
    | none => rw [h1] at e; simp at e
    | some S1 =>
      rw [h1] at e
      obtain ⟨q1, h, _, _, _, hm⟩ := node_map h1
      obtain ⟨q2, H, hH⟩ := ih S1 S' hnd.2 e
      refine ⟨by rw [q2, q1], fun k => if k = n then h else H k, fun first hf => ?_⟩
      rw [mapRound, if_pos rfl, hm first fun h => hf h n (by simp)]
      dsimp only
      rw [mapRound_congr (H' := H)]
      · exact hH first fun h m hm => by rw [q1]; exact hf h m (by simp [hm])
      · intro m hml
        rw [if_neg (by rintro rfl; exact hnd.1 hml)]

theorem required_keeps {C : Choice} {r : Round} {order : List Nat} {S S' : St} (e : required C r order S = some S') :
    S'.map = S.map ∧ S'.est = S.est := by
  rw [required] at e
  dsimp only at e
  split at e
  · simp at e
  · split at e
    · obtain rfl := Option.some.inj e; exact ⟨rfl, rfl⟩
    · split at e
      · simp at e
      · obtain rfl := Option.some.inj e; exact ⟨rfl, rfl⟩

/-- the rounds are rounds of the mapper with some heuristics -/
theorem rounds_map {p : CutPs} {C : Choice} {order : List Nat} (hnd : order.Nodup) : ∀ (rs : List Round) (k : Nat) (S S' : St),
    (∀ r ∈ rs.tail, r.first = false) → (∀ r, rs.head? = some r → r.first = true → ∀ n ∈ order, S.req n = none) →
    rounds p C order rs S = some S' → ∃ H : Nat → Nat → Heur Cost, mapRounds p C H order k (rs.map (·.first)) S.map = some S'.map := by
  intro rs
  induction rs with
  | nil =>
    intro k S S' _ _ e
    obtain rfl := Option.some.inj e
    exact ⟨fun _ _ => ⟨fun _ _ => false, fun c => c.data.cost, fun _ => false, fun _ => false, fun _ _ => false⟩, rfl⟩
  | cons r rs ih =>
    intro k S S' ht hh e
    rw [rounds] at e
    have hreset : ∀ b : Prop, [Decidable b] → (if b then resetRefs C S else S).map = S.map ∧ (if b then resetRefs C S else S).req = S.req := by
      intro b _
      split <;> exact ⟨rfl, rfl⟩
    obtain ⟨r1, r2⟩ := hreset (r.preprocess = true ∧ r.first = false)
    cases h1 : loop p C r order (if r.preprocess = true ∧ r.first = false then resetRefs C S else S) with
    | none => rw [h1] at e; simp at e
    | some S1 =>
      rw [h1] at e
      dsimp only at e
      obtain ⟨q1, H0, hH0⟩ := loop_map order _ S1 hnd h1
      cases h2 : required C r order S1 with
      | none => rw [h2] at e; simp at e
      | some S2 =>
        rw [h2] at e
        dsimp only at e
        obtain ⟨m2, _⟩ := required_keeps h2
        obtain ⟨H1, hH1⟩ := ih (k + 1) S2 S' (fun x hx => ht x (List.mem_of_mem_tail hx))
          (fun x hx hf => by
            have := ht x (List.mem_of_mem_head? hx)
            rw [hf] at this; simp at this) e
        refine ⟨fun j => if j = k then H0 else H1 j, ?_⟩
        rw [List.map_cons, mapRounds, if_pos rfl]
        have := hH0 r.first fun hf n hn => by rw [r2]; exact hh r rfl hf n hn
        rw [r1] at this
        rw [this]
        dsimp only
        rw [mapRounds_congr (H' := H1), ← m2]
        · exact hH1
        · intro j hj
          rw [if_neg (by omega)]

end Timed
end Verif.Mapper
