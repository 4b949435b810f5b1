import Verif.Mapping.TimedDelay
import Verif.Balance.Proof

set_option autoImplicit false

/-!
# What the LUT mapper reports (helper lemmas)
-/

namespace Verif.Mapper.Timed
open Cuts
open Topo (Tfi FaninsFirst)

/-! ### the start -/

/-- all cost data is `z`, and only nodes of `L` have a best cut with leaves -/
structure Blank (z : Cost) (L : List Nat) (st : MapSt Cost) : Prop where
  store : ∀ (n : Nat) s, st.sets[n]? = some s → ∀ k, (s.store k).data.cost = z
  best : ∀ (n : Nat) c, st.best[n]? = some c → c.data.cost = z
  leaves : ∀ (n : Nat) c, st.best[n]? = some c → c.leaves = [] ∨ n ∈ L

theorem initCuts_blank {z : Cost} {L : List Nat} : ∀ (l : List Nat) (st st' : MapSt Cost), (∀ n ∈ l, n ∈ L) → Blank z L st →
    initCuts l st = some st' → Blank z L st' := by
  intro l
  induction l with
  | nil => intro st st' _ h e; obtain rfl := Option.some.inj e; exact h
  | cons n l ih =>
    intro st st' hl h e
    rw [initCuts] at e
    cases h1 : st.addUnit n with
    | none => rw [h1] at e; simp at e
    | some st1 =>
      rw [h1] at e
      dsimp only at e
      have b1 : Blank z L st1 := by
        rw [MapSt.addUnit] at h1
        split at h1
        · simp at h1
        · rename_i s hs
          split at h1
          · simp at h1
          · rename_i s' hs'
            obtain rfl := Option.some.inj h1
            refine ⟨fun m t ht k => ?_, h.best, h.leaves⟩
            have hnl := (List.getElem?_eq_some_iff.1 hs).1
            by_cases hm : m = n
            · subst hm
              simp only [List.getElem?_set_self hnl, Option.some.injEq] at ht
              subst ht
              rw [CutSet.addFixed, CutSet.addCut] at hs'
              split at hs'
              · simp at hs'
              · obtain rfl := Option.some.inj hs'
                dsimp only
                split
                · exact h.store m s hs _
                · exact h.store m s hs k
            · rw [getElem?_set_other hm] at ht
              exact h.store m t ht k
      cases h2 : st1.setBest n with
      | none => rw [h2] at e; simp at e
      | some st2 =>
        rw [h2] at e
        dsimp only at e
        refine ih st2 st' (fun m hm => hl m (by simp [hm])) ?_ e
        rw [MapSt.setBest] at h2
        cases h3 : st1.first n with
        | none => rw [h3] at h2; simp at h2
        | some c =>
          rw [h3] at h2
          dsimp only at h2
          split at h2
          · rename_i hnl
            obtain rfl := Option.some.inj h2
            have hc : c.data.cost = z := by
              rw [MapSt.first] at h3
              split at h3
              · simp at h3
              · rename_i s hs
                obtain ⟨k, _, rfl⟩ := Option.map_eq_some_iff.1 h3
                exact b1.store n s hs k
            refine ⟨b1.store, fun m d hd => ?_, fun m d hd => ?_⟩
            all_goals
              by_cases hm : m = n
              · subst hm
                simp only [List.getElem?_set_self hnl, Option.some.injEq] at hd
                subst hd
                first
                  | exact hc
                  | exact Or.inr (hl m (by simp))
              · rw [getElem?_set_other hm] at hd
                first
                  | exact b1.best m d hd
                  | exact b1.leaves m d hd
          · simp at h2

theorem init_blank (z : Cost) (L : List Nat) (size : Nat) : Blank z L (MapSt.init z size) := by
  refine ⟨fun n s hs k => ?_, fun n c hc => ?_, fun n c hc => ?_⟩
  · rw [(List.mem_replicate.1 (List.mem_of_getElem? hs)).2]; rfl
  · rw [(List.mem_replicate.1 (List.mem_of_getElem? hc)).2]
  · rw [(List.mem_replicate.1 (List.mem_of_getElem? hc)).2]; exact Or.inl rfl

/-! ### the rounds -/

theorem rounds_first (mode : Nat) : ∀ (k : Nat) (p : Ps), ∀ r ∈ Mapper.rounds mode k p, r.first = false := by
  intro k
  induction k with
  | zero => intro p r hr; simp [Mapper.rounds] at hr
  | succ k ih =>
    intro p r hr
    rw [Mapper.rounds] at hr
    rcases List.mem_cons.1 hr with rfl | hr
    · rfl
    · exact ih _ r hr

theorem head_first {r : Round} {A F B : List Round} (hr : r.first = true) (hA : ∀ x ∈ A, x.first = false)
    (hF : ∀ x ∈ F, x.first = false) (hB : ∀ x ∈ B, x.first = false) :
    ∃ r' rs, (r :: A) ++ F ++ B = r' :: rs ∧ r'.first = true ∧ ∀ x ∈ rs, x.first = false := by
  refine ⟨r, A ++ F ++ B, rfl, hr, fun x hx => ?_⟩
  rcases List.mem_append.1 hx with hx | hx
  · rcases List.mem_append.1 hx with hx | hx
    · exact hA x hx
    · exact hF x hx
  · exact hB x hx

theorem run_first (p : Ps) : ∃ r rs, run p = r :: rs ∧ r.first = true ∧ ∀ x ∈ rs, x.first = false := by
  unfold run performMapping
  split
  · refine head_first rfl ?_ (rounds_first 1 _ _) (rounds_first 2 _ _)
    intro x hx
    rcases List.mem_cons.1 hx with rfl | hx
    · rfl
    · rw [List.mem_singleton] at hx; subst hx; rfl
  · exact head_first rfl (by simp) (rounds_first 1 _ _) (rounds_first 2 _ _)

/-- the parts of a run -/
structure Parts (p : CutPs) (C : Choice) (rs : List Round) (M : Mapping) (q : Qor) (st : MapSt Cost) (order : List Nat) (S : St) : Prop where
  init : initCuts (0 :: C.net.inputs) (MapSt.init ⟨0, 0, 0⟩ C.net.nodes.length) = some st
  inv : StInv p C st
  base : ∀ m, m = 0 ∨ m ∈ C.net.inputs → Done p C st m
  blank : Blank ⟨0, 0, 0⟩ (0 :: C.net.inputs) st
  topo : topologize C = some order
  first : FaninsFirst C.deps order
  lt : ∀ m ∈ order, m < C.net.nodes.length
  out : ∀ o ∈ C.net.outputs, o.index = 0 ∨ o.index ∈ order
  nodup : order.Nodup
  run : rounds p C order rs (start C st) = some S
  rep : report C.net order S.map = some (M, q)

theorem mapWith_parts {p : CutPs} {C : Choice} (hO : C.Ordered) (hN : C.net.Built) {rs : List Round} {M : Mapping} {q : Qor}
    (e : mapWith p C rs = some (M, q)) : ∃ st order S, Parts p C rs M q st order S := by
  obtain ⟨st, e0, i0, d0⟩ := start_spec (β := Cost) p hN ⟨0, 0, 0⟩
  obtain ⟨order, et, hff, hlt, hout, hnd⟩ := topologize_inv hN hO
  rw [mapWith, e0, et] at e
  dsimp only at e
  cases hr : rounds p C order rs (start C st) with
  | none => rw [hr] at e; simp at e
  | some S =>
    rw [hr] at e
    exact ⟨st, order, S, e0, i0, d0, initCuts_blank _ _ _ (fun _ h => h) (init_blank _ _ _) e0, et, hff, hlt, hout, hnd, hr, e⟩

theorem Parts.between {p : CutPs} (hp : PsOk p) {C : Choice} (hC : NoChoice C) (hN : C.net.Built) {r : Round} {rs : List Round} {M : Mapping} {q : Qor}
    {st : MapSt Cost} {order : List Nat} {S : St} (h : Parts p C (r :: rs) M q st order S) :
    ∃ S1, rounds p C order [r] (start C st) = some S1 ∧ rounds p C order rs S1 = some S ∧ Between p C order S1 ∧ Between p C order S ∧
      glo C S.map ≤ glo C S1.map ∧
      (∀ m, m = 0 ∨ C.net.isCi m = true → S1.map.best[m]? = st.best[m]?) ∧
      ∀ m ∈ order, m ≠ 0 → C.net.isCi m = false → ∃ c, S1.map.best[m]? = some c ∧ c.data.cost.delay = cutDelay S1.map c.leaves := by
  obtain ⟨S1, e1, e2⟩ := rounds_append [r] rs _ _ h.run
  have e1' := e1
  rw [rounds] at e1'
  obtain ⟨r1, r2⟩ : (if r.preprocess = true ∧ r.first = false then resetRefs C (start C st) else start C st).map = st ∧
      (if r.preprocess = true ∧ r.first = false then resetRefs C (start C st) else start C st).req = fun _ => none := by
    split <;> exact ⟨rfl, rfl⟩
  generalize (if r.preprocess = true ∧ r.first = false then resetRefs C (start C st) else start C st) = S0 at e1' r1 r2
  cases h1 : loop p C r order S0 with
  | none => rw [h1] at e1'; simp at e1'
  | some S2 =>
    rw [h1] at e1'
    dsimp only at e1'
    cases h2 : required C r order S2 with
    | none => rw [h2] at e1'; simp at e1'
    | some S3 =>
      rw [h2] at e1'
      obtain rfl := Option.some.inj e1'
      have hreq : ∀ m ∈ order, S0.req m = none := fun m _ => by rw [r2]
      have hbase : ∀ m, m = 0 ∨ m ∈ C.net.inputs → Done p C S0.map m := by rw [r1]; exact h.base
      have hinv : StInv p C S0.map := by rw [r1]; exact h.inv
      have b1 := round_spec hp hC hN h.first h.nodup h.lt hinv hbase (Or.inl hreq) h1 h2
      obtain ⟨_, _, _, o1, c1, g1⟩ := loop_spec hp hC hN order [] S0 S2 h.first h.nodup h.lt hinv (by simp) hbase (Or.inl hreq) h1
      obtain ⟨b2, g2⟩ := rounds_glo hp hC hN h.first h.nodup h.lt rs S3 S b1 e2
      have hk := (required_keeps h2).1
      refine ⟨S3, e1, e2, b1, b2, g2, ?_, ?_⟩
      · intro m hm
        rw [hk, ← r1]
        by_cases hmo : m ∈ order
        · exact c1 m hmo hm.symm
        · exact o1 m hmo
      · intro m hm h0 hci
        rcases g1 m hm h0 hci with ⟨_, hx⟩ | ⟨c, hb, _, hd⟩
        · exact absurd (hreq m hm) hx
        · exact ⟨c, by rw [hk]; exact hb, by rw [hk]; exact hd⟩

/-! ### the report -/

theorem report_spec {p : CutPs} {C : Choice} (hN : C.net.Built) (hpo : C.net.numPos = C.net.outputs.length) {order : List Nat}
    (hff : FaninsFirst C.deps order) (hlt : ∀ m ∈ order, m < C.net.nodes.length) (hnd : order.Nodup)
    (hout : ∀ o ∈ C.net.outputs, o.index = 0 ∨ o.index ∈ order) {st : MapSt Cost} (hi : StInv p C st) (hd : ∀ m ∈ order, Done p C st m) :
    ∃ M q, report C.net order st = some (M, q) ∧ Cells p C M ∧ q.delay = glo C st ∧
      q.area = (List.range C.net.nodes.length).countP (fun n => M.isCellRoot n == some true) ∧
      (∀ n, n < C.net.nodes.length → M.isCellRoot n = some true → n ∈ order ∧ n ≠ 0 ∧ C.net.isCi n = false) ∧
      ∀ n, M.isCellRoot n = some true → n < C.net.nodes.length → ∃ c, st.best[n]? = some c ∧ M.cellFanins n = some c.leaves := by
  obtain ⟨r, M, er, em, hcells, hroot, hleaf⟩ := derive_full hN hpo hff hlt hout hi hd
  refine ⟨M, ⟨bestOf C.net st, countCells C.net r order⟩, by rw [report, er, em], hcells, ?_, ?_, ?_, hleaf⟩
  · show bestOf C.net st = _
    rw [bestOf, hpo, List.take_length, glo, List.map_map]; rfl
  · show countCells C.net r order = _
    rw [countCells, List.countP_eq_length_filter]
    apply List.Perm.length_eq
    rw [List.perm_ext_iff_of_nodup (hnd.filter _) (List.nodup_range.filter _)]
    intro n
    rw [List.mem_filter, List.mem_filter, List.mem_range]
    have hs : (!(decide (r n = 0) || C.net.isCi n || n == 0)) = true ↔ Sel C.net r n := by
      simp [Sel, and_assoc]
    rw [hs]
    constructor
    · rintro ⟨h1, h2⟩
      exact ⟨hlt n h1, by simpa using (hroot n (hlt n h1)).2 ⟨h1, h2⟩⟩
    · rintro ⟨h1, h2⟩
      exact (hroot n h1).1 (by simpa using h2)
  · intro n hn hr
    obtain ⟨h1, h2⟩ := (hroot n hn).1 hr
    exact ⟨h1, h2.2.2, h2.2.1⟩

theorem cutDelay_le {st : MapSt Cost} {x : Nat} : ∀ {l : List Nat}, cutDelay st l ≤ x ↔ ∀ m ∈ l, bestDelay st m + 1 ≤ x := by
  intro l
  induction l with
  | nil => simp [cutDelay]
  | cons m l ih => rw [cutDelay, Nat.max_le, ih]; simp

theorem cutDelay_mem {st : MapSt Cost} : ∀ {l : List Nat}, l ≠ [] → ∃ m ∈ l, cutDelay st l = bestDelay st m + 1 := by
  intro l
  induction l with
  | nil => intro h; exact absurd rfl h
  | cons m l ih =>
    intro _
    rw [cutDelay]
    by_cases hl : l = []
    · subst hl; exact ⟨m, by simp, by simp [cutDelay]⟩
    · obtain ⟨k, hk, e⟩ := ih hl
      rcases Nat.le_total (bestDelay st m + 1) (cutDelay st l) with h | h
      · exact ⟨k, by simp [hk], by rw [Nat.max_eq_right h, e]⟩
      · exact ⟨m, by simp, by rw [Nat.max_eq_left h]⟩

/-! ### probing -/

/-- best cuts of gates are below the gate -/
def Low (N : Aig) (st : MapSt Cost) : Prop :=
  ∀ (n : Nat) c, st.best[n]? = some c → n = 0 ∨ n ∈ N.inputs ∨ ∀ x ∈ c.leaves, x < n

theorem Blank.low {z : Cost} {N : Aig} {st : MapSt Cost} (h : Blank z (0 :: N.inputs) st) : Low N st := by
  intro n c hc
  rcases h.leaves n c hc with e | e
  · exact Or.inr (Or.inr (by rw [e]; simp))
  · rcases List.mem_cons.1 e with e | e
    · exact Or.inl e
    · exact Or.inr (Or.inl e)

theorem loop_low {p : CutPs} (hp : PsOk p) {C : Choice} (hC : NoChoice C) (hN : C.net.Built) {r : Round} {l pre : List Nat} {S S' : St}
    (hff : FaninsFirst C.deps (pre ++ l)) (hnd : (pre ++ l).Nodup) (hlt : ∀ m ∈ l, m < C.net.nodes.length) (hi : StInv p C S.map)
    (hpre : ∀ m ∈ pre, Done p C S.map m) (hbase : ∀ m, m = 0 ∨ m ∈ C.net.inputs → Done p C S.map m)
    (hfirst : (∀ m ∈ l, S.req m = none) ∨ ∀ m ∈ l, Done p C S.map m) (hlow : Low C.net S.map) (e : loop p C r l S = some S') : Low C.net S'.map := by
  obtain ⟨_, d1, _, o1, _, _⟩ := loop_spec hp hC hN l pre S S' hff hnd hlt hi hpre hbase hfirst e
  intro n c hc
  by_cases hn : n ∈ l
  · by_cases h0 : n = 0
    · exact Or.inl h0
    · by_cases hci : C.net.isCi n = true
      · exact Or.inr (Or.inl (hN.wf.ci_input h0 hci))
      · obtain ⟨nd, _, hg⟩ := gate_of hN (hlt n hn) h0 (by simpa using hci)
        obtain ⟨s, b, ok⟩ := d1 n hn
        have := ok.best
        rw [hc] at this
        obtain rfl := Option.some.inj this
        rcases ok.bok.kind with hk | hk
        · exact absurd hk (ok.gate (hC.get (hlt n hn)) _ _ hg)
        · exact Or.inr (Or.inr hk.2.2)
  · rw [o1 n hn] at hc
    exact hlow n c hc

theorem rounds_low {p : CutPs} (hp : PsOk p) {C : Choice} (hC : NoChoice C) (hN : C.net.Built) {order : List Nat}
    (hff : FaninsFirst C.deps order) (hnd : order.Nodup) (hlt : ∀ m ∈ order, m < C.net.nodes.length) :
    ∀ (rs : List Round) (S S' : St), StInv p C S.map → (∀ m, m = 0 ∨ m ∈ C.net.inputs → Done p C S.map m) →
    ((∀ m ∈ order, S.req m = none) ∨ ∀ m ∈ order, Done p C S.map m) → Low C.net S.map → rounds p C order rs S = some S' →
    StInv p C S'.map ∧ (∀ m, m = 0 ∨ m ∈ C.net.inputs → Done p C S'.map m) ∧
      ((∀ m ∈ order, S'.req m = none) ∨ ∀ m ∈ order, Done p C S'.map m) ∧ Low C.net S'.map := by
  intro rs
  induction rs with
  | nil => intro S S' h1 h2 h3 h4 e; obtain rfl := Option.some.inj e; exact ⟨h1, h2, h3, h4⟩
  | cons r rs ih =>
    intro S S' h1 h2 h3 h4 e
    rw [rounds] at e
    obtain ⟨r1, r2⟩ : (if r.preprocess = true ∧ r.first = false then resetRefs C S else S).map = S.map ∧
        (if r.preprocess = true ∧ r.first = false then resetRefs C S else S).req = S.req := by
      split <;> exact ⟨rfl, rfl⟩
    generalize (if r.preprocess = true ∧ r.first = false then resetRefs C S else S) = S0 at e r1 r2
    rw [← r1] at h1 h2 h3 h4
    rw [← r2] at h3
    cases e1 : loop p C r order S0 with
    | none => rw [e1] at e; simp at e
    | some S1 =>
      rw [e1] at e
      dsimp only at e
      cases e2 : required C r order S1 with
      | none => rw [e2] at e; simp at e
      | some S2 =>
        rw [e2] at e
        dsimp only at e
        have b := round_spec hp hC hN hff hnd hlt h1 h2 h3 e1 e2
        have hl := loop_low hp hC hN (pre := []) hff hnd hlt h1 (by simp) h2 h3 h4 e1
        exact ih S2 S' b.inv b.base (Or.inr b.done) (by rw [(required_keeps e2).1]; exact hl) e

/-- probing a cut ends and leaves the counters unchanged, so that `exact` is the value it computes -/
theorem probing_pure {C : Choice} (hN : C.net.Built) (hpi : C.net.numPis = C.net.inputs.length) {S : St} (hlow : Low C.net S.map)
    (cost : List Nat → Nat) (cut : List Nat) (hcut : ∀ x ∈ cut, x < C.net.nodes.length) :
    ∃ a : Nat, cutDerefed (cover C S.map) cost (C.net.nodes.length + 1) cut S.refs = some (S.refs, a) ∧ exact C S cost cut = a := by
  have hbelow : (cover C S.map).Below id := by
    intro n hn m hm
    simp only [cover] at hm hn
    cases hb : S.map.best[n]? with
    | none => rw [hb] at hm; simp at hm
    | some c =>
      rw [hb] at hm
      simp only [Cover.term, Bool.or_eq_false_iff, beq_eq_false_iff_ne] at hn
      rcases hlow n c hb with h | h | h
      · exact absurd h hn.2
      · exact absurd (Balance.isPi_of_input hN.wf hpi.symm h) (by simp [hn.1])
      · exact h m hm
  obtain ⟨⟨w, c, _, h2⟩, _⟩ := C37_probe_partial (cover C S.map) cost id hbelow C.net.nodes.length cut hcut S.refs
  exact ⟨_, h2, by rw [exact, h2]⟩

end Verif.Mapper.Timed
