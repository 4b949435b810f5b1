import Verif.Mapping.TimedProof

set_option autoImplicit false

/-!
# Delays of the LUT mapper (helper lemmas)
-/

namespace Verif.Mapper.Timed
open Cuts
open Topo (Tfi FaninsFirst)

theorem bestDelay_congr {st st' : MapSt Cost} {n : Nat} (h : st'.best[n]? = st.best[n]?) : bestDelay st' n = bestDelay st n := by
  rw [bestDelay, bestDelay, h]

theorem cutDelay_congr {st st' : MapSt Cost} : ∀ {l : List Nat}, (∀ x ∈ l, st'.best[x]? = st.best[x]?) → cutDelay st' l = cutDelay st l := by
  intro l
  induction l with
  | nil => intro _; rfl
  | cons x l ih =>
    intro h
    rw [cutDelay, cutDelay, bestDelay_congr (h x (by simp)), ih fun y hy => h y (by simp [hy])]

/-- what one gate does to the best cuts -/
theorem node_best {p : CutPs} (hp : PsOk p) {C : Choice} (hC : NoChoice C) (hN : C.net.Built) {r : Round} {S S' : St} {n : Nat}
    (hn : n < C.net.nodes.length) (h0 : n ≠ 0) (hci : C.net.isCi n = false) (hi : StInv p C S.map) {a b : Sig} (hg : C.net.IsGate n a b)
    (ha : Done p C S.map a.index) (hb : Done p C S.map b.index) (e : node p C r S n = some S') :
    (∀ m, m ≠ n → S'.map.best[m]? = S.map.best[m]?) ∧
    ((S'.map.best[n]? = S.map.best[n]? ∧ S.req n ≠ none) ∨
      ∃ c, S'.map.best[n]? = some c ∧ inTime (S.req n) c = true ∧ c.data.cost.delay = cutDelay S.map c.leaves) := by
  obtain ⟨_, h, hacc, _, ⟨g, hg1, hg2⟩, hm⟩ := node_map e
  have hm := hm false (by simp)
  rw [mapNode, if_neg (by simp [h0, hci]), hC.get hn] at hm
  cases h1 : mapAnd p C.net h false S.map n with
  | none => rw [h1] at hm; simp at hm
  | some st1 =>
    rw [h1] at hm
    dsimp only at hm
    rw [if_neg (by simp)] at hm
    obtain ⟨b1, b2⟩ := mapAnd_best hp hN hg h false hg1 hi ha hb h1
    obtain rfl := Option.some.inj hm
    refine ⟨b1, ?_⟩
    rcases b2 with ⟨b2, c, hc⟩ | ⟨c, hc, hacc', hcost⟩
    · refine Or.inl ⟨b2, fun hr => ?_⟩
      rw [hacc, hr] at hc
      simp [inTime] at hc
    · refine Or.inr ⟨c, hc, by rw [← hacc]; simpa using hacc', by rw [hcost, hg2]⟩

/-- what a round does -/
theorem loop_spec {p : CutPs} (hp : PsOk p) {C : Choice} (hC : NoChoice C) (hN : C.net.Built) {r : Round} :
    ∀ (l pre : List Nat) (S S' : St), FaninsFirst C.deps (pre ++ l) → (pre ++ l).Nodup → (∀ m ∈ l, m < C.net.nodes.length) →
    StInv p C S.map → (∀ m ∈ pre, Done p C S.map m) → (∀ m, m = 0 ∨ m ∈ C.net.inputs → Done p C S.map m) →
    ((∀ m ∈ l, S.req m = none) ∨ ∀ m ∈ l, Done p C S.map m) → loop p C r l S = some S' →
    StInv p C S'.map ∧ (∀ m ∈ l, Done p C S'.map m) ∧ (∀ m, Done p C S.map m → Done p C S'.map m) ∧
    (∀ m, m ∉ l → S'.map.best[m]? = S.map.best[m]?) ∧
    (∀ m ∈ l, C.net.isCi m = true ∨ m = 0 → S'.map.best[m]? = S.map.best[m]?) ∧
    ∀ m ∈ l, m ≠ 0 → C.net.isCi m = false → (S'.map.best[m]? = S.map.best[m]? ∧ S.req m ≠ none) ∨
      ∃ c, S'.map.best[m]? = some c ∧ inTime (S.req m) c = true ∧ c.data.cost.delay = cutDelay S'.map c.leaves := by
  intro l
  induction l with
  | nil =>
    intro pre S S' _ _ _ hi _ _ _ e
    obtain rfl := Option.some.inj e
    exact ⟨hi, by simp, fun _ h => h, fun _ _ => rfl, by simp, by simp⟩
  | cons n l ih =>
    intro pre S S' hff hnd hlt hi hpre hbase hfirst e
    have hn := hlt n (by simp)
    have hn' : n ∉ l := fun h => by
      have := (List.nodup_append.1 hnd).2.1
      exact (List.nodup_cons.1 this).1 h
    rw [loop] at e
    cases h1 : node p C r S n with
    | none => rw [h1] at e; simp at e
    | some S1 =>
      rw [h1] at e
      dsimp only at e
      obtain ⟨q1, h, _, _, _, hm⟩ := node_map h1
      have hstep : StInv p C S1.map ∧ Done p C S1.map n ∧ ∀ m, Done p C S.map m → Done p C S1.map m := by
        have key : ∀ first : Bool, (first = true → S.req n = none) → (first = true ∨ ∀ m ∈ [n], Done p C S.map m) →
            StInv p C S1.map ∧ Done p C S1.map n ∧ ∀ m, Done p C S.map m → Done p C S1.map m := by
          intro first hf hf'
          have hff1 : FaninsFirst C.deps (pre ++ [n]) := by
            intro l1 k l2 e' m hm
            exact hff l1 k (l2 ++ l) (by rw [← List.cons_append, ← List.append_assoc, ← e', List.append_assoc]; rfl) m hm
          obtain ⟨a1, a2, a3⟩ := mapRound_spec hp hN hC.ordered hC.sound (fun _ => h) first [n] pre S.map S1.map hff1
            (by simpa using hn) hi hpre hbase hf' (by rw [mapRound, hm first hf]; rfl)
          exact ⟨a1, a2 n (by simp), a3⟩
        rcases hfirst with hf | hf
        · exact key true (fun _ => hf n (by simp)) (Or.inl rfl)
        · exact key false (by simp) (Or.inr (by simpa using hf n (by simp)))
      obtain ⟨i1, d1, m1⟩ := hstep
      obtain ⟨i2, d2, m2, o2, c2, g2⟩ := ih (pre ++ [n]) S1 S' (by rw [List.append_assoc]; exact hff) (by rw [List.append_assoc]; exact hnd)
        (fun m hm => hlt m (by simp [hm])) i1
        (by
          intro m hm
          rcases List.mem_append.1 hm with hm | hm
          · exact m1 m (hpre m hm)
          · rw [List.mem_singleton.1 hm]; exact d1)
        (fun m hm => m1 m (hbase m hm))
        (hfirst.imp (fun h m hm => by rw [q1]; exact h m (by simp [hm])) fun h m hm => m1 m (h m (by simp [hm]))) e
      have hbest : (∀ m, m ≠ n → S1.map.best[m]? = S.map.best[m]?) ∧ (C.net.isCi n = true ∨ n = 0 → S1.map.best[n]? = S.map.best[n]?) ∧
          (n ≠ 0 → C.net.isCi n = false → (S1.map.best[n]? = S.map.best[n]? ∧ S.req n ≠ none) ∨
            ∃ c, S1.map.best[n]? = some c ∧ inTime (S.req n) c = true ∧ c.data.cost.delay = cutDelay S.map c.leaves) := by
        by_cases hc : C.net.isCi n = true ∨ n = 0
        · rw [node, if_pos hc] at h1
          obtain rfl := Option.some.inj h1
          refine ⟨fun _ _ => rfl, fun _ => rfl, fun h0 hci => ?_⟩
          rcases hc with hc | hc
          · rw [hci] at hc; simp at hc
          · exact absurd hc h0
        · have hc' := hc
          rw [not_or] at hc'
          have hci : C.net.isCi n = false := by simpa using hc'.1
          obtain ⟨nd, _, hg⟩ := gate_of hN hn hc'.2 hci
          have hk := deps_of_gate hN hg
          obtain ⟨b1, b2⟩ := node_best hp hC hN hn hc'.2 hci hi hg (hpre _ (hff pre n l rfl _ hk.1)) (hpre _ (hff pre n l rfl _ hk.2)) h1
          exact ⟨b1, fun h => absurd h hc, fun _ _ => b2⟩
      obtain ⟨b1, b2, b3⟩ := hbest
      refine ⟨i2, ?_, fun m hm => m2 m (m1 m hm), ?_, ?_, ?_⟩
      · intro m hm
        rcases List.mem_cons.1 hm with rfl | hm
        · exact m2 _ d1
        · exact d2 m hm
      · intro m hm
        rw [List.mem_cons, not_or] at hm
        rw [o2 m hm.2, b1 m hm.1]
      · intro m hm hc
        rcases List.mem_cons.1 hm with rfl | hml
        · rw [o2 m hn', b2 hc]
        · rw [c2 m hml hc, b1 m (by rintro rfl; exact hn' hml)]
      · intro m hm h0 hci
        rcases List.mem_cons.1 hm with rfl | hml
        · rw [o2 m hn']
          rcases b3 h0 hci with b | ⟨c, hc, ht, hd⟩
          · exact Or.inl b
          · refine Or.inr ⟨c, hc, ht, ?_⟩
            rw [hd]
            obtain ⟨s, b, ok⟩ := d1
            have hcb : b = c := by
              have := ok.best
              rw [hc] at this
              exact (Option.some.inj this).symm
            subst hcb
            obtain ⟨nd, _, hg⟩ := gate_of hN hn h0 hci
            have hleaf : ∀ x ∈ b.leaves, x ∈ pre := by
              intro x hx
              refine hff.before rfl (ok.bok.tfi x hx) ?_
              rcases ok.bok.kind with hk | hk
              · exact absurd hk (ok.gate (hC.get hn) _ _ hg)
              · have := hk.2.2 x hx; omega
            symm
            apply cutDelay_congr
            intro x hx
            have hxn : x ∉ m :: l := fun hxl => (List.nodup_append.1 hnd).2.2 x (hleaf x hx) x hxl rfl
            rw [List.mem_cons, not_or] at hxn
            rw [o2 x hxn.2, b1 x hxn.1]
        · rcases g2 m hml h0 hci with ⟨b, hb⟩ | ⟨c, hc, ht, hd⟩
          · refine Or.inl ⟨by rw [b, b1 m (by rintro rfl; exact hn' hml)], by rw [← q1]; exact hb⟩
          · exact Or.inr ⟨c, hc, by rw [← q1]; exact ht, hd⟩

/-- the largest delay of an output -/
def glo (C : Choice) (st : MapSt Cost) : Nat := ((C.net.outputs.map (·.index)).map (bestDelay st)).foldl max 0

theorem foldl_max_le {l : List Nat} : ∀ {a x : Nat}, l.foldl max a ≤ x ↔ a ≤ x ∧ ∀ y ∈ l, y ≤ x := by
  induction l with
  | nil => intro a x; simp
  | cons b l ih =>
    intro a x
    rw [List.foldl_cons, ih]
    simp only [List.mem_cons, forall_eq_or_imp, Nat.max_le]
    tauto

theorem foldl_max_mem {l : List Nat} : ∀ {a : Nat}, l.foldl max a = a ∨ l.foldl max a ∈ l := by
  induction l with
  | nil => intro a; simp
  | cons b l ih =>
    intro a
    rw [List.foldl_cons]
    rcases ih (a := max a b) with h | h
    · rw [h]
      rcases Nat.le_total a b with hab | hab
      · rw [Nat.max_eq_right hab]; simp
      · rw [Nat.max_eq_left hab]; simp
    · exact Or.inr (List.mem_cons_of_mem _ h)

theorem glo_le {C : Choice} {st : MapSt Cost} {x : Nat} : glo C st ≤ x ↔ ∀ o ∈ C.net.outputs, bestDelay st o.index ≤ x := by
  rw [glo, foldl_max_le]
  simp

/-- all required times of outputs are at most `x` -/
def ReqLe (C : Choice) (q : Nat → Option Int) (x : Int) : Prop := ∀ o ∈ C.net.outputs, ∃ y, q o.index = some y ∧ y ≤ x

/-- required times only become smaller -/
def Lower (q q' : Nat → Option Int) : Prop := ∀ n x, q n = some x → ∃ y, q' n = some y ∧ y ≤ x

theorem Lower.refl (q : Nat → Option Int) : Lower q q := fun _ x h => ⟨x, h, le_rfl⟩

theorem Lower.trans {q q1 q2 : Nat → Option Int} (h : Lower q q1) (h' : Lower q1 q2) : Lower q q2 := by
  intro n x hx
  obtain ⟨y, hy, hle⟩ := h n x hx
  obtain ⟨z, hz, hle'⟩ := h' n y hy
  exact ⟨z, hz, hle'.trans hle⟩

theorem Lower.leaves (x : Option Int) : ∀ (l : List Nat) (q : Nat → Option Int),
    Lower q (l.foldl (fun q' leaf => setReq q' leaf (minReq (q' leaf) x)) q) := by
  intro l
  induction l with
  | nil => intro q; exact Lower.refl q
  | cons m l ih =>
    intro q
    rw [List.foldl_cons]
    refine Lower.trans ?_ (ih _)
    intro n y hy
    simp only [setReq]
    by_cases h : n = m
    · subst h
      rw [if_pos rfl, hy]
      cases x with
      | none => exact ⟨y, rfl, le_rfl⟩
      | some z => exact ⟨min y z, rfl, min_le_left _ _⟩
    · rw [if_neg h]; exact ⟨y, hy, le_rfl⟩

theorem propagate_lower {C : Choice} (hC : NoChoice C) {best : Nat → List Nat} {refs : RefDeref.Vals} : ∀ (l : List Nat) (q q' : Nat → Option Int),
    (∀ m ∈ l, m < C.net.nodes.length) → propagate C best refs l q = some q' → Lower q q' := by
  intro l
  induction l with
  | nil => intro q q' _ e; obtain rfl := Option.some.inj e; exact Lower.refl q
  | cons n l ih =>
    intro q q' hl e
    rw [propagate] at e
    split at e
    · exact ih q q' (fun m hm => hl m (by simp [hm])) e
    · rw [hC.get (hl n (by simp))] at e
      dsimp only [Choice.chain] at e
      exact (Lower.leaves _ _ _).trans (ih _ q' (fun m hm => hl m (by simp [hm])) e)

theorem setAll {x : Option Int} : ∀ (l : List Nat) (q : Nat → Option Int) (n : Nat),
    (l.foldl (fun q n => setReq q n x) q) n = if n ∈ l then x else q n := by
  intro l
  induction l with
  | nil => intro q n; simp
  | cons m l ih =>
    intro q n
    rw [List.foldl_cons, ih]
    by_cases h : n ∈ l
    · simp [h]
    · by_cases h' : n = m
      · subst h'; simp [setReq]
      · simp [h, h', setReq]

theorem required_le {C : Choice} (hC : NoChoice C) {r : Round} {order : List Nat} (hlt : ∀ m ∈ order, m < C.net.nodes.length) {S S' : St}
    (e : required C r order S = some S') : ReqLe C S'.req (glo C S'.map) := by
  have hk := (required_keeps e).1
  rw [hk]
  rw [required] at e
  dsimp only at e
  split at e
  · simp at e
  · have hq : ∀ o ∈ C.net.outputs, ((C.net.outputs.map (·.index)).foldl (fun q n => setReq q n (some (glo C S.map : Int))) (fun _ => none)) o.index =
        some (glo C S.map : Int) := by
      intro o ho
      rw [setAll, if_pos (List.mem_map_of_mem ho)]
    split at e
    · obtain rfl := Option.some.inj e
      intro o ho
      exact ⟨_, hq o ho, le_rfl⟩
    · split at e
      · simp at e
      · rename_i q h
        obtain rfl := Option.some.inj e
        intro o ho
        exact propagate_lower hC _ _ _ (fun m hm => hlt m (List.mem_reverse.1 hm)) h _ _ (hq o ho)

/-- after a round the delays of the outputs meet the required times -/
theorem loop_glo {p : CutPs} (hp : PsOk p) {C : Choice} (hC : NoChoice C) (hN : C.net.Built) {r : Round} {order : List Nat}
    (hff : FaninsFirst C.deps order) (hnd : order.Nodup) (hlt : ∀ m ∈ order, m < C.net.nodes.length) {S S' : St}
    (hi : StInv p C S.map) (hb : ∀ m, m = 0 ∨ m ∈ C.net.inputs → Done p C S.map m) (hd : ∀ m ∈ order, Done p C S.map m)
    (hq : ReqLe C S.req (glo C S.map)) (e : loop p C r order S = some S') : glo C S'.map ≤ glo C S.map := by
  obtain ⟨_, _, _, o1, c1, g1⟩ := loop_spec hp hC hN order [] S S' hff hnd hlt hi (by simp) hb (Or.inr hd) e
  rw [glo_le]
  intro o ho
  have hold : bestDelay S.map o.index ≤ glo C S.map := glo_le.1 le_rfl o ho
  by_cases hm : o.index ∈ order
  · by_cases hc : C.net.isCi o.index = true ∨ o.index = 0
    · rw [bestDelay_congr (c1 _ hm hc)]; exact hold
    · rw [not_or] at hc
      rcases g1 _ hm hc.2 (by simpa using hc.1) with ⟨h, _⟩ | ⟨c, hbest, ht, _⟩
      · rw [bestDelay_congr h]; exact hold
      · obtain ⟨y, hy, hle⟩ := hq o ho
        rw [hy, inTime, decide_eq_true_iff] at ht
        rw [bestDelay, hbest]
        dsimp only
        omega
  · rw [bestDelay_congr (o1 _ hm)]; exact hold

/-- between rounds -/
structure Between (p : CutPs) (C : Choice) (order : List Nat) (S : St) : Prop where
  inv : StInv p C S.map
  base : ∀ m, m = 0 ∨ m ∈ C.net.inputs → Done p C S.map m
  done : ∀ m ∈ order, Done p C S.map m
  req : ReqLe C S.req (glo C S.map)

/-- one round -/
theorem round_spec {p : CutPs} (hp : PsOk p) {C : Choice} (hC : NoChoice C) (hN : C.net.Built) {r : Round} {order : List Nat}
    (hff : FaninsFirst C.deps order) (hnd : order.Nodup) (hlt : ∀ m ∈ order, m < C.net.nodes.length) {S S1 S2 : St}
    (hi : StInv p C S.map) (hb : ∀ m, m = 0 ∨ m ∈ C.net.inputs → Done p C S.map m)
    (hf : (∀ m ∈ order, S.req m = none) ∨ ∀ m ∈ order, Done p C S.map m) (e1 : loop p C r order S = some S1)
    (e2 : required C r order S1 = some S2) : Between p C order S2 := by
  obtain ⟨i1, d1, m1, _⟩ := loop_spec hp hC hN order [] S S1 hff hnd hlt hi (by simp) hb hf e1
  have hk := (required_keeps e2).1
  exact ⟨by rw [hk]; exact i1, by rw [hk]; exact fun m hm => m1 m (hb m hm), by rw [hk]; exact d1, required_le hC hlt e2⟩

theorem rounds_glo {p : CutPs} (hp : PsOk p) {C : Choice} (hC : NoChoice C) (hN : C.net.Built) {order : List Nat}
    (hff : FaninsFirst C.deps order) (hnd : order.Nodup) (hlt : ∀ m ∈ order, m < C.net.nodes.length) :
    ∀ (rs : List Round) (S S' : St), Between p C order S → rounds p C order rs S = some S' →
    Between p C order S' ∧ glo C S'.map ≤ glo C S.map := by
  intro rs
  induction rs with
  | nil => intro S S' h e; obtain rfl := Option.some.inj e; exact ⟨h, le_rfl⟩
  | cons r rs ih =>
    intro S S' h e
    rw [rounds] at e
    obtain ⟨r1, r2⟩ : (if r.preprocess = true ∧ r.first = false then resetRefs C S else S).map = S.map ∧
        (if r.preprocess = true ∧ r.first = false then resetRefs C S else S).req = S.req := by
      split <;> exact ⟨rfl, rfl⟩
    generalize (if r.preprocess = true ∧ r.first = false then resetRefs C S else S) = S0 at e r1 r2
    have h0 : Between p C order S0 := ⟨by rw [r1]; exact h.inv, by rw [r1]; exact h.base, by rw [r1]; exact h.done, by rw [r1, r2]; exact h.req⟩
    cases h1 : loop p C r order S0 with
    | none => rw [h1] at e; simp at e
    | some S1 =>
      rw [h1] at e
      dsimp only at e
      cases h2 : required C r order S1 with
      | none => rw [h2] at e; simp at e
      | some S2 =>
        rw [h2] at e
        dsimp only at e
        have b2 := round_spec hp hC hN hff hnd hlt h0.inv h0.base (Or.inr h0.done) h1 h2
        have g1 := loop_glo hp hC hN hff hnd hlt h0.inv h0.base h0.done h0.req h1
        obtain ⟨b3, g3⟩ := ih S2 S' b2 e
        refine ⟨b3, g3.trans ?_⟩
        rw [(required_keeps h2).1, ← r1]
        exact g1

theorem rounds_append {p : CutPs} {C : Choice} {order : List Nat} : ∀ (rs rs' : List Round) (S S' : St),
    rounds p C order (rs ++ rs') S = some S' → ∃ S1, rounds p C order rs S = some S1 ∧ rounds p C order rs' S1 = some S' := by
  intro rs
  induction rs with
  | nil => intro rs' S S' e; exact ⟨S, rfl, e⟩
  | cons r rs ih =>
    intro rs' S S' e
    rw [List.cons_append, rounds] at e
    rw [rounds]
    cases h1 : loop p C r order (if r.preprocess = true ∧ r.first = false then resetRefs C S else S) with
    | none => rw [h1] at e; simp at e
    | some S1 =>
      rw [h1] at e
      dsimp only at e ⊢
      cases h2 : required C r order S1 with
      | none => rw [h2] at e; simp at e
      | some S2 =>
        rw [h2] at e
        exact ih rs' S2 S' e

end Verif.Mapper.Timed
