import Mathlib.Algebra.BigOperators.Group.Finset.Piecewise
import Mathlib.Algebra.Order.BigOperators.Group.Finset
import Verif.Mapping.TimedReport

set_option autoImplicit false

/-!
# References and required times of the LUT mapper (helper lemmas)
-/

namespace Verif.Mapper.Timed
open Cuts
open Topo (Tfi FaninsFirst)
open RefDeref (Vals)

/-! ### references -/

/-- not the constant and not an input -/
def Inner (N : Aig) (n : Nat) : Prop := n ≠ 0 ∧ N.isCi n = false

instance (N : Aig) (n : Nat) : Decidable (Inner N n) := inferInstanceAs (Decidable (_ ∧ _))

theorem Inner.neg {N : Aig} {n : Nat} : ¬ (N.isCi n = true ∨ n = 0) ↔ Inner N n := by
  rw [Inner, not_or, Bool.not_eq_true]; exact and_comm

/-- references of `x` from the marked inner nodes -/
def uses (N : Aig) (order : List Nat) (best : Nat → List Nat) (v : Vals) (x : Nat) : Nat :=
  ∑ m ∈ order.toFinset, if v m ≠ 0 ∧ Inner N m then (best m).count x else 0

theorem uses_congr {N : Aig} {order : List Nat} {best : Nat → List Nat} {v w : Vals} (h : ∀ m, Inner N m → (w m ≠ 0 ↔ v m ≠ 0)) (x : Nat) :
    uses N order best w x = uses N order best v x := by
  refine Finset.sum_congr rfl fun m _ => ?_
  by_cases hi : Inner N m
  · simp only [h m hi]
  · simp [hi]

theorem uses_mark {N : Aig} {order : List Nat} {best : Nat → List Nat} {v w : Vals} {n : Nat} (hn : n ∈ order) (hi : Inner N n) (h0 : v n = 0) (h1 : w n ≠ 0)
    (h : ∀ m, m ≠ n → (w m ≠ 0 ↔ v m ≠ 0)) (x : Nat) : uses N order best w x = uses N order best v x + (best n).count x := by
  have : ∀ m, (if w m ≠ 0 ∧ Inner N m then (best m).count x else 0) =
      (if v m ≠ 0 ∧ Inner N m then (best m).count x else 0) + if m = n then (best n).count x else 0 := by
    intro m
    by_cases hm : m = n
    · subst hm
      rw [if_pos ⟨h1, hi⟩, if_neg (fun h => h.1 h0), if_pos rfl, Nat.zero_add]
    · simp only [h m hm, if_neg hm, Nat.add_zero]
  rw [uses, Finset.sum_congr rfl fun m _ => this m, Finset.sum_add_distrib, Finset.sum_ite_eq', if_pos (List.mem_toFinset.2 hn)]
  rfl

/-- the counters, up to references that are still to be counted -/
def Counted (N : Aig) (order : List Nat) (best : Nat → List Nat) (T : Nat → Nat) (v : Vals) (pend : Nat → Nat) : Prop :=
  ∀ x, (v x).toNat + pend x = T x + uses N order best v x

theorem add_toNat {b : BitVec 32} (h : b.toNat + 1 < 2 ^ 32) : (b + 1).toNat = b.toNat + 1 := by
  rw [BitVec.toNat_add, Nat.mod_eq_of_lt]
  · rfl
  · exact h

theorem markCur_counted {C : Choice} {order : List Nat} {best : Nat → List Nat} {T : Nat → Nat} (hT : ∀ v x, T x + uses C.net order best v x < 2 ^ 32)
    (hin : ∀ n ∈ order, Inner C.net n → ∀ m ∈ best n, m = 0 ∨ m ∈ order) : ∀ (f n : Nat) (v v' : Vals) (pend : Nat → Nat), n = 0 ∨ n ∈ order →
    markCur C best f n v = some v' → Counted C.net order best T v (fun x => pend x + if x = n then 1 else 0) → Counted C.net order best T v' pend := by
  intro f
  induction f with
  | zero => intro n v v' pend _ e; simp [markCur] at e
  | succ f ih =>
    intro n v v' pend hn e hc
    have hn1 : (v n + 1).toNat = (v n).toNat + 1 := by
      refine add_toNat ?_
      have h1 := hc n
      dsimp only at h1
      have h2 := hT v n
      rw [if_pos rfl] at h1
      omega
    have hne : v n + 1 ≠ 0 := fun h => by rw [h] at hn1; simp at hn1
    rw [markCur] at e
    split at e
    · rename_i hcase
      obtain rfl := Option.some.inj e
      have hu : ∀ x, uses C.net order best (v.add n 1) x = uses C.net order best v x := by
        refine uses_congr fun m hm => ?_
        rw [RefDeref.Vals.add]
        by_cases hmn : m = n
        · subst hmn
          rw [if_pos rfl]
          refine ⟨fun _ => ?_, fun _ => hne⟩
          rcases hcase with h | h | h
          · exact h
          · rw [hm.2] at h; simp at h
          · exact absurd h hm.1
        · rw [if_neg hmn]
      intro x
      rw [hu]
      have h1 := hc x
      dsimp only at h1
      simp only [RefDeref.Vals.add]
      by_cases hx : x = n
      · subst hx
        rw [if_pos rfl] at h1 ⊢
        rw [hn1]; omega
      · rw [if_neg hx] at h1 ⊢
        exact h1
    · rename_i hcase
      rw [not_or, not_ne_iff, Inner.neg] at hcase
      have hno : n ∈ order := hn.resolve_left hcase.2.1
      have hkids : ∀ (ls : List Nat) (v v' : Vals) (pend : Nat → Nat), (∀ m ∈ ls, m = 0 ∨ m ∈ order) →
          ls.foldl (fun v l => v.bind (markCur C best f l)) (some v) = some v' → Counted C.net order best T v (fun x => pend x + ls.count x) →
          Counted C.net order best T v' pend := by
        intro ls
        induction ls with
        | nil => intro v v' pend _ e hc; obtain rfl := Option.some.inj e; simpa using hc
        | cons l ls ihl =>
          intro v v' pend hl e hc
          rw [List.foldl_cons, Option.bind_some] at e
          cases h1 : markCur C best f l v with
          | none =>
            rw [h1] at e
            have : ∀ ls : List Nat, ls.foldl (fun v l => v.bind (markCur C best f l)) (none : Option Vals) = none := by
              intro ls; induction ls with
              | nil => rfl
              | cons _ _ ih => rw [List.foldl_cons]; exact ih
            rw [this] at e; simp at e
          | some w =>
            rw [h1] at e
            refine ihl w v' pend (fun m hm => hl m (by simp [hm])) e (ih l v w _ (hl l (by simp)) h1 ?_)
            intro x
            rw [← hc x]
            dsimp only
            rw [List.count_cons]
            by_cases hx : x = l
            · subst hx; simp; omega
            · have : ¬ l = x := fun h => hx h.symm
              simp [hx, this]
      refine hkids (best n) (v.add n 1) v' pend (hin n hno hcase.2) e ?_
      have hu := uses_mark (best := best) (v := v) (w := v.add n 1) hno hcase.2 hcase.1 (by rw [RefDeref.Vals.add, if_pos rfl]; exact hne)
        (by intro m hm; rw [RefDeref.Vals.add, if_neg hm])
      intro x
      rw [hu]
      have h1 := hc x
      dsimp only at h1
      simp only [RefDeref.Vals.add]
      by_cases hx : x = n
      · subst hx
        rw [if_pos rfl] at h1 ⊢
        rw [hn1]; omega
      · rw [if_neg hx] at h1 ⊢
        omega

theorem foldl_none {f : Nat → Vals → Option Vals} (ls : List Nat) : ls.foldl (fun v l => v.bind (f l)) (none : Option Vals) = none := by
  induction ls with
  | nil => rfl
  | cons _ _ ih => rw [List.foldl_cons]; exact ih

theorem foldl_bind {f : Nat → Vals → Option Vals} (P : Vals → Prop) (ls : List Nat) (h : ∀ l ∈ ls, ∀ v v', f l v = some v' → P v → P v') :
    ∀ v v', ls.foldl (fun v l => v.bind (f l)) (some v) = some v' → P v → P v' := by
  induction ls with
  | nil => intro v v' e hv; obtain rfl := Option.some.inj e; exact hv
  | cons l ls ih =>
    intro v v' e hv
    rw [List.foldl_cons, Option.bind_some] at e
    cases h1 : f l v with
    | none => rw [h1, foldl_none] at e; simp at e
    | some w =>
      rw [h1] at e
      exact ih (fun l hl => h l (by simp [hl])) w v' e (h l (by simp) v w h1 hv)

/-- only nodes with a property that is passed on to leaves are marked -/
theorem markCur_only {C : Choice} {best : Nat → List Nat} {P : Nat → Prop} (hP : ∀ n, P n → Inner C.net n → ∀ m ∈ best n, P m) :
    ∀ (f n : Nat) (v v' : Vals), markCur C best f n v = some v' → P n → (∀ x, v x ≠ 0 → P x) → ∀ x, v' x ≠ 0 → P x := by
  intro f
  induction f with
  | zero => intro n v v' e; simp [markCur] at e
  | succ f ih =>
    intro n v v' e hn hv
    have h1 : ∀ x, v.add n 1 x ≠ 0 → P x := by
      intro x hx
      rw [RefDeref.Vals.add] at hx
      by_cases hxn : x = n
      · subst hxn; exact hn
      · rw [if_neg hxn] at hx; exact hv x hx
    rw [markCur] at e
    split at e
    · obtain rfl := Option.some.inj e; exact h1
    · rename_i hcase
      rw [not_or, Inner.neg] at hcase
      exact foldl_bind (fun v => ∀ x, v x ≠ 0 → P x) (best n) (fun l hl v v' e hv => ih l v v' e (hP n hn hcase.2 l hl) hv) _ _ e h1

/-- marking ends if the leaves are below the node -/
theorem markCur_total {C : Choice} {best : Nat → List Nat} {P : Nat → Prop} (hP : ∀ n, P n → Inner C.net n → ∀ m ∈ best n, P m ∧ m < n) :
    ∀ (f n : Nat) (v : Vals), P n → n < f → ∃ v', markCur C best f n v = some v' := by
  intro f
  induction f with
  | zero => intro n v _ h; omega
  | succ f ih =>
    intro n v hn hf
    rw [markCur]
    split
    · exact ⟨_, rfl⟩
    · rename_i hcase
      rw [not_or, Inner.neg] at hcase
      have : ∀ (ls : List Nat) (v : Vals), (∀ m ∈ ls, P m ∧ m < n) → ∃ v', ls.foldl (fun v l => v.bind (markCur C best f l)) (some v) = some v' := by
        intro ls
        induction ls with
        | nil => intro v _; exact ⟨v, rfl⟩
        | cons l ls ihl =>
          intro v hl
          obtain ⟨w, hw⟩ := ih l v (hl l (by simp)).1 (by have := (hl l (by simp)).2; omega)
          rw [List.foldl_cons, Option.bind_some, hw]
          exact ihl w fun m hm => hl m (by simp [hm])
      exact this _ _ (hP n hn hcase.2)

/-! ### required times -/

theorem leaves_other {x : Option Int} {n : Nat} : ∀ (l : List Nat) (q : Nat → Option Int), n ∉ l →
    (l.foldl (fun q' leaf => setReq q' leaf (minReq (q' leaf) x)) q) n = q n := by
  intro l
  induction l with
  | nil => intro q _; rfl
  | cons m l ih =>
    intro q hn
    rw [List.mem_cons, not_or] at hn
    rw [List.foldl_cons, ih _ hn.2, setReq, if_neg hn.1]

theorem leaves_le {x : Int} {n : Nat} : ∀ (l : List Nat) (q : Nat → Option Int), n ∈ l →
    ∃ y, (l.foldl (fun q' leaf => setReq q' leaf (minReq (q' leaf) (some x))) q) n = some y ∧ y ≤ x := by
  intro l
  induction l with
  | nil => intro q hn; simp at hn
  | cons m l ih =>
    intro q hn
    rw [List.foldl_cons]
    rcases List.mem_cons.1 hn with rfl | hnl
    · have : ∃ y, setReq q n (minReq (q n) (some x)) n = some y ∧ y ≤ x := by
        rw [setReq, if_pos rfl]
        cases q n with
        | none => exact ⟨x, rfl, le_rfl⟩
        | some z => exact ⟨min z x, rfl, min_le_right _ _⟩
      obtain ⟨y, hy, hle⟩ := this
      obtain ⟨z, hz, hzle⟩ := Lower.leaves (some x) l _ n y hy
      exact ⟨z, hz, hzle.trans hle⟩
    · exact ih _ hnl

theorem leaves_sound {P : Nat → Int → Prop} {x : Option Int} : ∀ (l : List Nat) (q : Nat → Option Int), (∀ n r, q n = some r → P n r) →
    (∀ r, x = some r → ∀ n ∈ l, P n r) → ∀ n r, (l.foldl (fun q' leaf => setReq q' leaf (minReq (q' leaf) x)) q) n = some r → P n r := by
  intro l
  induction l with
  | nil => intro q hq _; exact hq
  | cons m l ih =>
    intro q hq hx
    rw [List.foldl_cons]
    refine ih _ ?_ fun r hr n hn => hx r hr n (by simp [hn])
    intro n r hr
    rw [setReq] at hr
    by_cases hn : n = m
    · subst hn
      rw [if_pos rfl] at hr
      cases hqn : q n with
      | none =>
        rw [hqn] at hr
        exact hx r hr n (by simp)
      | some y =>
        rw [hqn] at hr
        cases hxx : x with
        | none => rw [hxx] at hr; exact hq n r (hqn.trans hr)
        | some z =>
          rw [hxx] at hr
          simp only [minReq, Option.some.injEq] at hr
          rcases min_choice y z with h | h
          · rw [h] at hr; exact hq n r (by rw [hqn, hr])
          · rw [h] at hr; exact hx r (by rw [hxx, hr]) n (by simp)
    · rw [if_neg hn] at hr; exact hq n r hr

theorem propagate_cons {C : Choice} (hC : NoChoice C) {best : Nat → List Nat} {refs : Vals} {n : Nat} {l : List Nat} (hn : n < C.net.nodes.length)
    (q : Nat → Option Int) : propagate C best refs (n :: l) q =
      if Inner C.net n ∧ refs n ≠ 0 then
        propagate C best refs l ((best n).foldl (fun q' leaf => setReq q' leaf (minReq (q' leaf) ((q n).map (· - 1)))) q)
      else propagate C best refs l q := by
  rw [propagate]
  by_cases h : C.net.isCi n = true ∨ n = 0 ∨ refs n = 0
  · rw [if_pos h, if_neg]
    rintro ⟨h1, h2⟩
    rcases h with h | h | h
    · rw [h1.2] at h; simp at h
    · exact h1.1 h
    · exact h2 h
  · have h' := h
    rw [not_or, not_or] at h'
    rw [if_neg h, if_pos ⟨⟨h'.2.1, by simpa using h'.1⟩, h'.2.2⟩, hC.get hn]
    rfl

theorem propagate_total {C : Choice} (hC : NoChoice C) {best : Nat → List Nat} {refs : Vals} : ∀ (l : List Nat) (q : Nat → Option Int),
    (∀ m ∈ l, m < C.net.nodes.length) → ∃ q', propagate C best refs l q = some q' := by
  intro l
  induction l with
  | nil => intro q _; exact ⟨q, rfl⟩
  | cons n l ih =>
    intro q hl
    rw [propagate_cons hC (hl n (by simp))]
    split
    · exact ih _ fun m hm => hl m (by simp [hm])
    · exact ih _ fun m hm => hl m (by simp [hm])

theorem propagate_keeps {C : Choice} (hC : NoChoice C) {best : Nat → List Nat} {refs : Vals} {x : Nat} : ∀ (l : List Nat) (q q' : Nat → Option Int),
    (∀ m ∈ l, m < C.net.nodes.length) → (∀ m ∈ l, Inner C.net m → x ∉ best m) → propagate C best refs l q = some q' → q' x = q x := by
  intro l
  induction l with
  | nil => intro q q' _ _ e; obtain rfl := Option.some.inj e; rfl
  | cons n l ih =>
    intro q q' hl hx e
    rw [propagate_cons hC (hl n (by simp))] at e
    split at e
    · rename_i h
      rw [ih _ q' (fun m hm => hl m (by simp [hm])) (fun m hm => hx m (by simp [hm])) e, leaves_other _ _ (hx n (by simp) h.1)]
    · exact ih _ q' (fun m hm => hl m (by simp [hm])) (fun m hm => hx m (by simp [hm])) e

theorem propagate_closed {C : Choice} (hC : NoChoice C) {best : Nat → List Nat} {refs : Vals} : ∀ (l : List Nat) (q q' : Nat → Option Int),
    (∀ m ∈ l, m < C.net.nodes.length) → l.Pairwise (fun a b => Inner C.net b → a ∉ best b) → (∀ a ∈ l, Inner C.net a → a ∉ best a) →
    propagate C best refs l q = some q' →
    ∀ n ∈ l, Inner C.net n → refs n ≠ 0 → ∀ r, q' n = some r → ∀ m ∈ best n, ∃ y, q' m = some y ∧ y ≤ r - 1 := by
  intro l
  induction l with
  | nil => intro q q' _ _ _ _ n hn; simp at hn
  | cons n l ih =>
    intro q q' hl hp hi e k hk hin href r hr m hm
    have hl' : ∀ m ∈ l, m < C.net.nodes.length := fun m hm => hl m (by simp [hm])
    rw [List.pairwise_cons] at hp
    rw [propagate_cons hC (hl n (by simp))] at e
    rcases List.mem_cons.1 hk with rfl | hkl
    · rw [if_pos ⟨hin, href⟩] at e
      rw [propagate_keeps hC l _ q' hl' (fun m hm => hp.1 m hm) e, leaves_other _ _ (hi k (by simp) hin)] at hr
      rw [hr] at e
      obtain ⟨y, hy, hle⟩ := leaves_le (x := r - 1) (best k) q hm
      obtain ⟨z, hz, hzle⟩ := propagate_lower hC l _ q' hl' e m y hy
      exact ⟨z, hz, hzle.trans hle⟩
    · split at e
      all_goals exact ih _ q' hl' hp.2 (fun a ha => hi a (by simp [ha])) e k hkl hin href r hr m hm

theorem propagate_sound {C : Choice} (hC : NoChoice C) {best : Nat → List Nat} {refs : Vals} {P : Nat → Int → Prop}
    (hP : ∀ n r, P n r → Inner C.net n → refs n ≠ 0 → ∀ m ∈ best n, P m (r - 1)) : ∀ (l : List Nat) (q q' : Nat → Option Int),
    (∀ m ∈ l, m < C.net.nodes.length) → (∀ n r, q n = some r → P n r) → propagate C best refs l q = some q' → ∀ n r, q' n = some r → P n r := by
  intro l
  induction l with
  | nil => intro q q' _ hq e; obtain rfl := Option.some.inj e; exact hq
  | cons n l ih =>
    intro q q' hl hq e
    have hl' : ∀ m ∈ l, m < C.net.nodes.length := fun m hm => hl m (by simp [hm])
    rw [propagate_cons hC (hl n (by simp))] at e
    split at e
    · rename_i h
      refine ih _ q' hl' (leaves_sound _ _ hq ?_) e
      intro r hr m hm
      obtain ⟨s, hs, rfl⟩ := Option.map_eq_some_iff.1 hr
      exact hP n s (hq n s hs) h.1 h.2 m hm
    · exact ih _ q' hl' hq e

/-- no leaf comes after its node -/
theorem order_pairwise {N : Aig} {deps best : Nat → List Nat} : ∀ (l pre : List Nat), FaninsFirst deps (pre ++ l) → (pre ++ l).Nodup →
    (∀ a ∈ l, Inner N a → ∀ b ∈ best a, b ≠ a ∧ Tfi deps a b) → l.Pairwise (fun a b => Inner N a → b ∉ best a) := by
  intro l
  induction l with
  | nil => intro _ _ _ _; exact List.Pairwise.nil
  | cons a l ih =>
    intro pre hff hnd h
    have e : pre ++ a :: l = (pre ++ [a]) ++ l := by simp
    refine List.pairwise_cons.2 ⟨fun b hb hi hm => ?_, ih (pre ++ [a]) (e ▸ hff) (e ▸ hnd) fun c hc => h c (by simp [hc])⟩
    obtain ⟨hne, ht⟩ := h a (by simp) hi b hm
    have hpre := FaninsFirst.before hff rfl ht hne
    exact (List.nodup_append.1 hnd).2.2 b hpre b (by simp [hb]) rfl

/-! ### the end of a round -/

theorem rounds_last {p : CutPs} (hp : PsOk p) {C : Choice} (hC : NoChoice C) (hN : C.net.Built) {st : MapSt Cost} {order : List Nat}
    (hst : initCuts (0 :: C.net.inputs) (MapSt.init ⟨0, 0, 0⟩ C.net.nodes.length) = some st)
    (hff : FaninsFirst C.deps order) (hnd : order.Nodup) (hlt : ∀ m ∈ order, m < C.net.nodes.length) {rs : List Round} {r : Round} {S : St}
    (e : rounds p C order (rs ++ [r]) (start C st) = some S) :
    ∃ S1, required C r order S1 = some S ∧ S.map = S1.map ∧ Between p C order S := by
  obtain ⟨st0, e0, i0, d0⟩ := start_spec (β := Cost) (C := C) p hN ⟨0, 0, 0⟩
  obtain rfl := Option.some.inj (e0.symm.trans hst)
  have hblank := initCuts_blank _ _ _ (fun _ h => h) (init_blank ⟨0, 0, 0⟩ (0 :: C.net.inputs) C.net.nodes.length) e0
  obtain ⟨S0, e1, e2⟩ := rounds_append rs [r] _ _ e
  obtain ⟨h1, h2, h3, _⟩ := rounds_low hp hC hN hff hnd hlt rs (start C st0) S0 i0 d0 (Or.inl fun _ _ => rfl) hblank.low e1
  rw [rounds] at e2
  obtain ⟨r1, r2⟩ : (if r.preprocess = true ∧ r.first = false then resetRefs C S0 else S0).map = S0.map ∧
      (if r.preprocess = true ∧ r.first = false then resetRefs C S0 else S0).req = S0.req := by
    split <;> exact ⟨rfl, rfl⟩
  generalize (if r.preprocess = true ∧ r.first = false then resetRefs C S0 else S0) = S2 at e2 r1 r2
  rw [← r1] at h1 h2 h3
  rw [← r2] at h3
  cases hl : loop p C r order S2 with
  | none => rw [hl] at e2; simp at e2
  | some S3 =>
    rw [hl] at e2
    dsimp only at e2
    cases hr : required C r order S3 with
    | none => rw [hr] at e2; simp at e2
    | some S4 =>
      rw [hr] at e2
      obtain rfl := Option.some.inj e2
      exact ⟨S3, hr, (required_keeps hr).1, round_spec hp hC hN hff hnd hlt h1 h2 h3 hl hr⟩

/-- the best cut of an inner node -/
theorem best_leaves {p : CutPs} {C : Choice} (hC : NoChoice C) (hN : C.net.Built) {order : List Nat}
    (hff : FaninsFirst C.deps order) (hlt : ∀ m ∈ order, m < C.net.nodes.length) {st : MapSt Cost}
    (hd : ∀ m ∈ order, Done p C st m) {n : Nat} (hn : n ∈ order) (hi : Inner C.net n) :
    ((cover C st).best n).Nodup ∧ ∀ x ∈ (cover C st).best n, x < n ∧ x ∈ order ∧ Tfi C.deps n x := by
  obtain ⟨s, b, h⟩ := hd n hn
  obtain ⟨nd, _, hg⟩ := gate_of hN (hlt n hn) hi.1 hi.2
  have hb : (cover C st).best n = b.leaves := by simp only [cover, h.best]
  rw [hb]
  refine ⟨List.Pairwise.imp (fun h => Nat.ne_of_lt h) h.bok.wf.sorted, fun x hx => ⟨?_, hff.mem hn (h.bok.tfi x hx), h.bok.tfi x hx⟩⟩
  rcases h.bok.kind with hk | hk
  · exact absurd hk (h.gate (hC.get (hlt n hn)) _ _ hg)
  · exact hk.2.2 x hx

theorem uses_le {N : Aig} {order : List Nat} {best : Nat → List Nat} (hb : ∀ n ∈ order, Inner N n → (best n).Nodup) (v : Vals) (x : Nat) :
    uses N order best v x ≤ order.length := by
  refine le_trans (Finset.sum_le_card_nsmul _ _ 1 fun m hm => ?_) (by simpa using order.toFinset_card_le)
  split
  · rename_i h
    exact List.nodup_iff_count_le_one.1 (hb m (List.mem_toFinset.1 hm) h.2) x
  · omega

theorem uses_pos {N : Aig} {order : List Nat} {best : Nat → List Nat} {v : Vals} {x m : Nat} (hm : m ∈ order) (hi : Inner N m) (hv : v m ≠ 0)
    (hx : x ∈ best m) : 1 ≤ uses N order best v x := by
  refine le_trans ?_ (Finset.single_le_sum (fun _ _ => Nat.zero_le _) (List.mem_toFinset.2 hm))
  rw [if_pos ⟨hv, hi⟩]
  exact List.one_le_count_iff.2 hx

theorem order_length {N : Aig} {order : List Nat} (hnd : order.Nodup) (hlt : ∀ m ∈ order, m < N.nodes.length) : order.length ≤ N.nodes.length := by
  have := (List.subperm_of_subset hnd (l₂ := List.range N.nodes.length) fun m hm => List.mem_range.2 (hlt m hm)).length_le
  simpa using this

theorem markAll_counted {C : Choice} {order : List Nat} {best : Nat → List Nat} {T : Nat → Nat} (hT : ∀ v x, T x + uses C.net order best v x < 2 ^ 32)
    (hin : ∀ n ∈ order, Inner C.net n → ∀ m ∈ best n, m = 0 ∨ m ∈ order) {f : Nat} : ∀ (ls : List Nat) (v v' : Vals), (∀ m ∈ ls, m = 0 ∨ m ∈ order) →
    ls.foldl (fun v l => v.bind (markCur C best f l)) (some v) = some v' → Counted C.net order best T v (fun x => ls.count x) →
    Counted C.net order best T v' (fun _ => 0) := by
  intro ls
  induction ls with
  | nil => intro v v' _ e hc; obtain rfl := Option.some.inj e; simpa using hc
  | cons l ls ihl =>
    intro v v' hl e hc
    rw [List.foldl_cons, Option.bind_some] at e
    cases h1 : markCur C best f l v with
    | none => rw [h1, foldl_none] at e; simp at e
    | some w =>
      rw [h1] at e
      refine ihl w v' (fun m hm => hl m (by simp [hm])) e (markCur_counted hT hin f l v w _ (hl l (by simp)) h1 ?_)
      intro x
      rw [← hc x]
      dsimp only
      rw [List.count_cons]
      by_cases hx : x = l
      · subst hx; simp
      · have : ¬ l = x := fun h => hx h.symm
        simp [hx, this]

/-- the parts of `required` -/
theorem required_parts {C : Choice} {r : Round} {order : List Nat} {S S' : St} (e : required C r order S = some S') :
    (C.net.outputs.map (·.index)).foldl (fun v n => v.bind (markCur C (cover C S.map).best (C.net.nodes.length + 1) n)) (some (fun _ => 0 : Vals)) = some S'.refs ∧
    (r.ps.bArea = false → propagate C (cover C S.map).best S'.refs order.reverse
      ((C.net.outputs.map (·.index)).foldl (fun q n => setReq q n (some (glo C S.map : Int))) (fun _ => none)) = some S'.req) := by
  rw [required] at e
  dsimp only at e
  split at e
  · simp at e
  · rename_i v hv
    split at e
    · rename_i hb
      obtain rfl := Option.some.inj e
      exact ⟨hv, fun h => by rw [hb] at h; simp at h⟩
    · split at e
      · simp at e
      · rename_i q hq
        obtain rfl := Option.some.inj e
        exact ⟨hv, fun _ => hq⟩

/-- counting and propagating end -/
theorem required_total {p : CutPs} {C : Choice} (hC : NoChoice C) (hN : C.net.Built) {r : Round} {order : List Nat}
    (hff : FaninsFirst C.deps order) (hlt : ∀ m ∈ order, m < C.net.nodes.length) (hout : ∀ o ∈ C.net.outputs, o.index = 0 ∨ o.index ∈ order)
    {S : St} (hd : ∀ m ∈ order, Done p C S.map m) : ∃ S', required C r order S = some S' := by
  have hP : ∀ n, (n = 0 ∨ n ∈ order) → Inner C.net n → ∀ m ∈ (cover C S.map).best n, (m = 0 ∨ m ∈ order) ∧ m < n := by
    intro n hn hi m hm
    obtain ⟨h1, h2, _⟩ := (best_leaves hC hN hff hlt hd (hn.resolve_left hi.1) hi).2 m hm
    exact ⟨Or.inr h2, h1⟩
  have hmark : ∀ (ls : List Nat) (v : Vals), (∀ m ∈ ls, m = 0 ∨ m ∈ order) →
      ∃ v', ls.foldl (fun v n => v.bind (markCur C (cover C S.map).best (C.net.nodes.length + 1) n)) (some v) = some v' := by
    intro ls
    induction ls with
    | nil => intro v _; exact ⟨v, rfl⟩
    | cons l ls ih =>
      intro v hl
      obtain ⟨w, hw⟩ := markCur_total (C := C) (P := fun n => n = 0 ∨ n ∈ order) hP (C.net.nodes.length + 1) l v (hl l (by simp)) (by
        rcases hl l (by simp) with h | h
        · omega
        · have := hlt l h; omega)
      rw [List.foldl_cons, Option.bind_some, hw]
      exact ih w fun m hm => hl m (by simp [hm])
  obtain ⟨v, hv⟩ := hmark (C.net.outputs.map (·.index)) (fun _ => 0) (fun m hm => by
    obtain ⟨o, ho, rfl⟩ := List.mem_map.1 hm
    exact hout o ho)
  rw [required]
  dsimp only
  rw [hv]
  dsimp only
  split
  · exact ⟨_, rfl⟩
  · obtain ⟨q, hq⟩ := propagate_total hC (best := (cover C S.map).best) (refs := v) order.reverse
      ((C.net.outputs.map (·.index)).foldl (fun q n => setReq q n (some (((C.net.outputs.map (·.index)).map (bestDelay S.map)).foldl max 0 : Nat))) (fun _ => none))
      (fun m hm => hlt m (List.mem_reverse.1 hm))
    rw [hq]
    exact ⟨_, rfl⟩

theorem markAll_only {P : Nat → Prop} {rec : Nat → (Nat → Nat) → Option (Nat → Nat)} :
    ∀ (l : List Nat), (∀ n ∈ l, ∀ r r', rec n r = some r' → (∀ x, r x ≠ 0 → P x) → ∀ x, r' x ≠ 0 → P x) →
    ∀ r r', markAll rec l r = some r' → (∀ x, r x ≠ 0 → P x) → ∀ x, r' x ≠ 0 → P x := by
  intro l
  induction l with
  | nil => intro _ r r' e h; obtain rfl := Option.some.inj e; exact h
  | cons n l ih =>
    intro hl r r' e h
    rw [markAll] at e
    split at e
    · simp at e
    · rename_i r1 h1
      exact ih (fun m hm => hl m (by simp [hm])) r1 r' e (hl n (by simp) r r1 h1 h)

/-- the final marking reaches only nodes with a property that is passed on to leaves -/
theorem markRec_only {N : Aig} {best : List (Cut (FData Cost))} {P : Nat → Prop}
    (hP : ∀ n c, P n → Inner N n → best[n]? = some c → ∀ m ∈ c.leaves, P m) :
    ∀ (f n : Nat) (r r' : Nat → Nat), markRec N best f n r = some r' → P n → (∀ x, r x ≠ 0 → P x) → ∀ x, r' x ≠ 0 → P x := by
  intro f
  induction f with
  | zero => intro n r r' e; simp [markRec] at e
  | succ f ih =>
    intro n r r' e hn hr
    have h1 : ∀ (r : Nat → Nat) y, (∀ x, r x ≠ 0 → P x) → ∀ x, setRef r n y x ≠ 0 → P x := by
      intro r y hr x hx
      rw [setRef] at hx
      by_cases hxn : x = n
      · subst hxn; exact hn
      · rw [if_neg hxn] at hx; exact hr x hx
    rw [markRec] at e
    split at e
    · simp at e
    · dsimp only at e
      split at e
      · obtain rfl := Option.some.inj e
        exact h1 _ _ hr
      · rename_i hcase
        rw [not_or, Inner.neg] at hcase
        split at e
        · simp at e
        · rename_i c hc
          exact markAll_only c.leaves (fun m hm r r' e hx => ih m r r' e (hP n c hn hcase.2 hc m hm) hx) _ _ e (h1 _ _ (h1 _ _ hr))

end Verif.Mapper.Timed
