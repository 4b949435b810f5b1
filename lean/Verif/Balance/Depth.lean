import Verif.Balance.Proof

set_option autoImplicit false

/-!
# AND balancing and depth: helper lemmas
-/

namespace Verif.Balance

open Aig Topo
open RefDeref (aigKids)

/-- There is a path with `d` gates ending in node `n` (specification of depth) -/
inductive GPath (N : Aig) : Nat → Nat → Prop
  | base (n : Nat) : GPath N n 0
  | step {n k d : Nat} {a b : Sig} : N.IsGate n a b → k = a.index ∨ k = b.index → GPath N k d → GPath N n (d + 1)

/-! ### levels of the old network -/

open Classical in
/-- number of gates on a longest path -/
noncomputable def lvl (N : Aig) (n : Nat) : Nat :=
  if h : ∃ p : Sig × Sig, N.IsGate n p.1 p.2 ∧ p.1.index < n ∧ p.2.index < n then
    max (lvl N h.choose.1.index) (lvl N h.choose.2.index) + 1
  else 0
termination_by n
decreasing_by
  · exact h.choose_spec.2.1
  · exact h.choose_spec.2.2

theorem lvl_gate {N : Aig} (h : WF N) {n : Nat} {a b : Sig} (g : N.IsGate n a b) :
    lvl N n = max (lvl N a.index) (lvl N b.index) + 1 := by
  have hlt := h.isGate_lt g
  have hex : ∃ p : Sig × Sig, N.IsGate n p.1 p.2 ∧ p.1.index < n ∧ p.2.index < n := ⟨(a, b), g, by simp only; omega, by simp only; omega⟩
  rw [lvl, dif_pos hex]
  obtain ⟨rfl, rfl⟩ := g.same hex.choose_spec.1
  rfl

theorem lvl_bound {N : Aig} (h : WF N) : LevelBound N (lvl N) := fun _ _ _ g => (lvl_gate h g).ge

theorem lvl_path {N : Aig} : ∀ (n : Nat), GPath N n (lvl N n) := by
  intro n
  induction n using Nat.strong_induction_on with
  | _ n ih =>
    rw [lvl]
    by_cases hex : ∃ p : Sig × Sig, N.IsGate n p.1 p.2 ∧ p.1.index < n ∧ p.2.index < n
    · rw [dif_pos hex]
      rcases Nat.le_total (lvl N hex.choose.1.index) (lvl N hex.choose.2.index) with hle | hle
      · rw [Nat.max_eq_right hle]
        exact .step hex.choose_spec.1 (Or.inr rfl) (ih _ hex.choose_spec.2.2)
      · rw [Nat.max_eq_left hle]
        exact .step hex.choose_spec.1 (Or.inl rfl) (ih _ hex.choose_spec.2.1)
    · rw [dif_neg hex]; exact .base n

/-! ### levels of the new network -/

/-- the level of node `n` -/
def lv (lev : List Nat) (n : Nat) : Nat := levOf lev ⟨n, false⟩

theorem levOf_eq (lev : List Nat) (s : Sig) : levOf lev s = lv lev s.index := rfl

/-- `lev` has the level of every gate, and zero for the other nodes -/
structure LevOk (D : Aig) (lev : List Nat) : Prop where
  len : lev.length = D.nodes.length
  gate : ∀ n a b, D.IsGate n a b → lv lev n = max (lv lev a.index) (lv lev b.index) + 1
  zero : lv lev 0 = 0

theorem LevOk.path {D : Aig} {lev : List Nat} (h : LevOk D lev) {n d : Nat} (hp : GPath D n d) : d ≤ lv lev n := by
  induction hp with
  | base n => exact Nat.zero_le _
  | step g hk _ ih =>
    rw [h.gate _ _ _ g]
    rcases hk with rfl | rfl <;> omega

/-- levels of the nodes of `D` are unchanged -/
def Same (D : Aig) (lev lev' : List Nat) : Prop := ∀ n, n < D.nodes.length → lv lev' n = lv lev n

theorem lv_append {lev : List Nat} {k n : Nat} (h : n < lev.length) : lv (lev ++ [k]) n = lv lev n := by
  unfold lv levOf
  rw [List.getElem?_append_left h]

theorem lv_new {lev : List Nat} {k : Nat} : lv (lev ++ [k]) lev.length = k := by
  unfold lv levOf
  simp

theorem createAndL_lev {D : Aig} {lev : List Nat} (hD : WF D) (h : LevOk D lev) {a b : Sig} (ha : D.Valid a)
    (hb : D.Valid b) : LevOk (createAndL D lev a b).1 (createAndL D lev a b).2.1 ∧
      Same D lev (createAndL D lev a b).2.1 ∧
      lv (createAndL D lev a b).2.1 (createAndL D lev a b).2.2.index ≤ max (lv lev a.index) (lv lev b.index) + 1 := by
  have hord : (order a b = (a, b) ∨ order a b = (b, a)) := by
    rcases order_cases a b with ⟨e, _⟩ | ⟨e, _⟩
    · exact Or.inl e
    · exact Or.inr e
  have key : ∀ c d : Sig, (c = a ∧ d = b ∨ c = b ∧ d = a) → order a b = (c, d) →
      LevOk (createAndL D lev a b).1 (createAndL D lev a b).2.1 ∧
      Same D lev (createAndL D lev a b).2.1 ∧
      lv (createAndL D lev a b).2.1 (createAndL D lev a b).2.2.index ≤ max (lv lev c.index) (lv lev d.index) + 1 := by
    intro c d hcd eo
    have hc : D.Valid c := by rcases hcd with ⟨rfl, _⟩ | ⟨rfl, _⟩ <;> assumption
    have hd : D.Valid d := by rcases hcd with ⟨_, rfl⟩ | ⟨_, rfl⟩ <;> assumption
    have hmax : max (levOf lev a) (levOf lev b) = max (lv lev c.index) (lv lev d.index) := by
      rcases hcd with ⟨rfl, rfl⟩ | ⟨rfl, rfl⟩
      · rfl
      · exact Nat.max_comm _ _
    unfold createAndL
    dsimp only
    rw [hmax, createAnd_eq, eo]
    dsimp only
    unfold createAndOrd
    by_cases h1 : c.index = d.index
    · rw [if_pos h1]
      dsimp only
      rw [if_pos rfl]
      refine ⟨h, fun _ _ => rfl, ?_⟩
      split
      · omega
      · rw [show (Sig.const false).index = 0 from rfl, h.zero]; omega
    · rw [if_neg h1]
      by_cases h2 : c.index = 0
      · rw [if_pos h2]
        dsimp only
        rw [if_pos rfl]
        refine ⟨h, fun _ _ => rfl, ?_⟩
        split
        · omega
        · rw [show (Sig.const false).index = 0 from rfl, h.zero]; omega
      · rw [if_neg h2]
        cases hf : D.hashFind c d with
        | some t =>
          dsimp only
          rw [if_pos rfl]
          exact ⟨h, fun _ _ => rfl, (h.gate t c d (hD.hashFind_some hf)).le⟩
        | none =>
          dsimp only
          have hl : (D.addAnd c d).1.nodes.length = D.nodes.length + 1 := by simp
          rw [hl, if_neg (by omega), addAnd_sig]
          dsimp only
          have hlen := h.len
          have hsame : Same D lev (lev ++ [max (lv lev c.index) (lv lev d.index) + 1]) := fun n hn => lv_append (by omega)
          have hnew : lv (lev ++ [max (lv lev c.index) (lv lev d.index) + 1]) D.nodes.length =
              max (lv lev c.index) (lv lev d.index) + 1 := by rw [← hlen]; exact lv_new
          refine ⟨⟨by simp [hl, hlen], ?_, ?_⟩, hsame, hnew.le⟩
          · intro n x y g
            rcases (addAnd_isGate hD c d n x y).1 g with g | ⟨rfl, rfl, rfl⟩
            · have := hD.isGate_lt g
              rw [hsame n (by omega), hsame x.index (by omega), hsame y.index (by omega)]
              exact h.gate n x y g
            · rw [hnew, hsame _ hc, hsame _ hd]
          · rw [hsame 0 hD.pos]; exact h.zero
  rcases hord with e | e
  · exact key a b (Or.inl ⟨rfl, rfl⟩) e
  · have := key b a (Or.inr ⟨rfl, rfl⟩) e
    rwa [Nat.max_comm (lv lev b.index)] at this

/-! ### the greedy loop -/

/-- levels do not increase from left to right -/
def Desc (lev : List Nat) (l : List Sig) : Prop := (l.map fun s => lv lev s.index).Pairwise (· ≥ ·)

theorem weight_perm {ol : Nat → Nat} {l l' : List Sig} (h : l.Perm l') : weight ol l = weight ol l' :=
  (h.map _).sum_eq

theorem weight_cons (ol : Nat → Nat) (s : Sig) (l : List Sig) : weight ol (s :: l) = 2 ^ ol s.index + weight ol l := by
  simp [weight]

theorem weight_same {D : Aig} {lev lev' : List Nat} (h : Same D lev lev') {l : List Sig} (hl : ∀ s ∈ l, D.Valid s) :
    weight (lv lev') l = weight (lv lev) l := by
  unfold weight
  congr 1
  exact List.map_congr_left fun s hs => by rw [h _ (hl s hs)]

theorem desc_same {D : Aig} {lev lev' : List Nat} (h : Same D lev lev') {l : List Sig} (hl : ∀ s ∈ l, D.Valid s)
    (hd : Desc lev l) : Desc lev' l := by
  unfold Desc at *
  have : (l.map fun s => lv lev' s.index) = l.map fun s => lv lev s.index :=
    List.map_congr_left fun s hs => h _ (hl s hs)
  rwa [this]

theorem findLeftGo_level (lev : List Nat) (super : List Sig) (r : Nat) : ∀ (k i : Nat),
    findLeftGo lev super r k = some i → ∀ (j : Nat) s, i ≤ j → j < k → super[j]? = some s → levOf lev s = r
  | 0, i, _, j, s, _, hk, _ => by omega
  | k + 1, i, e, j, s, hi, hk, hs => by
    unfold findLeftGo at e
    have hkl : k < super.length := by
      rcases Nat.lt_or_ge k super.length with h | h
      · exact h
      · rw [List.getElem?_eq_none h] at e; cases e
    rw [List.getElem?_eq_getElem hkl] at e
    dsimp only at e
    by_cases h : levOf lev super[k] ≠ r
    · rw [if_pos h] at e; cases e; omega
    · rw [if_neg h] at e
      by_cases hjk : j = k
      · subst hjk
        rw [List.getElem?_eq_getElem hkl] at hs
        cases hs
        simpa using h
      · exact findLeftGo_level lev super r k i e j s hi (by omega) hs

theorem findLeft_level {lev : List Nat} {super : List Sig} {left : Nat} (h2 : 2 ≤ super.length)
    (e : findLeft lev super = some left) {i : Nat} {s t : Sig} (h1 : left ≤ i) (hi : i ≤ super.length - 2)
    (hs : super[i]? = some s) (ht : super[super.length - 2]? = some t) : levOf lev s = levOf lev t := by
  unfold findLeft at e
  by_cases h3 : super.length < 3
  · have : i = super.length - 2 := by omega
    rw [this, ht] at hs; cases hs; rfl
  · rw [if_neg h3, ht] at e
    dsimp only at e
    by_cases hil : i = super.length - 2
    · rw [hil, ht] at hs; cases hs; rfl
    · exact findLeftGo_level lev super _ _ _ e i s h1 (by omega) hs

theorem permute_levels {D : Aig} {lev : List Nat} {super p : List Sig} {left : Nat} (h2 : 2 ≤ super.length)
    (hl : left ≤ super.length - 2) (e : findLeft lev super = some left) (ep : permute D super left = some p) :
    (p.map fun s => lv lev s.index) = super.map fun s => lv lev s.index := by
  rcases permute_spec D super left h2 hl with e' | ⟨i, s, t, h1, hi, hs, ht, e'⟩
  · rw [ep] at e'; cases e'; rfl
  · rw [ep] at e'; cases e'
    have hlev := findLeft_level h2 e h1 hi hs ht
    rw [levOf_eq, levOf_eq] at hlev
    apply List.ext_getElem?
    intro k
    rw [List.getElem?_map, List.getElem?_map, List.getElem?_set, List.getElem?_set]
    by_cases hk : super.length - 2 = k
    · rw [if_pos hk, ← hk, ht]
      simp only [List.length_set]
      rw [if_pos (by omega)]
      simp [hlev]
    · rw [if_neg hk]
      by_cases hik : i = k
      · rw [if_pos hik, ← hik, hs, if_pos (by have := lt_of_getElem? hs; omega)]
        simp [hlev]
      · rw [if_neg hik]

theorem bubble_sorted (lev : List Nat) (s : Sig) : ∀ (l : List Sig), l.Pairwise (fun a b => lv lev a.index ≤ lv lev b.index) →
    (bubble lev s l).Pairwise (fun a b => lv lev a.index ≤ lv lev b.index)
  | [], _ => by simp [bubble]
  | a :: l, h => by
    unfold bubble
    have h' := List.pairwise_cons.1 h
    by_cases hc : levOf lev s ≤ levOf lev a
    · rw [if_pos hc]
      rw [levOf_eq, levOf_eq] at hc
      refine List.pairwise_cons.2 ⟨?_, h⟩
      intro b hb
      rcases List.mem_cons.1 hb with rfl | hb
      · exact hc
      · exact hc.trans (h'.1 b hb)
    · rw [if_neg hc]
      rw [levOf_eq, levOf_eq] at hc
      refine List.pairwise_cons.2 ⟨?_, bubble_sorted lev s l h'.2⟩
      intro b hb
      rcases List.mem_cons.1 ((bubble_perm lev s l).mem_iff.1 hb) with rfl | hb
      · omega
      · exact h'.1 b hb

theorem pushUnique_desc {lev : List Nat} {l : List Sig} {s : Sig} (h : Desc lev l) : Desc lev (pushUnique lev l s) := by
  unfold pushUnique
  by_cases hs : s ∈ l
  · rw [if_pos hs]; exact h
  · rw [if_neg hs]
    unfold Desc at *
    rw [List.pairwise_map] at *
    rw [List.pairwise_reverse]
    apply bubble_sorted
    rw [List.pairwise_reverse]
    exact h

theorem pushUnique_weight (lev : List Nat) (l : List Sig) (s : Sig) (ol : Nat → Nat) :
    weight ol (pushUnique lev l s) ≤ 2 ^ ol s.index + weight ol l := by
  unfold pushUnique
  by_cases h : s ∈ l
  · rw [if_pos h]; exact Nat.le_add_left _ _
  · rw [if_neg h]
    have hp : ((bubble lev s l.reverse).reverse).Perm (s :: l) :=
      ((List.reverse_perm _).trans (bubble_perm lev s l.reverse)).trans ((List.reverse_perm l).cons s)
    rw [weight_perm hp, weight_cons]

theorem dvd_weight {ol : Nat → Nat} {k : Nat} : ∀ {l : List Sig}, (∀ s ∈ l, k ≤ ol s.index) → 2 ^ k ∣ weight ol l
  | [], _ => by simp [weight]
  | s :: l, h => by
    rw [weight_cons]
    exact Nat.dvd_add (Nat.pow_dvd_pow 2 (h s (by simp))) (dvd_weight fun t ht => h t (by simp [ht]))

/-- joining the two lowest levels keeps the bound -/
theorem kraft {S y L c : Nat} (hS : 2 ^ y ∣ S) (hc : 0 < c) (h : S + (2 ^ y + c) ≤ 2 ^ L) : S + 2 ^ (y + 1) ≤ 2 ^ L := by
  obtain ⟨q, rfl⟩ := hS
  have hlt : 2 ^ y < 2 ^ L := by omega
  have hyL : y < L := (Nat.pow_lt_pow_iff_right (by omega)).1 hlt
  obtain ⟨e, rfl⟩ : ∃ e, L = y + e := ⟨L - y, by omega⟩
  rw [Nat.pow_add] at h ⊢
  have h1 : 2 ^ y * (q + 1) < 2 ^ y * 2 ^ e := by rw [Nat.mul_add]; omega
  have h2 : q + 1 < 2 ^ e := Nat.lt_of_mul_lt_mul_left h1
  have h3 : 2 ^ y * (q + 2) ≤ 2 ^ y * 2 ^ e := Nat.mul_le_mul_left _ h2
  rw [Nat.mul_add] at h3
  rw [Nat.pow_add]
  omega

theorem superLoop_depth : ∀ (f : Nat) (D : Aig) (lev : List Nat) (super : List Sig) (L : Nat), WF D → LevOk D lev →
    (∀ s ∈ super, D.Valid s) → super ≠ [] → Desc lev super → weight (lv lev) super ≤ 2 ^ L →
    ∀ D' lev' s, superLoop f D lev super = some (D', lev', s) →
      LevOk D' lev' ∧ Same D lev lev' ∧ lv lev' s.index ≤ L := by
  intro f
  induction f with
  | zero => intro D lev super L _ _ _ _ _ _ D' lev' s e; cases e
  | succ f ih =>
    intro D lev super L hD hlev hval hne hdesc hw D' lev' s e
    match super, hne with
    | [x], _ =>
      cases e
      refine ⟨hlev, fun _ _ => rfl, ?_⟩
      simp only [weight, List.map_cons, List.map_nil, List.sum_cons, List.sum_nil, Nat.add_zero] at hw
      exact (Nat.pow_le_pow_iff_right (by omega)).1 hw
    | a :: b :: l, _ =>
      unfold superLoop at e
      have h2 : 2 ≤ (a :: b :: l).length := by simp
      generalize hsup : a :: b :: l = super at *
      have hall : (super.all fun s => decide (s.index < lev.length)) = true := by
        rw [List.all_eq_true]
        intro s hs
        have := hval s hs
        simp only [Valid] at this
        simp [hlev.len, this]
      obtain ⟨left, e1, hleft⟩ := findLeft_total lev super
      obtain ⟨p, e2, hp⟩ := permute_perm D super left h2 hleft
      have hplev := permute_levels h2 hleft e1 e2
      have hplen := hp.length_eq
      subst hsup
      dsimp only at e
      rw [if_pos hall, e1] at e
      dsimp only at e
      rw [e2] at e
      dsimp only at e
      match hr : p.reverse with
      | [] => have := congrArg List.length hr; simp only [List.length_reverse, List.length_nil] at this; omega
      | [x] => have := congrArg List.length hr; simp only [List.length_reverse, List.length_singleton] at this; omega
      | x :: y :: rest =>
        rw [hr] at e
        dsimp only at e
        have hpe : p = rest.reverse ++ [y, x] := by
          have := congrArg List.reverse hr
          simpa using this
        have hdp : Desc lev p := by unfold Desc at *; rw [hplev]; exact hdesc
        have hwp : weight (lv lev) p ≤ 2 ^ L := by rw [weight_perm hp]; exact hw
        have hpval : ∀ s ∈ p, D.Valid s := fun s hs => hval s (hp.mem_iff.1 hs)
        rw [hpe] at hdp hwp hpval
        have hx : D.Valid x := hpval x (by simp)
        have hy : D.Valid y := hpval y (by simp)
        have hrest : ∀ s ∈ rest.reverse, D.Valid s := fun s hs => hpval s (List.mem_append_left _ hs)
        unfold Desc at hdp
        rw [List.map_append, List.pairwise_append] at hdp
        obtain ⟨d1, d2, d3⟩ := hdp
        have hxy : lv lev x.index ≤ lv lev y.index := by simpa using d2
        have hry : ∀ s ∈ rest.reverse, lv lev y.index ≤ lv lev s.index := fun s hs =>
          d3 _ (List.mem_map.2 ⟨s, hs, rfl⟩) _ (by simp)
        have g := createAnd_spec hD hx hy
        obtain ⟨c1, c2, c3⟩ := createAndL_lev hD hlev hx hy
        have hw' : weight (lv lev) rest.reverse + (2 ^ lv lev y.index + 2 ^ lv lev x.index) ≤ 2 ^ L := by
          have : weight (lv lev) (rest.reverse ++ [y, x]) =
              weight (lv lev) rest.reverse + (2 ^ lv lev y.index + 2 ^ lv lev x.index) := by simp [weight]
          omega
        have hk := kraft (dvd_weight hry) (Nat.two_pow_pos _) hw'
        obtain ⟨u1, _, u3, _⟩ := pushUnique_spec (createAndL D lev x y).2.1 rest.reverse (createAndL D lev x y).2.2
        have hext : Ext D (createAndL D lev x y).1 := g.ext
        obtain ⟨r1, r2, r3⟩ := ih (createAndL D lev x y).1 (createAndL D lev x y).2.1
          (pushUnique (createAndL D lev x y).2.1 rest.reverse (createAndL D lev x y).2.2) L g.wf c1
          (fun t ht => by
            rcases u1 t ht with rfl | ht
            · exact g.valid
            · exact hext.valid (hrest t ht)) u3 (pushUnique_desc (desc_same c2 hrest d1))
          (by
            refine (pushUnique_weight _ _ _ _).trans ?_
            rw [weight_same c2 hrest]
            have : 2 ^ lv (createAndL D lev x y).2.1 (createAndL D lev x y).2.2.index ≤ 2 ^ (lv lev y.index + 1) :=
              Nat.pow_le_pow_right (by omega) (c3.trans (by omega))
            omega) D' lev' s e
        exact ⟨r1, fun n hn => (r2 n (lt_of_lt_of_le hn hext.len)).trans (c2 n hn), r3⟩

/-- what `std::sort` guarantees: a permutation ordered by the key -/
structure Sorts (sort : (Sig → Nat × Nat) → List Sig → List Sig) : Prop where
  perm : ∀ key l, (sort key l).Perm l
  desc : ∀ key l, (sort key l).Pairwise fun a b => (key b).1 ≤ (key a).1

theorem buildSuper_depth {sort : (Sig → Nat × Nat) → List Sig → List Sig} (hsort : Sorts sort)
    {D : Aig} {lev : List Nat} {super : List Sig} {L : Nat} (hD : WF D) (hlev : LevOk D lev)
    (hval : ∀ s ∈ super, D.Valid s) (hne : super ≠ []) (hw : weight (lv lev) super ≤ 2 ^ L) {D' : Aig} {lev' : List Nat}
    {s : Sig} (e : buildSuper sort D lev super = some (D', lev', s)) :
    LevOk D' lev' ∧ Same D lev lev' ∧ lv lev' s.index ≤ L := by
  have hp := hsort.perm (fun s => (levOf lev s, s.index)) super
  unfold buildSuper at e
  by_cases hall : (super.all fun s => decide (s.index < lev.length)) = true
  · rw [if_pos hall] at e
    refine superLoop_depth _ D lev _ L hD hlev (fun s hs => hval s (hp.mem_iff.1 hs))
      (fun e => hne (by rw [e] at hp; simpa using hp)) ?_ (by rw [weight_perm hp]; exact hw) D' lev' s e
    have := hsort.desc (fun s => (levOf lev s, s.index)) super
    unfold Desc
    rw [List.pairwise_map]
    exact this.imp fun h => h
  · rw [if_neg hall] at e; cases e

/-! ### the recursion -/

/-- the levels are right, and mapped nodes have not become deeper -/
structure DInv (ol : Nat → Nat) (st : BSt) : Prop where
  lev : LevOk st.ntk st.lev
  map : ∀ n s, st.map n = some s → lv st.lev s.index ≤ ol n

theorem Same.trans {D D' : Aig} {a b c : List Nat} (h : Same D a b) (h' : Same D' b c) (hl : D.nodes.length ≤ D'.nodes.length) :
    Same D a c := fun n hn => (h' n (lt_of_lt_of_le hn hl)).trans (h n hn)

theorem balanceKids_depth {N base : Aig} {ol : Nat → Nat} {rec : BSt → Nat → Option (BSt × Sig)} {P : Nat → Prop}
    (hrec : ∀ st n, BInv N base st → P n → ∃ st' s, rec st n = some (st', s) ∧ BStep N base st st' ∧ st'.ntk.Valid s ∧
      ∀ x v v', N.Consistent x v → st'.ntk.Consistent x v' → s.val v' = v n)
    (hdep : ∀ st n, BInv N base st → DInv ol st → P n → ∀ st' s, rec st n = some (st', s) → DInv ol st' ∧
      Same st.ntk st.lev st'.lev ∧ lv st'.lev s.index ≤ ol n) :
    ∀ (l : List Sig) (st : BSt), BInv N base st → DInv ol st → (∀ s ∈ l, P s.index) →
      ∀ st' l', balanceKids rec st l = some (st', l') → DInv ol st' ∧ Same st.ntk st.lev st'.lev ∧
        l'.length = l.length ∧
        ∀ (i : Nat) s s', l[i]? = some s → l'[i]? = some s' → lv st'.lev s'.index ≤ ol s.index := by
  intro l
  induction l with
  | nil => intro st h hd _ st' l' e; cases e; exact ⟨hd, fun _ _ => rfl, rfl, by simp⟩
  | cons a l ih =>
    intro st h hd hl st' l' e
    obtain ⟨st1, r, e1, s1, w1, _⟩ := hrec st a.index h (hl a (by simp))
    obtain ⟨d1, m1, v1⟩ := hdep st a.index h hd (hl a (by simp)) st1 r e1
    unfold balanceKids at e
    rw [e1] at e
    dsimp only at e
    obtain ⟨st2, k, e2, s2, w2, _, _⟩ := balanceKids_spec hrec l st1 s1.inv (fun s hs => hl s (by simp [hs]))
    rw [e2] at e
    cases e
    obtain ⟨d2, m2, hlen, v2⟩ := ih st1 s1.inv d1 (fun s hs => hl s (by simp [hs])) _ _ e2
    refine ⟨d2, m1.trans m2 s1.grown.ext.len, by simp [hlen], ?_⟩
    intro i s s' hs hs'
    cases i with
    | zero =>
      simp only [List.getElem?_cons_zero, Option.some.injEq] at hs hs'
      subst hs; subst hs'
      have : (r.xorb a.compl).index = r.index := rfl
      rw [this, m2 _ w1]; exact v1
    | succ i => exact v2 i s s' (by simpa using hs) (by simpa using hs')

theorem weight_le {ol ol' : Nat → Nat} : ∀ {l l' : List Sig}, l'.length = l.length →
    (∀ (i : Nat) s s', l[i]? = some s → l'[i]? = some s' → ol' s'.index ≤ ol s.index) → weight ol' l' ≤ weight ol l
  | [], [], _, _ => le_rfl
  | a :: l, b :: l', hl, h => by
    rw [weight_cons, weight_cons]
    have h1 := Nat.pow_le_pow_right (n := 2) (by omega) (h 0 a b rfl rfl)
    have h2 := weight_le (l := l) (l' := l') (by simpa using hl) (fun i s s' hs hs' => h (i + 1) s s' (by simpa using hs) (by simpa using hs'))
    omega

theorem weight_subperm {ol : Nat → Nat} {l l' : List Sig} (h : l'.Subperm l) : weight ol l' ≤ weight ol l := by
  obtain ⟨k, hk, hs⟩ := h
  rw [← weight_perm hk]
  exact (hs.map _).sum_le_sum (by simp)

theorem balanceRec_depth {sort : (Sig → Nat × Nat) → List Sig → List Sig} (hsort : Sorts sort)
    {N base : Aig} (h : WF N) (hpi : N.inputs.length = N.numPis) {ol : Nat → Nat} (hol : LevelBound N ol) :
    ∀ (f : Nat) (st : BSt) (n : Nat), BInv N base st → DInv ol st → (n < f ∧ n < N.nodes.length) →
      ∀ st' s, balanceRec sort N f st n = some (st', s) → DInv ol st' ∧ Same st.ntk st.lev st'.lev ∧
        lv st'.lev s.index ≤ ol n := by
  intro f
  induction f with
  | zero => intro st n _ _ hn; omega
  | succ f ih =>
    intro st n hI hd hn st' s e
    unfold balanceRec at e
    cases hm : st.map n with
    | some s =>
      rw [hm] at e; cases e
      exact ⟨hd, fun _ _ => rfl, hd.map n _ hm⟩
    | none =>
      rw [hm] at e
      dsimp only at e
      have h0 : n ≠ 0 := by
        rintro rfl
        obtain ⟨s, hs⟩ := hI.zero
        rw [hm] at hs; cases hs
      have hni : n ∉ N.inputs := by
        intro hi
        obtain ⟨s, hs⟩ := hI.pi n hi
        rw [hm] at hs; cases hs
      have g := h.isGate_of h0 hni (List.getElem?_eq_getElem hn.2)
      obtain ⟨l, e1, hne, hb, _, hw⟩ := cone_spec h hpi g (f + 1) ⟨n, false⟩ [] hn.1 (Or.inl rfl)
      rw [e1, List.nil_append] at e
      dsimp only at e
      obtain ⟨u1, u2, u3⟩ := unify_spec hne
      have hsub : ∀ s ∈ unify l, s.index < f ∧ s.index < N.nodes.length := fun s hs => by
        have := hb s (u1.subset hs); omega
      cases hu : unify l with
      | nil =>
        rw [hu] at e
        cases e
        have hz : lv st.lev (Sig.const false).index ≤ ol n := by
          rw [show (Sig.const false).index = 0 from rfl, hd.lev.zero]; omega
        refine ⟨⟨hd.lev, ?_⟩, fun _ _ => rfl, hz⟩
        intro k s hk
        dsimp only at hk ⊢
        by_cases e : k = n
        · rw [if_pos e] at hk; cases hk; rw [e]; exact hz
        · rw [if_neg e] at hk; exact hd.map k s hk
      | cons a r =>
        rw [hu] at e
        dsimp only at e
        rw [← hu] at e
        have hne' : unify l ≠ [] := by rw [hu]; simp
        obtain ⟨st1, l', e2, s1, w1, hlen, _⟩ := balanceKids_spec (P := fun k => k < f ∧ k < N.nodes.length)
          (fun st n hI hn => balanceRec_spec hsort.perm h hpi f st n hI hn) (unify l) st hI hsub
        obtain ⟨d1, m1, _, v1⟩ := balanceKids_depth (P := fun k => k < f ∧ k < N.nodes.length)
          (fun st n hI hn => balanceRec_spec hsort.perm h hpi f st n hI hn) ih (unify l) st hI hd hsub st1 l' e2
        rw [e2] at e
        have hne1 : l' ≠ [] := fun e => by rw [e, hu] at hlen; simp at hlen
        have hwl : weight (lv st1.lev) l' ≤ 2 ^ ol n :=
          (weight_le hlen v1).trans ((weight_subperm u1).trans (hw ol hol))
        match hl' : l', hne1 with
        | [y], _ =>
          cases e
          refine ⟨d1, m1, ?_⟩
          simp only [weight, List.map_cons, List.map_nil, List.sum_cons, List.sum_nil, Nat.add_zero] at hwl
          exact (Nat.pow_le_pow_iff_right (by omega)).1 hwl
        | y :: t :: rest, _ =>
          dsimp only at e
          obtain ⟨D', lev', z, e3, g3, _⟩ := buildSuper_spec hsort.perm st1.ntk st1.lev (y :: t :: rest) s1.inv.grown.wf
            s1.inv.lev w1 (by simp)
          obtain ⟨q1, q2, q3⟩ := buildSuper_depth hsort s1.inv.grown.wf d1.lev w1 (by simp) hwl e3
          rw [e3] at e
          cases e
          refine ⟨⟨q1, ?_⟩, m1.trans q2 s1.grown.ext.len, q3⟩
          intro k s hk
          dsimp only at hk ⊢
          by_cases e : k = n
          · rw [if_pos e] at hk; cases hk; rw [e]; exact q3
          · rw [if_neg e] at hk
            rw [q2 _ (s1.inv.valid k s hk)]
            exact d1.map k s hk

/-! ### the initial state and the final copy -/

theorem lv_replicate (k n : Nat) : lv (List.replicate k 0) n = 0 := by
  unfold lv levOf
  rw [List.getElem?_replicate]
  by_cases h : n < k
  · rw [if_pos h]
  · rw [if_neg h]

theorem initMap_noGate : ∀ (l : List Nat) (D : Aig) (m : Nat → Option Sig), D.table = [] → (initMap l D m).1.table = []
  | [], _, _, h => h
  | _ :: l, D, _, h => initMap_noGate l D.createPi.1 _ h

theorem initSt_depth {N : Aig} (hN : Built N) (hpi : N.inputs.length = N.numPis) (ol : Nat → Nat) : DInv ol (initSt N) := by
  obtain ⟨hI, hB, _⟩ := initSt_spec hN hpi
  have hlev : ∀ n, lv (initSt N).lev n = 0 := fun n => lv_replicate _ n
  refine ⟨⟨hI.lev, ?_, hlev 0⟩, fun n s _ => by rw [hlev]; omega⟩
  intro n a b g
  have : n ∈ (initSt N).ntk.table := (hB.wf.table n).2 ⟨g.1, g.2.1, (hB.wf.isGate_lt g).2.2.2⟩
  have ht : (initSt N).ntk.table = [] := initMap_noGate _ _ _ rfl
  rw [ht] at this; cases this

/-- paths of the copy come from paths of the source -/
theorem cleanup_path (N : Aig) (hN : Built N) (hpi : N.inputs.length = N.numPis)
    (hpo : N.outputs.length = N.numPos) (f : Nat) (hf : N.size ≤ f) (D : Aig) (hD : cleanupDangling N f = some D)
    {i : Nat} {o o' : Sig} (ho : N.outputs[i]? = some o) (ho' : D.outputs[i]? = some o') {d : Nat} (hp : GPath D o'.index d) :
    GPath N o.index d := by
  rw [cleanupDangling] at hD
  split at hD
  · cases hD
  rename_i D1 m hc
  cases hD
  have hf' : ∀ o ∈ N.outputs, id o.index < f := fun o ho => by
    have := hN.wf.outputs o ho; simp only [Valid, size, id] at *; omega
  obtain ⟨order, h1, h2, h3, h4⟩ := cleanupImpl_iso N hN hpi f hf D1 m hc
  obtain ⟨c1, c2, c3, c4, c5, c6, ct, c7, c8, c9, c10⟩ := cloneInputs_spec N.numPis Aig.empty .empty rfl
  obtain ⟨D2, m2, ec, gr, hval, _⟩ := cleanupImpl_spec (D0 := (cloneInputs N.numPis Aig.empty).1) hN.readable c1.wf c2
    (by omega) (fun s hs => (c9 s hs).1) hf'
  rw [hc] at ec; cases ec
  rw [List.take_of_length_le (by omega)] at ho' hp
  obtain ⟨o1, o2, _, _, _, _, _, o8⟩ := cloneOutputs_spec (N.outputs.map m.img) D1 (gr.built c1)
    (fun s hs => by
      rw [List.mem_map] at hs
      obtain ⟨t, _, rfl⟩ := hs
      exact img_valid (hval _))
  have hout : (cloneOutputs D1 (N.outputs.map m.img)).outputs = N.outputs.map m.img := by
    rw [o2, gr.outputs, c5]; rfl
  rw [hout, List.getElem?_map, ho] at ho'
  cases ho'
  rw [img_index] at hp
  have key : ∀ g d, GPath (cloneOutputs D1 (N.outputs.map m.img)) g d → ∀ n ∈ order, g = (m n).index → GPath N n d := by
    intro g d hp
    induction hp with
    | base g => intro n _ _; exact .base n
    | @step g k d x y hg hk _ ih =>
      intro n hn e
      rw [o8] at hg
      obtain ⟨n', hn', ⟨a, b, hab⟩, e'⟩ := h2.onto g x y hg
      have : n' = n := h2.inj _ hn' _ hn (e'.symm.trans e)
      subst this
      obtain ⟨x', y', hG, hxy⟩ := h2.gate n' hn' a b hab
      rw [← e'] at hG
      obtain ⟨rfl, rfl⟩ := hg.same hG
      have hkids : aigKids N n' = [a.index, b.index] := by
        have hcik := hab.not_ci hN.wf
        obtain ⟨k0, _, ndk, hndk, _, rfl, rfl⟩ := hab
        exact aigKids_gate k0 hcik hndk
      have hin : ∀ k ∈ [a.index, b.index], k ∈ order := by
        intro k hk
        rw [← hkids] at hk
        rcases (h4 n').1 hn' with rfl | hi | ⟨o, ho, hot⟩
        · exact absurd rfl hab.1
        · exact absurd hi hab.2.1
        · exact (h4 k).2 (Or.inr (Or.inr ⟨o, ho, hot.trans (.step hk (.refl _))⟩))
      have : k = (m a.index).index ∨ k = (m b.index).index := by
        rcases hxy with ⟨rfl, rfl⟩ | ⟨rfl, rfl⟩ <;> rw [img_index, img_index] at hk <;> tauto
      rcases this with hk | hk
      · exact .step hab (Or.inl rfl) (ih a.index (hin _ (by simp)) hk)
      · exact .step hab (Or.inr rfl) (ih b.index (hin _ (by simp)) hk)
  exact key _ d hp o.index ((h4 _).2 (Or.inr (Or.inr ⟨o, List.mem_of_getElem? ho, .refl _⟩))) rfl

end Verif.Balance
