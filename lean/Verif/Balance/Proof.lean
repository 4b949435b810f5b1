import Verif.Balance.Basic
import Verif.Props.C14
import Verif.Props.C40

set_option autoImplicit false

/-!
# AND balancing: helper lemmas
-/

namespace Verif.Balance

open Aig

/-- conjunction of a list of literals -/
def conj (v : Nat → Bool) (l : List Sig) : Bool := l.all (·.val v)

theorem conj_perm {v : Nat → Bool} {l l' : List Sig} (h : l.Perm l') : conj v l = conj v l' := by
  unfold conj
  rw [Bool.eq_iff_iff, List.all_eq_true, List.all_eq_true]
  exact ⟨fun a x hx => a x (h.mem_iff.2 hx), fun a x hx => a x (h.mem_iff.1 hx)⟩

theorem conj_append (v : Nat → Bool) (l l' : List Sig) : conj v (l ++ l') = (conj v l && conj v l') := by
  simp [conj]

theorem conj_cons (v : Nat → Bool) (s : Sig) (l : List Sig) : conj v (s :: l) = (s.val v && conj v l) := by
  simp [conj]

theorem conj_nil (v : Nat → Bool) : conj v [] = true := rfl

/-- sum of two to the levels -/
def weight (ol : Nat → Nat) (l : List Sig) : Nat := (l.map fun s => 2 ^ ol s.index).sum

/-- `ol` is at least one above the fanins at every gate -/
def LevelBound (N : Aig) (ol : Nat → Nat) : Prop := ∀ n a b, N.IsGate n a b → max (ol a.index) (ol b.index) + 1 ≤ ol n

theorem two_pow_add {a b c : Nat} (h : max a b + 1 ≤ c) : 2 ^ a + 2 ^ b ≤ 2 ^ c := by
  have h1 : 2 ^ a ≤ 2 ^ max a b := Nat.pow_le_pow_right (by omega) (by omega)
  have h2 : 2 ^ b ≤ 2 ^ max a b := Nat.pow_le_pow_right (by omega) (by omega)
  have h3 : 2 ^ (max a b + 1) ≤ 2 ^ c := Nat.pow_le_pow_right (by omega) h
  rw [Nat.pow_succ] at h3
  omega

/-! ### collecting the supergate -/

theorem isPi_of_input {N : Aig} (h : WF N) (hpi : N.inputs.length = N.numPis) {n : Nat} (hn : n ∈ N.inputs) :
    N.isPi n = true := by
  obtain ⟨k, hk, rfl⟩ := List.getElem_of_mem hn
  obtain ⟨_, nd, hnd, e0, e1, _⟩ := h.input k _ (List.getElem?_eq_getElem hk)
  unfold Aig.isPi
  rw [hnd]
  simp only [e0, e1, beq_self_eq_true, Bool.true_and, decide_eq_true_eq, Sig.data_ofData]
  omega

theorem cone_spec {N : Aig} (h : WF N) (hpi : N.inputs.length = N.numPis) {n : Nat} {a b : Sig} (g : N.IsGate n a b) :
    ∀ (f : Nat) (s : Sig) (acc : List Sig), s.index < f → (s = ⟨n, false⟩ ∨ 0 < s.index ∧ s.index < n) →
      ∃ l, cone N ⟨n, false⟩ f s acc = some (acc ++ l) ∧ l ≠ [] ∧ (∀ t ∈ l, 0 < t.index ∧ t.index < n) ∧
        (∀ v, N.Models v → conj v l = s.val v) ∧ ∀ ol, LevelBound N ol → weight ol l ≤ 2 ^ ol s.index := by
  have hroot : (n ≠ 0 ∧ N.isCi n = false) := ⟨g.1, by simpa using g.not_ci h⟩
  intro f
  induction f with
  | zero => intro s acc hs; omega
  | succ f ih =>
    intro s acc hs hc
    unfold cone
    by_cases hstop : s ≠ ⟨n, false⟩ ∧ (s.compl = true ∨ (((⟨n, false⟩ : Sig).index ≠ 0 ∧ N.isCi (⟨n, false⟩ : Sig).index = false) ∧
        N.isPi s.index = true) ∨ 1 < N.fanoutSize s.index ∨ 10000 < acc.length)
    · rw [if_pos hstop]
      refine ⟨[s], rfl, by simp, ?_, fun v _ => by simp [conj], fun ol _ => by simp [weight]⟩
      intro t ht
      obtain rfl : t = s := by simpa using ht
      exact hc.resolve_left hstop.1
    · rw [if_neg hstop]
      have hgate : s.compl = false ∧ ∃ c d, N.IsGate s.index c d := by
        rcases hc with rfl | ⟨h0, hlt⟩
        · exact ⟨rfl, a, b, g⟩
        · have hne : s ≠ ⟨n, false⟩ := fun e => by rw [e] at hlt; exact absurd hlt (lt_irrefl _)
          have hn := h.isGate_lt g
          have hcomp : s.compl = false := by
            by_contra hcc
            exact hstop ⟨hne, Or.inl (by simpa using hcc)⟩
          refine ⟨hcomp, ?_⟩
          have hlen : s.index < N.nodes.length := by omega
          refine ⟨_, _, h.isGate_of (by omega) (fun hi => hstop ⟨hne, Or.inr (Or.inl ⟨hroot, isPi_of_input h hpi hi⟩)⟩)
            (List.getElem?_eq_getElem hlen)⟩
      obtain ⟨hcomp, c, d, g'⟩ := hgate
      have hlt := h.isGate_lt g'
      have hsn : s.index ≤ n := by
        rcases hc with rfl | ⟨_, hh⟩
        · exact le_rfl
        · omega
      obtain ⟨_, _, nd, hnd, _, rfl, rfl⟩ := id g'
      rw [hnd]
      dsimp only
      obtain ⟨l1, e1, n1, b1, v1, w1⟩ := ih nd.c0 acc (by omega) (Or.inr ⟨by omega, by omega⟩)
      rw [e1]
      dsimp only
      obtain ⟨l2, e2, n2, b2, v2, w2⟩ := ih nd.c1 (acc ++ l1) (by omega) (Or.inr ⟨by omega, by omega⟩)
      rw [e2]
      refine ⟨l1 ++ l2, by rw [List.append_assoc], by simp [n1], ?_, ?_, ?_⟩
      · intro t ht
        rcases List.mem_append.1 ht with ht | ht
        · exact b1 t ht
        · exact b2 t ht
      · intro v hv
        rw [conj_append, v1 v hv, v2 v hv]
        have := hv.gate _ _ _ g'
        simp only [Sig.val, hcomp, Bool.false_bne] at this ⊢
        simpa using this.symm
      · intro ol hol
        have e : weight ol (l1 ++ l2) = weight ol l1 + weight ol l2 := by simp [weight]
        have := two_pow_add (hol _ _ _ g')
        have := w1 ol hol
        have := w2 ol hol
        omega

/-! ### removing duplicates -/

theorem dedup_spec : ∀ (l : List Sig), match dedup l with
    | none => ∀ v, conj v l = false
    | some r => r.Sublist l ∧ (∀ v, conj v r = conj v l) ∧ (l ≠ [] → r ≠ [])
  | [] => by simp [dedup]
  | [a] => by simp [dedup]
  | a :: b :: l => by
    have ih := dedup_spec (b :: l)
    unfold dedup
    by_cases hab : a = b.not
    · rw [if_pos hab]
      intro v
      subst hab
      simp only [conj_cons, Sig.val_not]
      cases b.val v <;> simp
    · rw [if_neg hab]
      cases hd : dedup (b :: l) with
      | none =>
        rw [hd] at ih
        intro v
        rw [conj_cons, ih v, Bool.and_false]
      | some r =>
        rw [hd] at ih
        obtain ⟨h1, h2, h3⟩ := ih
        dsimp only
        by_cases e : a ≠ b
        · rw [if_pos e]
          refine ⟨h1.cons_cons a, ?_, by simp⟩
          · intro v
            rw [conj_cons, conj_cons, h2]
        · rw [if_neg e]
          have e : a = b := by simpa using e
          refine ⟨h1.cons a, ?_, fun _ => h3 (by simp)⟩
          intro v
          rw [h2, conj_cons v a, e, conj_cons]
          cases b.val v <;> simp

theorem unify_spec {l : List Sig} (hl : l ≠ []) :
    (unify l).Subperm l ∧ (unify l = [] → ∀ v, conj v l = false) ∧ (unify l ≠ [] → ∀ v, conj v (unify l) = conj v l) := by
  have hp := List.perm_insertionSort (fun a b => litLe a b = true) l
  have hne : l.insertionSort (fun a b => litLe a b = true) ≠ [] := fun e => hl (by rw [e] at hp; simpa using hp)
  have := dedup_spec (l.insertionSort (fun a b => litLe a b = true))
  unfold unify
  cases hd : dedup (l.insertionSort (fun a b => litLe a b = true)) with
  | none =>
    rw [hd] at this
    refine ⟨by simp, fun _ v => ?_, by simp⟩
    rw [← conj_perm hp]; exact this v
  | some r =>
    rw [hd] at this
    obtain ⟨h1, h2, h3⟩ := this
    exact ⟨h1.subperm.trans hp.subperm, fun e => absurd e (h3 hne), fun _ v => (h2 v).trans (conj_perm hp)⟩

/-! ### building the supergate -/

theorem findLeftGo_total (lev : List Nat) (super : List Sig) (r : Nat) : ∀ (k : Nat), k ≤ super.length →
    ∃ i, findLeftGo lev super r k = some i ∧ i ≤ k
  | 0, _ => ⟨0, rfl, le_rfl⟩
  | k + 1, hk => by
    unfold findLeftGo
    rw [List.getElem?_eq_getElem (show k < super.length by omega)]
    dsimp only
    by_cases h : levOf lev super[k] ≠ r
    · rw [if_pos h]; exact ⟨k + 1, rfl, le_rfl⟩
    · rw [if_neg h]
      obtain ⟨i, e, hi⟩ := findLeftGo_total lev super r k (by omega)
      exact ⟨i, e, by omega⟩

theorem findLeft_total (lev : List Nat) (super : List Sig) :
    ∃ i, findLeft lev super = some i ∧ i ≤ super.length - 2 := by
  unfold findLeft
  by_cases h3 : super.length < 3
  · rw [if_pos h3]; exact ⟨0, rfl, by omega⟩
  · rw [if_neg h3, List.getElem?_eq_getElem (show super.length - 2 < super.length by omega)]
    exact findLeftGo_total lev super _ _ (by omega)

theorem permuteGo_total (D : Aig) (super : List Sig) (left : Nat) (a b : Sig) : ∀ (k : Nat), k ≤ super.length →
    permuteGo D super left a b k = some none ∨
      ∃ i, permuteGo D super left a b k = some (some i) ∧ left ≤ i ∧ i < k
  | 0, _ => Or.inl rfl
  | k + 1, hk => by
    unfold permuteGo
    by_cases h0 : k < left
    · rw [if_pos h0]; exact Or.inl rfl
    rw [if_neg h0, List.getElem?_eq_getElem (show k < super.length by omega)]
    dsimp only
    have hit : ∃ i, (some (some k) : Option (Option Nat)) = some (some i) ∧ left ≤ i ∧ i < k + 1 :=
      ⟨k, rfl, by omega, by omega⟩
    by_cases h1 : super[k].index = 0
    · rw [if_pos h1]; exact Or.inr hit
    rw [if_neg h1]
    by_cases h2 : a.index = super[k].index
    · rw [if_pos h2]
      by_cases h3 : b.index = super[k].index
      · rw [if_pos h3]; exact Or.inl rfl
      · rw [if_neg h3]; exact Or.inr hit
    rw [if_neg h2]
    by_cases h4 : D.findAnd a super[k] = true
    · rw [if_pos h4]
      by_cases h3 : b.index = super[k].index
      · rw [if_pos h3]; exact Or.inl rfl
      · rw [if_neg h3]; exact Or.inr hit
    rw [if_neg h4]
    rcases permuteGo_total D super left a b k (by omega) with e | ⟨i, e, h5, h6⟩
    · exact Or.inl e
    · exact Or.inr ⟨i, e, h5, by omega⟩

theorem swap_perm {α : Type} (l : List α) (i j : Nat) {a b : α} (hi : l[i]? = some a) (hj : l[j]? = some b) :
    ((l.set i b).set j a).Perm l := by
  have hi' := lt_of_getElem? hi
  have hj' := lt_of_getElem? hj
  rw [List.getElem?_eq_getElem hi'] at hi
  rw [List.getElem?_eq_getElem hj'] at hj
  obtain rfl : l[i] = a := by simpa using hi
  obtain rfl : l[j] = b := by simpa using hj
  exact List.set_set_perm hi' hj'

theorem permute_spec (D : Aig) (super : List Sig) (left : Nat) (h : 2 ≤ super.length) (hl : left ≤ super.length - 2) :
    permute D super left = some super ∨ ∃ (i : Nat) (s t : Sig), left ≤ i ∧ i ≤ super.length - 2 ∧ super[i]? = some s ∧
      super[super.length - 2]? = some t ∧
      permute D super left = some ((super.set i t).set (super.length - 2) s) := by
  unfold permute
  dsimp only
  by_cases h0 : left = super.length - 2
  · rw [if_pos h0]; exact Or.inl rfl
  rw [if_neg h0, List.getElem?_eq_getElem (show super.length - 2 + 1 < super.length by omega),
    List.getElem?_eq_getElem (show super.length - 2 < super.length by omega)]
  dsimp only
  by_cases h1 : super[super.length - 2 + 1].index = 0 ∨ super[super.length - 2].index = 0 ∨
      super[super.length - 2 + 1].index = super[super.length - 2].index
  · rw [if_pos h1]; exact Or.inl rfl
  rw [if_neg h1]
  rcases permuteGo_total D super left super[super.length - 2 + 1] super[super.length - 2] (super.length - 2 + 1)
    (by omega) with e | ⟨i, e, h5, h6⟩
  · rw [e]; exact Or.inl rfl
  · rw [e]
    dsimp only
    rw [List.getElem?_eq_getElem (show i < super.length by omega)]
    exact Or.inr ⟨i, super[i], super[super.length - 2], h5, by omega, List.getElem?_eq_getElem _, rfl, rfl⟩

theorem permute_perm (D : Aig) (super : List Sig) (left : Nat) (h : 2 ≤ super.length) (hl : left ≤ super.length - 2) :
    ∃ l, permute D super left = some l ∧ l.Perm super := by
  rcases permute_spec D super left h hl with e | ⟨i, s, t, _, _, hs, ht, e⟩
  · exact ⟨_, e, List.Perm.refl _⟩
  · exact ⟨_, e, swap_perm _ _ _ hs ht⟩

theorem bubble_perm (lev : List Nat) (s : Sig) : ∀ (l : List Sig), (bubble lev s l).Perm (s :: l)
  | [] => List.Perm.refl _
  | a :: l => by
    unfold bubble
    by_cases h : levOf lev s ≤ levOf lev a
    · rw [if_pos h]
    · rw [if_neg h]
      exact ((bubble_perm lev s l).cons a).trans (List.Perm.swap s a l)

theorem pushUnique_spec (lev : List Nat) (l : List Sig) (s : Sig) :
    (∀ t ∈ pushUnique lev l s, t = s ∨ t ∈ l) ∧ (pushUnique lev l s).length ≤ l.length + 1 ∧ pushUnique lev l s ≠ [] ∧
      ∀ v, conj v (pushUnique lev l s) = (s.val v && conj v l) := by
  unfold pushUnique
  by_cases h : s ∈ l
  · rw [if_pos h]
    refine ⟨fun t ht => Or.inr ht, by omega, List.ne_nil_of_mem h, fun v => ?_⟩
    cases hc : conj v l with
    | false => simp
    | true =>
      have : s.val v = true := (List.all_eq_true.1 hc) s h
      simp [this]
  · rw [if_neg h]
    have hp : ((bubble lev s l.reverse).reverse).Perm (s :: l) :=
      ((List.reverse_perm _).trans (bubble_perm lev s l.reverse)).trans ((List.reverse_perm l).cons s)
    refine ⟨fun t ht => by simpa using hp.mem_iff.1 ht, by rw [hp.length_eq]; simp, fun e => ?_, fun v => ?_⟩
    · rw [e] at hp
      exact absurd (hp.length_eq) (by simp)
    · rw [conj_perm hp, conj_cons]

theorem createAndL_len (D : Aig) (lev : List Nat) (a b : Sig) (h : lev.length = D.nodes.length) :
    (createAndL D lev a b).2.1.length = (createAndL D lev a b).1.nodes.length := by
  unfold createAndL
  dsimp only
  rcases createAnd_cases D a b with e | ⟨c, d, _, _, _, _, _, e⟩
  · rw [e, if_pos rfl]; exact h
  · rw [e]
    have : (D.addAnd c d).1.nodes.length = D.nodes.length + 1 := by simp
    rw [this, if_neg (by omega)]
    simp [h]

theorem superLoop_spec : ∀ (f : Nat) (D : Aig) (lev : List Nat) (super : List Sig), WF D → lev.length = D.nodes.length →
    (∀ s ∈ super, D.Valid s) → super ≠ [] → super.length ≤ f →
    ∃ D' lev' s, superLoop f D lev super = some (D', lev', s) ∧ GateSpec D (fun v => conj v super) (D', s) ∧
      lev'.length = D'.nodes.length := by
  intro f
  induction f with
  | zero =>
    intro D lev super _ _ _ hne hlen
    exact absurd (List.eq_nil_of_length_eq_zero (by omega)) hne
  | succ f ih =>
    intro D lev super hD hlev hval hne hlen
    match super, hne with
    | [s], _ =>
      exact ⟨D, lev, s, rfl, (GateSpec.id hD (hval s (by simp))).mono (fun v _ => by simp [conj]), hlev⟩
    | a :: b :: l, _ =>
      unfold superLoop
      have h2 : 2 ≤ (a :: b :: l).length := by simp
      generalize hsup : a :: b :: l = super at *
      have hall : (super.all fun s => decide (s.index < lev.length)) = true := by
        rw [List.all_eq_true]
        intro s hs
        have := hval s hs
        simp only [Valid] at this
        simp [hlev, this]
      obtain ⟨left, e1, hleft⟩ := findLeft_total lev super
      obtain ⟨p, e2, hp⟩ := permute_perm D super left h2 hleft
      have hplen := hp.length_eq
      match hr : p.reverse with
      | [] => have := congrArg List.length hr; simp only [List.length_reverse, List.length_nil] at this; omega
      | [x] => have := congrArg List.length hr; simp only [List.length_reverse, List.length_singleton] at this; omega
      | x :: y :: rest =>
        have hp' : super.Perm (x :: y :: rest.reverse) := by
          have := hp.symm.trans (List.reverse_perm p).symm
          rw [hr] at this
          exact this.trans (((List.reverse_perm rest).symm.cons y).cons x)
        have hx : D.Valid x := hval x (hp'.mem_iff.2 (by simp))
        have hy : D.Valid y := hval y (hp'.mem_iff.2 (by simp))
        have g := createAnd_spec hD hx hy
        have hl := createAndL_len D lev x y hlev
        obtain ⟨u1, u2, u3, u4⟩ := pushUnique_spec (createAndL D lev x y).2.1 rest.reverse (createAndL D lev x y).2.2
        have hlen' := hp'.length_eq
        simp only [List.length_cons] at hlen'
        have hl5 : (pushUnique (createAndL D lev x y).2.1 rest.reverse (createAndL D lev x y).2.2).length ≤ f :=
          u2.trans (by omega)
        obtain ⟨D', lev', s, e, g', hlev'⟩ := ih (createAndL D lev x y).1 (createAndL D lev x y).2.1
          (pushUnique (createAndL D lev x y).2.1 rest.reverse (createAndL D lev x y).2.2) g.wf hl
          (fun t ht => by
            rcases u1 t ht with rfl | ht
            · exact g.valid
            · exact g.ext.valid (hval t (hp'.mem_iff.2 (by simp only [List.mem_cons]; tauto)))) u3 hl5
        refine ⟨D', lev', s, ?_, ?_, hlev'⟩
        · subst hsup
          dsimp only
          rw [if_pos hall, e1]
          dsimp only
          rw [e2]
          dsimp only
          rw [hr]
          exact e
        · have := g.bind g'
          refine { this with val := fun v hv => ?_ }
          have hgv : Sig.val v (D.createAnd x y).2 = (x.val v && y.val v) := g.val v (g'.ext.models hv)
          rw [this.val v hv, u4 v, conj_perm hp', conj_cons, conj_cons, ← Bool.and_assoc, ← hgv]
          rfl

theorem buildSuper_spec {sort : (Sig → Nat × Nat) → List Sig → List Sig} (hsort : ∀ key l, (sort key l).Perm l)
    (D : Aig) (lev : List Nat) (super : List Sig) (hD : WF D) (hlev : lev.length = D.nodes.length)
    (hval : ∀ s ∈ super, D.Valid s) (hne : super ≠ []) :
    ∃ D' lev' s, buildSuper sort D lev super = some (D', lev', s) ∧ GateSpec D (fun v => conj v super) (D', s) ∧
      lev'.length = D'.nodes.length := by
  have hp := hsort (fun s => (levOf lev s, s.index)) super
  have hall : (super.all fun s => decide (s.index < lev.length)) = true := by
    rw [List.all_eq_true]
    intro s hs
    have := hval s hs
    simp only [Valid] at this
    simp [hlev, this]
  obtain ⟨D', lev', s, e, g, hl⟩ := superLoop_spec (super.length + 1) D lev _ hD hlev
    (fun s hs => hval s (hp.mem_iff.1 hs)) (fun e => hne (by rw [e] at hp; simpa using hp)) (by rw [hp.length_eq]; omega)
  refine ⟨D', lev', s, ?_, g.mono (fun v _ => conj_perm hp), hl⟩
  unfold buildSuper
  rw [if_pos hall, e]

/-! ### the recursion -/

/-- invariant of the state: `base` is the new network with the inputs only -/
structure BInv (N base : Aig) (st : BSt) : Prop where
  grown : Grown base st.ntk
  lev : st.lev.length = st.ntk.nodes.length
  zero : ∃ s, st.map 0 = some s
  pi : ∀ n ∈ N.inputs, ∃ s, st.map n = some s
  valid : ∀ n s, st.map n = some s → st.ntk.Valid s
  val : ∀ n s, st.map n = some s → ∀ x v v', N.Consistent x v → st.ntk.Consistent x v' → s.val v' = v n

/-- what a step yields -/
structure BStep (N base : Aig) (st st' : BSt) : Prop where
  inv : BInv N base st'
  grown : Grown st.ntk st'.ntk

theorem balanceKids_spec {N base : Aig} {rec : BSt → Nat → Option (BSt × Sig)} {P : Nat → Prop}
    (hrec : ∀ st n, BInv N base st → P n → ∃ st' s, rec st n = some (st', s) ∧ BStep N base st st' ∧ st'.ntk.Valid s ∧
      ∀ x v v', N.Consistent x v → st'.ntk.Consistent x v' → s.val v' = v n) :
    ∀ (l : List Sig) (st : BSt), BInv N base st → (∀ s ∈ l, P s.index) →
      ∃ st' l', balanceKids rec st l = some (st', l') ∧ BStep N base st st' ∧ (∀ s ∈ l', st'.ntk.Valid s) ∧
        l'.length = l.length ∧
        ∀ x v v', N.Consistent x v → st'.ntk.Consistent x v' → l'.map (·.val v') = l.map (·.val v) := by
  intro l
  induction l with
  | nil => intro st h _; exact ⟨st, [], rfl, ⟨h, .refl h.grown.wf⟩, by simp, rfl, by simp⟩
  | cons a l ih =>
    intro st h hl
    obtain ⟨st1, r, e1, s1, w1, v1⟩ := hrec st a.index h (hl a (by simp))
    obtain ⟨st2, l', e2, s2, w2, hlen, v2⟩ := ih st1 s1.inv (fun s hs => hl s (by simp [hs]))
    refine ⟨st2, r.xorb a.compl :: l', ?_, ⟨s2.inv, s1.grown.trans s2.grown⟩, ?_, by simp [hlen], ?_⟩
    · unfold balanceKids
      rw [e1]
      dsimp only
      rw [e2]
    · intro s hs
      rcases List.mem_cons.1 hs with rfl | hs
      · exact s2.grown.ext.valid w1
      · exact w2 s hs
    · intro x v v' hv hv'
      rw [List.map_cons, List.map_cons, v2 x v v' hv hv']
      congr 1
      have := v1 x v v' hv (s2.grown.ext.consistent hv')
      rw [Sig.val_xorb, this]
      simp [Sig.val, Bool.xor_comm]

theorem conj_map {v v' : Nat → Bool} {l l' : List Sig} (h : l'.map (·.val v') = l.map (·.val v)) :
    conj v' l' = conj v l := by
  have e : ∀ (w : Nat → Bool) (k : List Sig), conj w k = (k.map (·.val w)).all id := fun w k => by simp [conj, Function.comp_def]
  rw [e, e, h]

theorem balanceRec_spec {sort : (Sig → Nat × Nat) → List Sig → List Sig} (hsort : ∀ key l, (sort key l).Perm l)
    {N base : Aig} (h : WF N) (hpi : N.inputs.length = N.numPis) :
    ∀ (f : Nat) (st : BSt) (n : Nat), BInv N base st → (n < f ∧ n < N.nodes.length) →
      ∃ st' s, balanceRec sort N f st n = some (st', s) ∧ BStep N base st st' ∧ st'.ntk.Valid s ∧
        ∀ x v v', N.Consistent x v → st'.ntk.Consistent x v' → s.val v' = v n := by
  intro f
  induction f with
  | zero => intro st n _ hn; omega
  | succ f ih =>
    intro st n hI hn
    unfold balanceRec
    cases hm : st.map n with
    | some s => exact ⟨st, s, rfl, ⟨hI, .refl hI.grown.wf⟩, hI.valid n s hm, hI.val n s hm⟩
    | none =>
      dsimp only
      have h0 : n ≠ 0 := by
        rintro rfl
        obtain ⟨s, hs⟩ := hI.zero
        rw [hm] at hs; cases hs
      have hni : n ∉ N.inputs := by
        intro hi
        obtain ⟨s, hs⟩ := hI.pi n hi
        rw [hm] at hs; cases hs
      have g := h.isGate_of h0 hni (List.getElem?_eq_getElem hn.2)
      obtain ⟨l, e1, hne, hb, hv, _⟩ := cone_spec h hpi g (f + 1) ⟨n, false⟩ [] hn.1 (Or.inl rfl)
      rw [e1, List.nil_append]
      dsimp only
      obtain ⟨u1, u2, u3⟩ := unify_spec hne
      have hsub : ∀ s ∈ unify l, s.index < f ∧ s.index < N.nodes.length := fun s hs => by
        have := hb s (u1.subset hs); omega
      cases hu : unify l with
      | nil =>
        have hval : ∀ x v v', N.Consistent x v → st.ntk.Consistent x v' → (Sig.const false).val v' = v n := by
          intro x v v' hc hc'
          have := hv v hc.models
          rw [u2 hu v] at this
          simp only [Sig.val, Bool.false_bne] at this
          simp only [Sig.val, Sig.const]
          rw [hc'.models.const]
          simpa using this
        have hvalid : st.ntk.Valid (Sig.const false) := hI.grown.wf.valid_const false
        refine ⟨_, _, rfl, ⟨⟨hI.grown, hI.lev, ?_, ?_, ?_, ?_⟩, .refl hI.grown.wf⟩, hvalid, hval⟩
        · dsimp only
          rw [if_neg (fun e => h0 e.symm)]; exact hI.zero
        · intro k hk
          dsimp only
          rw [if_neg (fun e : k = n => hni (e ▸ hk))]; exact hI.pi k hk
        · intro k s hk
          dsimp only at hk
          by_cases e : k = n
          · rw [if_pos e] at hk; cases hk; exact hvalid
          · rw [if_neg e] at hk; exact hI.valid k s hk
        · intro k s hk
          dsimp only at hk
          by_cases e : k = n
          · rw [if_pos e] at hk; cases hk; rw [e]; exact hval
          · rw [if_neg e] at hk; exact hI.val k s hk
      | cons a r =>
        dsimp only
        rw [← hu]
        obtain ⟨st1, l', e2, s1, w1, hlen, v1⟩ := balanceKids_spec (P := fun k => k < f ∧ k < N.nodes.length)
          (fun st n hI hn => ih st n hI hn) (unify l) st hI hsub
        rw [e2]
        have hne' : unify l ≠ [] := by rw [hu]; simp
        have hne1 : l' ≠ [] := fun e => by rw [e, hu] at hlen; simp at hlen
        have hconj : ∀ x v v', N.Consistent x v → st1.ntk.Consistent x v' → conj v' l' = v n := by
          intro x v v' hc hc'
          rw [conj_map (v1 x v v' hc hc'), u3 hne' v, hv v hc.models]
          simp [Sig.val]
        match hl' : l', hne1 with
        | [s], _ =>
          refine ⟨st1, s, rfl, s1, w1 s (by simp), fun x v v' hc hc' => ?_⟩
          rw [← hconj x v v' hc hc']
          simp [conj]
        | s :: t :: rest, _ =>
          dsimp only
          obtain ⟨D', lev', y, e3, g3, hlev⟩ := buildSuper_spec hsort st1.ntk st1.lev (s :: t :: rest) s1.inv.grown.wf
            s1.inv.lev w1 (by simp)
          rw [e3]
          have hval : ∀ x v v', N.Consistent x v → D'.Consistent x v' → y.val v' = v n := by
            intro x v v' hc hc'
            rw [← hconj x v v' hc (g3.ext.consistent hc')]
            exact g3.val v' hc'.models
          refine ⟨_, _, rfl, ⟨⟨s1.inv.grown.trans g3.grown, hlev, ?_, ?_, ?_, ?_⟩, s1.grown.trans g3.grown⟩, g3.valid, hval⟩
          · dsimp only
            rw [if_neg (fun e => h0 e.symm)]; exact s1.inv.zero
          · intro k hk
            dsimp only
            rw [if_neg (fun e : k = n => hni (e ▸ hk))]; exact s1.inv.pi k hk
          · intro k s hk
            dsimp only at hk
            by_cases e : k = n
            · rw [if_pos e] at hk; cases hk; exact g3.valid
            · rw [if_neg e] at hk; exact g3.ext.valid (s1.inv.valid k s hk)
          · intro k s hk
            dsimp only at hk
            by_cases e : k = n
            · rw [if_pos e] at hk; cases hk; rw [e]; exact hval
            · rw [if_neg e] at hk
              exact fun x v v' hc hc' => s1.inv.val k s hk x v v' hc (g3.ext.consistent hc')

/-! ### the initial state -/

theorem initMap_spec : ∀ (l : List Nat) (D : Aig) (m : Nat → Option Sig), Built D → D.inputs.length = D.numPis →
    l.Nodup → (∀ n s, m n = some s → D.Valid s ∧ n ∉ l) →
    let r := initMap l D m
    Built r.1 ∧ r.1.inputs.length = r.1.numPis ∧ r.1.numPis = D.numPis + l.length ∧ r.1.outputs = D.outputs ∧
      r.1.numPos = D.numPos ∧ Ext D r.1 ∧
      (∀ n s, m n = some s → r.2 n = some s) ∧
      (∀ n s, r.2 n = some s → r.1.Valid s) ∧
      (∀ n s, r.2 n = some s → m n = some s ∨ ∃ (k : Nat), l[k]? = some n ∧ s.compl = false ∧ r.1.inputs[D.numPis + k]? = some s.index) ∧
      ∀ n ∈ l, ∃ s, r.2 n = some s := by
  intro l
  induction l with
  | nil => intro D m hD hl _ hm; exact ⟨hD, hl, rfl, rfl, rfl, .refl D, fun _ _ h => h, fun n s h => (hm n s h).1, fun _ _ h => Or.inl h, by simp⟩
  | cons a l ih =>
    intro D m hD hl hnd hm
    have hext := ext_createPi D
    have hnd' := List.nodup_cons.1 hnd
    have hlen1 : D.createPi.1.inputs.length = D.createPi.1.numPis := by simp [createPi, hl]
    obtain ⟨h1, h2, h3, h4, h5, h6, h7, h8, h9, h10⟩ := ih D.createPi.1 (fun k => if k = a then some D.createPi.2 else m k)
      (.pi hD) hlen1 hnd'.2 (by
        intro n s hs
        by_cases e : n = a
        · rw [if_pos e] at hs; cases hs
          exact ⟨by simp [Valid, createPi], by rw [e]; exact hnd'.1⟩
        · rw [if_neg e] at hs
          exact ⟨hext.valid (hm n s hs).1, fun hn => (hm n s hs).2 (by simp [hn])⟩)
    have hdef : initMap (a :: l) D m = initMap l D.createPi.1 (fun k => if k = a then some D.createPi.2 else m k) := rfl
    dsimp only
    rw [hdef]
    have hp : D.createPi.1.numPis = D.numPis + 1 := rfl
    have hanew : ∀ n s, m n = some s → n ≠ a := fun n s hs e => (hm n s hs).2 (by simp [e])
    refine ⟨h1, h2, by rw [h3, hp, List.length_cons]; omega, h4, h5, hext.trans h6, ?_, h8, ?_, ?_⟩
    · intro n s hs
      exact h7 n s (by rw [if_neg (hanew n s hs)]; exact hs)
    · intro n s hs
      rcases h9 n s hs with e | ⟨k, e1, e2, e3⟩
      · by_cases ea : n = a
        · rw [if_pos ea] at e; cases e
          refine Or.inr ⟨0, by simp [ea], rfl, ?_⟩
          refine prefix_getElem? h6.inputs ?_
          simp [createPi, ← hl]
        · rw [if_neg ea] at e; exact Or.inl e
      · refine Or.inr ⟨k + 1, by simpa using e1, e2, ?_⟩
        rw [hp] at e3
        rw [← e3]; congr 1; omega
    · intro n hn
      rcases List.mem_cons.1 hn with rfl | hn
      · exact ⟨_, h7 n D.createPi.2 (if_pos rfl)⟩
      · exact h10 n hn

theorem initSt_spec {N : Aig} (hN : Built N) (hpi : N.inputs.length = N.numPis) :
    BInv N (initSt N).ntk (initSt N) ∧ Built (initSt N).ntk ∧ (initSt N).ntk.numPis = N.numPis ∧
      (initSt N).ntk.inputs.length = N.numPis ∧ (initSt N).ntk.outputs = [] ∧ (initSt N).ntk.numPos = 0 := by
  have htake : N.inputs.take N.numPis = N.inputs := by rw [← hpi, List.take_length]
  obtain ⟨h1, h2, h3, h4, h5, h6, h7, h8, h9, h10⟩ := initMap_spec N.inputs Aig.empty
    (fun n => if n = 0 then some (Sig.const false) else none) .empty rfl hN.wf.inputsNodup (by
      intro n s hs
      by_cases e : n = 0
      · rw [if_pos e] at hs; cases hs
        refine ⟨by decide, fun hn => ?_⟩
        have := (hN.wf.inputs_lt hn).1; omega
      · rw [if_neg e] at hs; cases hs)
  have hst : initSt N = ⟨(initMap N.inputs Aig.empty (fun n => if n = 0 then some (Sig.const false) else none)).1,
      List.replicate (initMap N.inputs Aig.empty (fun n => if n = 0 then some (Sig.const false) else none)).1.nodes.length 0,
      (initMap N.inputs Aig.empty (fun n => if n = 0 then some (Sig.const false) else none)).2⟩ := by
    unfold initSt
    rw [htake]
  rw [hst]
  dsimp only at h3 ⊢
  have hnp : Aig.empty.numPis = 0 := rfl
  rw [hnp, Nat.zero_add] at h3
  refine ⟨⟨.refl h1.wf, by simp, ⟨_, h7 0 (Sig.const false) (if_pos rfl)⟩, h10, h8, ?_⟩, h1, h3.trans hpi, by rw [h2, h3, hpi], h4, h5⟩
  intro n s hs x v v' hc hc'
  rcases h9 n s hs with e | ⟨k, e1, e2, e3⟩
  · by_cases e0 : n = 0
    · rw [if_pos e0] at e; cases e
      rw [e0, hc.models.const]
      simp [Sig.val, Sig.const, hc'.models.const]
    · rw [if_neg e0] at e; cases e
  · rw [hnp, Nat.zero_add] at e3
    rw [hc.input k n e1, Sig.val, e2, hc'.input k _ e3]
    simp

end Verif.Balance
