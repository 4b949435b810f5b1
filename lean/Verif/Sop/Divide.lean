import Verif.Sop.Basic

set_option autoImplicit false

/-!
# Proofs about algebraic division
-/

namespace Verif.Sop

/-! ### sets of literals -/

theorem getLsbD_shift1 (i j : Nat) (hi : i < 64) : (1#64 <<< i).getLsbD j = decide (j = i) := by
  rw [BitVec.getLsbD_shiftLeft]
  by_cases h : j = i
  · subst h; simp [hi]
  · by_cases h1 : j < i
    · simp [h1, h]
    · have : j - i ≠ 0 := by omega
      simp [h, h1, this, BitVec.getLsbD_one]

theorem hasLit_eq (c : Product) {l : Nat} (h : l < 64) : hasLit c l = c.getLsbD l := by
  unfold hasLit
  cases hc : c.getLsbD l with
  | true =>
    rw [bne_iff_ne]
    intro e
    have := congrArg (fun b => BitVec.getLsbD b l) e
    simp [BitVec.getLsbD_and, hc, getLsbD_shift1 l l h] at this
  | false =>
    rw [bne_eq_false_iff_eq]
    apply BitVec.eq_of_getLsbD_eq
    intro i hi
    rw [BitVec.getLsbD_and, getLsbD_shift1 l i h]
    by_cases e : i = l
    · subst e; simp [hc]
    · simp [e]

/-- inclusion of literal sets -/
def Sub (a b : Product) : Prop := ∀ i, a.getLsbD i = true → b.getLsbD i = true

theorem Sub.refl (a : Product) : Sub a a := fun _ h => h

theorem Sub.trans {a b c : Product} (h : Sub a b) (g : Sub b c) : Sub a c := fun i hi => g i (h i hi)

theorem Sub.antisymm {a b : Product} (h : Sub a b) (g : Sub b a) : a = b := by
  apply BitVec.eq_of_getLsbD_eq
  intro i _
  cases ha : a.getLsbD i with
  | true => exact (h i ha).symm
  | false => cases hb : b.getLsbD i with
    | true => rw [g i hb] at ha; cases ha
    | false => rfl

theorem and_eq_iff (c d : Product) : (c &&& d == d) = true ↔ Sub d c := by
  rw [beq_iff_eq]
  constructor
  · intro h i hi
    rw [← h, BitVec.getLsbD_and] at hi
    simp at hi; exact hi.1
  · intro h
    apply BitVec.eq_of_getLsbD_eq
    intro i _
    rw [BitVec.getLsbD_and]
    cases hd : d.getLsbD i with
    | true => simp [h i hd]
    | false => simp

theorem getLsbD_diff (c d : Product) {i : Nat} (hi : i < 64) :
    (c &&& ~~~d).getLsbD i = (c.getLsbD i && !d.getLsbD i) := by
  rw [BitVec.getLsbD_and, BitVec.getLsbD_not]; simp [hi]

theorem lt_of_getLsbD {c : Product} {i : Nat} (h : c.getLsbD i = true) : i < 64 := by
  apply Classical.byContradiction
  intro hn
  rw [BitVec.getLsbD_of_ge c i (by omega)] at h
  cases h

/-- the sets have no common element -/
def Disj (a b : Product) : Prop := ∀ i, a.getLsbD i = true → b.getLsbD i = false

/-- `c` is the disjoint union of `d` and `q` -/
def Fit (q d c : Product) : Prop := Sub d c ∧ q = c &&& ~~~d

theorem fit_iff {q d c : Product} : Fit q d c ↔ c = d ||| q ∧ Disj d q := by
  constructor
  · rintro ⟨h1, rfl⟩
    refine ⟨?_, ?_⟩
    · apply BitVec.eq_of_getLsbD_eq
      intro i hi
      rw [BitVec.getLsbD_or, getLsbD_diff _ _ hi]
      cases hd : d.getLsbD i with
      | true => simp [h1 i hd]
      | false => simp
    · intro i hi
      rw [getLsbD_diff _ _ (lt_of_getLsbD hi), hi]; simp
  · rintro ⟨rfl, h⟩
    refine ⟨fun i hi => by rw [BitVec.getLsbD_or, hi]; rfl, ?_⟩
    apply BitVec.eq_of_getLsbD_eq
    intro i hi
    rw [getLsbD_diff _ _ hi, BitVec.getLsbD_or]
    cases hd : d.getLsbD i with
    | true => simp [h i hd]
    | false => simp

theorem Fit.c_eq {q d c c' : Product} (h : Fit q d c) (g : Fit q d c') : c = c' := by
  rw [(fit_iff.1 h).1, (fit_iff.1 g).1]

theorem Fit.sub {q d c : Product} (h : Fit q d c) : Sub q c := by
  intro i hi; rw [(fit_iff.1 h).1, BitVec.getLsbD_or, hi]; simp

theorem Fit.disj {q d c : Product} (h : Fit q d c) : Disj d q := (fit_iff.1 h).2

theorem Fit.mem {q d c : Product} (h : Fit q d c) (i : Nat) : c.getLsbD i = (d.getLsbD i || q.getLsbD i) := by
  rw [(fit_iff.1 h).1, BitVec.getLsbD_or]

theorem Fit.symm {q d c : Product} (h : Fit q d c) : Fit d q c := by
  rw [fit_iff] at *
  refine ⟨by rw [h.1, BitVec.or_comm], fun i hi => ?_⟩
  cases hd : d.getLsbD i with
  | true => rw [h.2 i hd] at hi; cases hi
  | false => rfl

theorem Fit.d_eq {q d d' c : Product} (h : Fit q d c) (g : Fit q d' c) : d = d' := by
  rw [h.symm.2, g.symm.2]

/-- the marker bit is not used -/
def NoMark (c : Product) : Prop := c.getLsbD 63 = false

theorem fits_iff {q d c : Product} : fits q d c = true ↔ NoMark c ∧ Fit q d c := by
  unfold fits NoMark Fit
  rw [hasLit_eq c (by omega), Bool.and_eq_true, Bool.and_eq_true, and_eq_iff, Bool.not_eq_true', beq_iff_eq, and_assoc]

theorem hasLit_mark {c : Product} : hasLit (c ||| mark) 63 = true := by
  rw [hasLit_eq _ (by omega), BitVec.getLsbD_or, mark, getLsbD_shift1 63 63 (by omega)]; simp

theorem hasLit_noMark {c : Product} (h : NoMark c) : hasLit c 63 = false := by
  rw [hasLit_eq _ (by omega)]; exact h

theorem unmark {c : Product} (h : NoMark c) : (c ||| mark) &&& ~~~mark = c := by
  apply BitVec.eq_of_getLsbD_eq
  intro i hi
  rw [getLsbD_diff _ _ hi, BitVec.getLsbD_or, mark, getLsbD_shift1 63 i (by omega)]
  by_cases e : i = 63
  · subst e; rw [show c.getLsbD 63 = false from h]; rfl
  · simp [e]

/-! ### the division loop -/

/-- the relation between the original products `F`, the divisor `G`, the marked dividend `D` and the quotient `Q` -/
structure Inv (F G D Q : Terms) : Prop where
  len : D.length = F.length
  st : ∀ (j : Nat) c, F[j]? = some c → D[j]? = some c ∨ (D[j]? = some (c ||| mark) ∧ ∃ q ∈ Q, ∃ d ∈ G, Fit q d c)

theorem markFirst_cases (q d : Product) : ∀ D : Terms,
    ((∀ c ∈ D, fits q d c = false) ∧ markFirst q d D = D) ∨
    ∃ j c, D[j]? = some c ∧ fits q d c = true ∧ markFirst q d D = D.set j (c ||| mark) := by
  intro D
  induction D with
  | nil => exact .inl ⟨by simp, rfl⟩
  | cons a D ih =>
    by_cases h : fits q d a = true
    · exact .inr ⟨0, a, rfl, h, by simp [markFirst, h]⟩
    · rcases ih with ⟨h1, h2⟩ | ⟨j, c, h1, h2, h3⟩
      · refine .inl ⟨?_, by simp [markFirst, h, h2]⟩
        intro c hc
        rcases List.mem_cons.1 hc with rfl | hc
        · simpa using h
        · exact h1 c hc
      · exact .inr ⟨j + 1, c, by simpa using h1, h2, by simp [markFirst, h, h3]⟩

/-- everything marked stays marked -/
def Le (F D D' : Terms) : Prop := ∀ (j : Nat) c, F[j]? = some c → D[j]? = some (c ||| mark) → D'[j]? = some (c ||| mark)

/-- number of unmarked products -/
def open_ (D : Terms) : Nat := D.countP fun c => !hasLit c 63

theorem open_set {D : Terms} {j : Nat} {c : Product} (h : D[j]? = some c) (hc : NoMark c) :
    open_ (D.set j (c ||| mark)) + 1 = open_ D := by
  obtain ⟨hj, e⟩ := List.getElem?_eq_some_iff.1 h
  have h0 : 0 < open_ D := by
    unfold open_
    rw [List.countP_pos_iff]
    exact ⟨c, List.mem_of_getElem? h, by simp [hasLit_noMark hc]⟩
  unfold open_ at *
  rw [List.countP_set (h := hj), e]
  simp only [hasLit_noMark hc, hasLit_mark]
  simp
  omega

variable {F G : Terms}

theorem noMark_of_ne {c : Product} (hc : NoMark c) : c ||| mark ≠ c := by
  intro e
  have h1 := hasLit_mark (c := c)
  rw [e, hasLit_noMark hc] at h1
  cases h1

theorem Inv.set {D Q : Terms} (h : Inv F G D Q) {j : Nat} {c q d : Product} (hj : D[j]? = some c)
    (hfit : NoMark c ∧ Fit q d c) (hq : q ∈ Q) (hd : d ∈ G) :
    Inv F G (D.set j (c ||| mark)) Q ∧ Le F D (D.set j (c ||| mark)) ∧ F[j]? = some c := by
  have hjl := (List.getElem?_eq_some_iff.1 hj).1
  have hFj : F[j]? = some c := by
    have hl : j < F.length := by rw [← h.len]; exact hjl
    have e : F[j]? = some F[j] := List.getElem?_eq_getElem hl
    rcases h.st j _ e with h1 | ⟨h1, _⟩
    · rw [e]; rw [h1] at hj; exact hj
    · rw [h1] at hj
      have h2 := hasLit_mark (c := F[j])
      rw [Option.some.inj hj, hasLit_noMark hfit.1] at h2
      cases h2
  refine ⟨⟨by simpa using h.len, fun k a hk => ?_⟩, ?_, hFj⟩
  · by_cases e : k = j
    · subst e
      rw [hFj] at hk; cases hk
      exact .inr ⟨by rw [List.getElem?_set_self hjl], q, hq, d, hd, hfit.2⟩
    · rw [List.getElem?_set_ne (Ne.symm e)]; exact h.st k a hk
  · intro k a hk ha
    by_cases e : k = j
    · subst e
      rw [hFj] at hk; cases hk
      rw [List.getElem?_set_self hjl]
    · rw [List.getElem?_set_ne (Ne.symm e)]; exact ha

/-- the loop over the other divisor cubes -/
theorem markAll_spec (hF : ∀ c ∈ F, NoMark c) {Q : Terms} {q d0 : Product} (hq : q ∈ Q) : ∀ (ds : Terms) (D : Terms),
    (∀ d ∈ ds, d ∈ G) → Inv F G D Q →
    let D' := ds.foldl (fun D d => if d == d0 then D else markFirst q d D) D
    Inv F G D' Q ∧ Le F D D' ∧ open_ D' ≤ open_ D ∧
    (F.Nodup → ∀ d ∈ ds, d ≠ d0 → ∀ (j : Nat) c, F[j]? = some c → Fit q d c → D'[j]? = some (c ||| mark)) := by
  intro ds
  induction ds with
  | nil => intro D _ h; exact ⟨h, fun _ _ _ h => h, Nat.le_refl _, by simp⟩
  | cons d ds ih =>
    intro D hds h
    simp only [List.foldl_cons]
    by_cases hd : d = d0
    · subst hd
      rw [if_pos (by simp)]
      obtain ⟨h1, h2, h3, h4⟩ := ih D (fun x hx => hds x (by simp [hx])) h
      refine ⟨h1, h2, h3, fun hn x hx hne => ?_⟩
      rcases List.mem_cons.1 hx with rfl | hx
      · exact absurd rfl hne
      · exact h4 hn x hx hne
    · rw [if_neg (by simpa using hd)]
      rcases markFirst_cases q d D with ⟨h1, h2⟩ | ⟨j, c, h1, h2, h3⟩
      · rw [h2]
        obtain ⟨g1, g2, g3, g4⟩ := ih D (fun x hx => hds x (by simp [hx])) h
        refine ⟨g1, g2, g3, fun hn x hx hne => ?_⟩
        rcases List.mem_cons.1 hx with rfl | hx
        · intro j c hj hc
          rcases h.st j c hj with e | ⟨e, _⟩
          · have := h1 c (List.mem_of_getElem? e)
            rw [fits_iff.2 ⟨hF c (List.mem_of_getElem? hj), hc⟩] at this
            cases this
          · exact g2 j c hj e
        · exact g4 hn x hx hne
      · rw [h3]
        have hf := fits_iff.1 h2
        obtain ⟨k1, k2, k3⟩ := h.set h1 hf hq (hds d (by simp))
        obtain ⟨g1, g2, g3, g4⟩ := ih _ (fun x hx => hds x (by simp [hx])) k1
        have hop := open_set h1 hf.1
        refine ⟨g1, fun i a hi ha => g2 i a hi (k2 i a hi ha), by omega, fun hn x hx hne => ?_⟩
        rcases List.mem_cons.1 hx with rfl | hx
        · intro i a hi ha
          have hac : a = c := ha.c_eq hf.2
          subst hac
          have hij : i = j := by
            have hil := (List.getElem?_eq_some_iff.1 hi)
            have hjl := (List.getElem?_eq_some_iff.1 k3)
            exact (List.getElem_inj hn (h₀ := hil.1) (h₁ := hjl.1)).1 (hil.2.trans hjl.2.symm)
          subst hij
          exact g2 i a hi (by rw [List.getElem?_set_self (List.getElem?_eq_some_iff.1 h1).1])
        · exact g4 hn x hx hne

/-- the full loop invariant -/
structure Loop (F G D Q : Terms) : Prop extends Inv F G D Q where
  quot : ∀ q ∈ Q, ∀ d ∈ G, ∃ c ∈ F, Fit q d c
  closed : F.Nodup → ∀ q ∈ Q, ∀ d ∈ G, ∀ (j : Nat) c, F[j]? = some c → Fit q d c → D[j]? = some (c ||| mark)
  nodup : F.Nodup → Q.Nodup
  count : open_ D + Q.length ≤ F.length

theorem Inv.mono {D Q Q' : Terms} (h : Inv F G D Q) (hQ : ∀ q ∈ Q, q ∈ Q') : Inv F G D Q' :=
  ⟨h.len, fun j c hj => (h.st j c hj).imp_right fun ⟨h1, q, hq, h2⟩ => ⟨h1, q, hQ q hq, h2⟩⟩

theorem step_spec (hF : ∀ c ∈ F, NoMark c) {D Q : Terms} (h : Loop F G D Q) (i : Nat) :
    Loop F G (divideStep G D Q i).1 (divideStep G D Q i).2 ∧ (∀ q ∈ Q, q ∈ (divideStep G D Q i).2) ∧
    (∀ (x : Product), (∀ g ∈ G, ∃ c ∈ F, Fit x g c) →
      (∀ g ∈ G, ∀ g' ∈ G, ∀ c ∈ F, Fit x g' c → Sub g c → g = g') →
      ∀ g ∈ G, ∀ c, F[i]? = some c → Fit x g c → x ∈ (divideStep G D Q i).2) := by
  have hmarked : ∀ (x : Product), (∀ g ∈ G, ∀ g' ∈ G, ∀ c ∈ F, Fit x g' c → Sub g c → g = g') →
      ∀ g ∈ G, ∀ (j : Nat) c, F[j]? = some c → Fit x g c → D[j]? ≠ some c → x ∈ Q := by
    intro x hu g hg j c hj hc hne
    rcases h.st j c hj with e | ⟨_, q, hq, d, hd, hfit⟩
    · exact absurd e hne
    · have : d = g := hu d hd g hg c (List.mem_of_getElem? hj) hc hfit.1
      subst this
      have : x = q := by rw [hc.2, hfit.2]
      rwa [this]
  unfold divideStep
  cases hD : D[i]? with
  | none =>
    refine ⟨h, fun _ h => h, fun x hx hu g hg c hc hfit => ?_⟩
    have := (List.getElem?_eq_some_iff.1 hc).1
    rw [List.getElem?_eq_none_iff, h.len] at hD; omega
  | some c =>
    dsimp only
    by_cases hm : hasLit c 63 = true
    · rw [if_pos hm]
      refine ⟨h, fun _ h => h, fun x hx hu g hg c' hc hfit => ?_⟩
      refine hmarked x hu g hg i c' hc hfit ?_
      intro e
      rw [hD] at e; cases e
      rw [hasLit_noMark (hF c (List.mem_of_getElem? hc))] at hm; cases hm
    · rw [if_neg hm]
      have hcm : NoMark c := by rw [hasLit_eq _ (by omega), Bool.not_eq_true] at hm; exact hm
      have hFi : F[i]? = some c := by
        have hl : i < F.length := by rw [← h.len]; exact (List.getElem?_eq_some_iff.1 hD).1
        have e : F[i]? = some F[i] := List.getElem?_eq_getElem hl
        rcases h.st i _ e with h1 | ⟨h1, _⟩
        · rw [e, ← h1, hD]
        · rw [hD] at h1; cases h1
          exact absurd hasLit_mark hm
      cases hfd : G.find? (fun d => c &&& d == d) with
      | none =>
        refine ⟨h, fun _ h => h, fun x hx hu g hg c' hc hfit => ?_⟩
        rw [hFi] at hc; cases hc
        rw [List.find?_eq_none] at hfd
        exact absurd ((and_eq_iff _ _).2 hfit.1) (hfd g hg)
      | some d0 =>
        dsimp only
        have hd0 : d0 ∈ G := List.mem_of_find?_eq_some hfd
        have hs0 : Sub d0 c := (and_eq_iff _ _).1 (List.find?_some (p := fun d => c &&& d == d) hfd)
        have hfit0 : Fit (c &&& ~~~d0) d0 c := ⟨hs0, rfl⟩
        generalize hq : c &&& ~~~d0 = q at hfit0 ⊢
        by_cases hall : (G.all fun d => d == d0 || D.any (fits q d)) = true
        · rw [if_pos hall]
          have hqQ : q ∈ Q ++ [q] := by simp
          have hQm : ∀ x ∈ Q, x ∈ Q ++ [q] := fun x hx => by simp [hx]
          obtain ⟨k1, k2, _⟩ := (h.toInv.mono hQm).set hD ⟨hcm, hfit0⟩ hqQ hd0
          obtain ⟨g1, g2, g3, g4⟩ := markAll_spec (d0 := d0) hF hqQ G _ (fun d hd => hd) k1
          have hop := open_set hD hcm
          -- the new quotient cube was not there before
          have hnew : F.Nodup → q ∉ Q := by
            intro hn hqQ
            have := h.closed hn q hqQ d0 hd0 i c hFi hfit0
            rw [hD] at this
            exact noMark_of_ne hcm (Option.some.inj this).symm
          refine ⟨⟨g1, ?_, ?_, ?_, ?_⟩, hQm, ?_⟩
          · intro x hx d hd
            rcases List.mem_append.1 hx with hx | hx
            · exact h.quot x hx d hd
            · simp only [List.mem_singleton] at hx; subst hx
              have := List.all_eq_true.1 hall d hd
              rw [Bool.or_eq_true, beq_iff_eq, List.any_eq_true] at this
              rcases this with rfl | ⟨c2, hc2, hf⟩
              · exact ⟨c, List.mem_of_getElem? hFi, hfit0⟩
              · obtain ⟨hm2, hf⟩ := fits_iff.1 hf
                obtain ⟨j, hj⟩ := List.getElem?_of_mem hc2
                obtain ⟨hjl, _⟩ := List.getElem?_eq_some_iff.1 hj
                have e : F[j]? = some (F[j]'(by rw [← h.len]; exact hjl)) :=
                  List.getElem?_eq_getElem (by rw [← h.len]; exact hjl)
                rcases h.st j _ e with h1 | ⟨h1, _⟩
                · rw [hj] at h1; cases h1
                  exact ⟨_, List.mem_of_getElem? e, hf⟩
                · rw [hj] at h1; cases h1
                  have := hasLit_noMark hm2
                  rw [hasLit_mark] at this; cases this
          · intro hn x hx d hd j a hj ha
            rcases List.mem_append.1 hx with hx | hx
            · exact g2 j a hj (k2 j a hj (h.closed hn x hx d hd j a hj ha))
            · simp only [List.mem_singleton] at hx; subst hx
              by_cases hd' : d = d0
              · subst hd'
                have : a = c := ha.c_eq hfit0
                subst this
                have hij : j = i := by
                  have hil := (List.getElem?_eq_some_iff.1 hj)
                  have hjl := (List.getElem?_eq_some_iff.1 hFi)
                  exact (List.getElem_inj hn (h₀ := hil.1) (h₁ := hjl.1)).1 (hil.2.trans hjl.2.symm)
                subst hij
                exact g2 j a hj (by rw [List.getElem?_set_self (List.getElem?_eq_some_iff.1 hD).1])
              · exact g4 hn d hd hd' j a hj ha
          · intro hn
            rw [List.nodup_append]
            refine ⟨h.nodup hn, by simp, ?_⟩
            intro a ha b hb e
            simp only [List.mem_singleton] at hb
            subst hb; subst e
            exact hnew hn ha
          · have := h.count
            rw [List.length_append]
            simp only [List.length_singleton]
            omega
          · intro x hx hu g hg c' hc hfit
            rw [hFi] at hc; cases hc
            have : d0 = g := hu d0 hd0 g hg c (List.mem_of_getElem? hFi) hfit hs0
            subst this
            have : x = q := by rw [hfit.2, hq]
            subst this
            exact hqQ
        · rw [if_neg hall]
          refine ⟨h, fun _ h => h, fun x hx hu g hg c' hc hfit => ?_⟩
          rw [hFi] at hc; cases hc
          have : d0 = g := hu d0 hd0 g hg c (List.mem_of_getElem? hFi) hfit hs0
          subst this
          have hxq : x = q := by rw [hfit.2, hq]
          subst hxq
          apply Classical.byContradiction
          intro hnot
          apply hall
          rw [List.all_eq_true]
          intro d hd
          rw [Bool.or_eq_true, beq_iff_eq, List.any_eq_true]
          by_cases hdd : d = d0
          · exact .inl hdd
          · right
            obtain ⟨c2, hc2, hf⟩ := hx d hd
            obtain ⟨j, hj⟩ := List.getElem?_of_mem hc2
            have : D[j]? = some c2 := by
              apply Classical.byContradiction
              intro hne
              exact hnot (hmarked x hu d hd j c2 hj hf hne)
            exact ⟨c2, List.mem_of_getElem? this, fits_iff.2 ⟨hF c2 hc2, hf⟩⟩

theorem loop_init (F G : Terms) : Loop F G F [] where
  len := rfl
  st := fun j c h => .inl h
  quot := by simp
  closed := by simp
  nodup := by simp
  count := by simp only [List.length_nil, Nat.add_zero]; exact List.countP_le_length

theorem loop_spec (hF : ∀ c ∈ F, NoMark c) : ∀ k : Nat,
    let r := (List.range k).foldl (fun s i => divideStep G s.1 s.2 i) (F, ([] : Terms))
    Loop F G r.1 r.2 ∧
    (∀ (x : Product), (∀ g ∈ G, ∃ c ∈ F, Fit x g c) →
      (∀ g ∈ G, ∀ g' ∈ G, ∀ c ∈ F, Fit x g' c → Sub g c → g = g') →
      ∀ i, i < k → ∀ g ∈ G, ∀ c, F[i]? = some c → Fit x g c → x ∈ r.2) := by
  intro k
  induction k with
  | zero => exact ⟨loop_init F G, by simp⟩
  | succ k ih =>
    rw [List.range_succ, List.foldl_append]
    simp only [List.foldl_cons, List.foldl_nil]
    obtain ⟨h1, h2⟩ := ih
    obtain ⟨s1, s2, s3⟩ := step_spec hF h1 k
    refine ⟨s1, fun x hx hu i hi g hg c hc hfit => ?_⟩
    by_cases e : i = k
    · subst e; exact s3 x hx hu g hg c hc hfit
    · exact s2 x (h2 x hx hu i (by omega) g hg c hc hfit)

/-- everything needed about a division `F = D * Q + R` -/
structure Division (F G Q R : Terms) : Prop where
  quot : ∀ q ∈ Q, ∀ d ∈ G, ∃ c ∈ F, Fit q d c
  cover : ∀ c ∈ F, c ∈ R ∨ ∃ q ∈ Q, ∃ d ∈ G, Fit q d c
  rem : R.Sublist F
  count : Q.length + R.length ≤ F.length
  nodup : F.Nodup → Q.Nodup
  disjoint : F.Nodup → ∀ q ∈ Q, ∀ d ∈ G, ∀ c ∈ R, ¬ Fit q d c
  complete : ∀ x : Product, (∀ g ∈ G, ∃ c ∈ F, Fit x g c) →
    (∀ g ∈ G, ∀ g' ∈ G, ∀ c ∈ F, Fit x g' c → Sub g c → g = g') → G ≠ [] → x ∈ Q

theorem divideByCube_spec (F : Terms) (d : Product) : Division F [d] (divideByCube F d).1 (divideByCube F d).2 := by
  have hq : ∀ q, q ∈ (divideByCube F d).1 ↔ ∃ c ∈ F, Fit q d c := by
    intro q
    simp only [divideByCube, List.mem_map, List.mem_filter, and_eq_iff, Fit]
    constructor
    · rintro ⟨c, ⟨h1, h2⟩, rfl⟩; exact ⟨c, h1, h2, rfl⟩
    · rintro ⟨c, h1, h2, rfl⟩; exact ⟨c, ⟨h1, h2⟩, rfl⟩
  have hr : ∀ c, c ∈ (divideByCube F d).2 ↔ c ∈ F ∧ ¬ Sub d c := by
    intro c
    simp only [divideByCube, List.mem_filter, Bool.not_eq_true', ← Bool.not_eq_true, and_eq_iff]
  refine ⟨?_, ?_, ?_, ?_, ?_, ?_, ?_⟩
  · intro q h d' hd'
    simp only [List.mem_singleton] at hd'; subst hd'
    exact (hq q).1 h
  · intro c hc
    by_cases h : Sub d c
    · exact .inr ⟨c &&& ~~~d, (hq _).2 ⟨c, hc, h, rfl⟩, d, by simp, h, rfl⟩
    · exact .inl ((hr c).2 ⟨hc, h⟩)
  · exact List.filter_sublist
  · simp only [divideByCube, List.length_map]
    have := List.length_eq_countP_add_countP (fun c => c &&& d == d) (l := F)
    rw [List.countP_eq_length_filter, List.countP_eq_length_filter] at this
    have e : (fun a => decide ¬(a &&& d == d) = true) = fun c => !(c &&& d == d) := by
      funext a; cases (a &&& d == d) <;> rfl
    rw [e] at this
    omega
  · intro hn
    simp only [divideByCube]
    rw [List.Nodup, List.pairwise_map]
    apply List.Pairwise.imp_of_mem ?_ (List.Pairwise.filter _ hn)
    intro a b ha hb hab e
    simp only [List.mem_filter, and_eq_iff] at ha hb
    exact hab ((show Fit (a &&& ~~~d) d a from ⟨ha.2, rfl⟩).c_eq ⟨hb.2, e⟩)
  · intro _ q h d' hd' c hc hfit
    simp only [List.mem_singleton] at hd'; subst hd'
    exact ((hr c).1 hc).2 hfit.1
  · intro x hx _ _
    obtain ⟨c, hc, hfit⟩ := hx d (by simp)
    exact (hq x).2 ⟨c, hc, hfit⟩

theorem divide_spec (hF : ∀ c ∈ F, NoMark c) (G : Terms) :
    (divide F G).1 = F ∧ Division F G (divide F G).2.1 (divide F G).2.2 := by
  unfold divide
  split
  · exact ⟨rfl, divideByCube_spec F _⟩
  · obtain ⟨h, hc⟩ := loop_spec (G := G) hF F.length
    dsimp only at h hc ⊢
    generalize (List.range F.length).foldl (fun s i => divideStep G s.1 s.2 i) (F, ([] : Terms)) = r at h hc
    obtain ⟨D, Q⟩ := r
    dsimp only at h hc ⊢
    have hun : (D.map fun c => if hasLit c 63 then c &&& ~~~mark else c) = F := by
      apply List.ext_getElem?
      intro j
      rw [List.getElem?_map]
      cases hj : F[j]? with
      | none =>
        rw [List.getElem?_eq_none_iff] at hj
        rw [List.getElem?_eq_none_iff.2 (by rw [h.len]; exact hj)]; rfl
      | some c =>
        have hm := hF c (List.mem_of_getElem? hj)
        rcases h.st j c hj with e | ⟨e, _⟩
        · rw [e]; simp [hasLit_noMark hm]
        · rw [e]; simp [hasLit_mark, unmark hm]
    have hsub : (D.filter fun c => !hasLit c 63).Sublist F := by
      rw [← hun]
      have : ∀ D : Terms, (D.filter fun c => !hasLit c 63).Sublist (D.map fun c => if hasLit c 63 then c &&& ~~~mark else c) := by
        intro D
        induction D with
        | nil => simp
        | cons a D ih =>
          by_cases ha : hasLit a 63 = true
          · rw [List.filter_cons_of_neg (by simp [ha]), List.map_cons]; exact ih.cons _
          · rw [List.filter_cons_of_pos (by simp [ha]), List.map_cons, if_neg ha]; exact ih.cons_cons _
      exact this D
    refine ⟨hun, h.quot, ?_, hsub, ?_, h.nodup, ?_, ?_⟩
    · intro c hcF
      obtain ⟨j, hj⟩ := List.getElem?_of_mem hcF
      rcases h.st j c hj with e | ⟨_, e⟩
      · left; rw [List.mem_filter]; exact ⟨List.mem_of_getElem? e, by simp [hasLit_noMark (hF c hcF)]⟩
      · exact .inr e
    · have := h.count
      rw [open_, List.countP_eq_length_filter] at this
      omega
    · intro hn q hq d hd c hcR hfit
      rw [List.mem_filter] at hcR
      obtain ⟨j, hj⟩ := List.getElem?_of_mem hcR.1
      have hcF : c ∈ F := hsub.subset (List.mem_filter.2 hcR)
      have hjl : j < F.length := by rw [← h.len]; exact (List.getElem?_eq_some_iff.1 hj).1
      have e : F[j]? = some F[j] := List.getElem?_eq_getElem hjl
      rcases h.st j _ e with h1 | ⟨h1, _⟩
      · rw [hj] at h1
        have := h.closed hn q hq d hd j c (by rw [e, ← h1]) hfit
        rw [hj] at this
        exact noMark_of_ne (hF c hcF) (Option.some.inj this).symm
      · rw [hj] at h1
        have := hcR.2
        rw [Option.some.inj h1, hasLit_mark] at this
        cases this
    · intro x hx hu hG
      obtain ⟨g, G', rfl⟩ := List.exists_cons_of_ne_nil hG
      obtain ⟨c, hcF, hfit⟩ := hx g (by simp)
      obtain ⟨i, hi⟩ := List.getElem?_of_mem hcF
      exact hc x hx hu i (List.getElem?_eq_some_iff.1 hi).1 g (by simp) c hi hfit

end Verif.Sop
