import Verif.Sop.Divide

set_option autoImplicit false

/-!
# Proofs about the choice of the divisor
-/

namespace Verif.Sop

/-! ### counting literals -/

theorem countP_or {α : Type} (p q : α → Bool) : ∀ l : List α, (∀ a ∈ l, p a = true → q a = false) →
    l.countP (fun a => p a || q a) = l.countP p + l.countP q := by
  intro l
  induction l with
  | nil => intro _; rfl
  | cons a l ih =>
    intro h
    have := ih fun x hx => h x (by simp [hx])
    have ha := h a (by simp)
    rw [List.countP_cons, List.countP_cons, List.countP_cons, this]
    cases hp : p a with
    | true => simp [ha hp]; omega
    | false => (cases q a <;> simp); omega

theorem countLit_eq (c : Product) : countLit c = (List.range 64).countP c.getLsbD := by
  unfold countLit
  apply List.countP_congr
  intro l hl
  rw [hasLit_eq c (List.mem_range.1 hl)]

theorem countLit_fit {q d c : Product} (h : Fit q d c) : countLit c = countLit d + countLit q := by
  rw [countLit_eq, countLit_eq, countLit_eq, ← countP_or _ _ _ fun i _ hi => h.disj i hi]
  apply List.countP_congr
  intro l _
  rw [h.mem]

theorem countLit_pos {c : Product} (h : c ≠ 0#64) : 0 < countLit c := by
  rw [countLit_eq, List.countP_pos_iff]
  apply Classical.byContradiction
  intro hn
  apply h
  apply BitVec.eq_of_getLsbD_eq
  intro i hi
  cases hc : c.getLsbD i with
  | true => exact absurd ⟨i, List.mem_range.2 hi, hc⟩ hn
  | false => simp

theorem lits_cons (a : Product) (l : Terms) : lits (a :: l) = countLit a + lits l := by simp [lits]

theorem lits_append (l m : Terms) : lits (l ++ m) = lits l + lits m := by simp [lits]

theorem lits_erase {a : Product} : ∀ {l : Terms}, a ∈ l → lits l = countLit a + lits (l.erase a) := by
  intro l
  induction l with
  | nil => intro h; simp at h
  | cons b l ih =>
    intro h
    by_cases e : b = a
    · subst e; rw [List.erase_cons_head, lits_cons]
    · rw [List.erase_cons_tail (by simpa using e), lits_cons, lits_cons]
      rcases List.mem_cons.1 h with rfl | h
      · exact absurd rfl e
      · rw [ih h]; omega

theorem lits_le_of_subset : ∀ {L M : Terms}, L.Nodup → (∀ a ∈ L, a ∈ M) → lits L ≤ lits M := by
  intro L
  induction L with
  | nil => intro M _ _; simp [lits]
  | cons a L ih =>
    intro M hn hs
    rw [lits_cons, lits_erase (hs a (by simp))]
    have := ih (M := M.erase a) hn.of_cons fun b hb => by
      rw [List.mem_erase_of_ne]
      · exact hs b (by simp [hb])
      · rintro rfl; exact (List.nodup_cons.1 hn).1 hb
    omega

theorem lits_divideByCube (d : Product) : ∀ F : Terms,
    lits F = lits (divideByCube F d).1 + (divideByCube F d).1.length * countLit d + lits (divideByCube F d).2 := by
  intro F
  induction F with
  | nil => simp [divideByCube, lits]
  | cons c F ih =>
    unfold divideByCube at *
    rw [lits_cons, ih]
    by_cases h : (c &&& d == d) = true
    · rw [List.filter_cons_of_pos (p := fun c => c &&& d == d) h,
        List.filter_cons_of_neg (p := fun c => !(c &&& d == d)) (by simp [h]), List.map_cons, lits_cons, List.length_cons,
        countLit_fit (show Fit (c &&& ~~~d) d c from ⟨(and_eq_iff _ _).1 h, rfl⟩), Nat.add_mul]
      dsimp only
      omega
    · rw [List.filter_cons_of_neg (p := fun c => c &&& d == d) h,
        List.filter_cons_of_pos (p := fun c => !(c &&& d == d)) (by simpa using h), lits_cons]
      dsimp only
      omega

/-! ### antichains -/

/-- no product contains another one -/
structure Anti (F : Terms) : Prop where
  nodup : F.Nodup
  eq : ∀ a ∈ F, ∀ b ∈ F, Sub a b → a = b

theorem Anti.sublist {F R : Terms} (h : Anti F) (hs : R.Sublist F) : Anti R :=
  ⟨h.nodup.sublist hs, fun a ha b hb => h.eq a (hs.subset ha) b (hs.subset hb)⟩

theorem Sub.or_left {a b c : Product} (h : Sub a c) (g : Sub b c) : Sub (a ||| b) c := by
  intro i hi
  rw [BitVec.getLsbD_or, Bool.or_eq_true] at hi
  exact hi.elim (h i) (g i)

theorem sub_zero (b : Product) : Sub 0#64 b := fun i hi => by simp at hi

theorem Anti.ne_zero {F : Terms} (h : Anti F) (h2 : 2 ≤ F.length) : ∀ c ∈ F, c ≠ 0#64 := by
  intro c hc e
  subst e
  have hall : ∀ b ∈ F, b = 0#64 := fun b hb => (h.eq _ hc b hb (sub_zero b)).symm
  match F, h2 with
  | a :: b :: l, _ =>
    have h1 := hall a (by simp)
    have h2 := hall b (by simp)
    have := h.nodup
    rw [h1, h2] at this
    simp at this

/-- quotients of antichains are antichains -/
theorem Division.anti {F G Q R : Terms} (h : Division F G Q R) (hF : Anti F) (hG : G ≠ []) : Anti Q := by
  refine ⟨h.nodup hF.nodup, fun a ha b hb hab => ?_⟩
  obtain ⟨g, G', rfl⟩ := List.exists_cons_of_ne_nil hG
  obtain ⟨c, hc, hf⟩ := h.quot a ha g (by simp)
  obtain ⟨c', hc', hf'⟩ := h.quot b hb g (by simp)
  have : c = c' := by
    apply hF.eq c hc c' hc'
    intro i hi
    rw [hf.mem, Bool.or_eq_true] at hi
    rw [hf'.mem, Bool.or_eq_true]
    exact hi.imp_right (hab i)
  subst this
  exact hf.2.trans hf'.2.symm

/-- `x` is found as quotient if its products with the divisor cubes are there -/
theorem Division.mem {F G Q R : Terms} (h : Division F G Q R) (hG : Anti G) (hG' : G ≠ []) {x : Product}
    (hx : ∀ g ∈ G, ∃ c ∈ F, Fit x g c) : x ∈ Q := by
  refine h.complete x hx (fun g hg g' hg' c hc hf hs => ?_) hG'
  apply hG.eq g hg g' hg'
  intro i hi
  have hci := hs i hi
  rw [hf.mem, Bool.or_eq_true] at hci
  rcases hci with h | hxi
  · exact h
  · obtain ⟨c', hc', hf'⟩ := hx g hg
    rw [hf'.disj i hi] at hxi; cases hxi

/-! ### kernels -/

/-- `K` consists of the products of `F` containing `C`, without `C` -/
structure Ker (F : Terms) (C : Product) (K : Terms) : Prop where
  fit : ∀ k ∈ K, ∃ c ∈ F, Fit k C c
  anti : Anti K

theorem ker_self {F : Terms} (h : Anti F) : Ker F 0#64 F :=
  ⟨fun k hk => ⟨k, hk, fit_iff.2 ⟨by simp, fun i hi => by simp at hi⟩⟩, h⟩

theorem Ker.step {F K : Terms} {C : Product} (h : Ker F C K) (c : Product) :
    Ker F (C ||| c) (divideByCube K c).1 := by
  have hd := divideByCube_spec K c
  refine ⟨fun k hk => ?_, hd.anti h.anti (by simp)⟩
  obtain ⟨k', hk', hf⟩ := hd.quot k hk c (by simp)
  obtain ⟨f, hfF, hf'⟩ := h.fit k' hk'
  refine ⟨f, hfF, fit_iff.2 ⟨?_, ?_⟩⟩
  · rw [(fit_iff.1 hf').1, (fit_iff.1 hf).1, BitVec.or_assoc]
  · intro i hi
    rw [BitVec.getLsbD_or, Bool.or_eq_true] at hi
    rcases hi with hi | hi
    · have := hf'.disj i hi
      rw [hf.mem, Bool.or_eq_false_iff] at this
      exact this.2
    · exact hf.disj i hi

/-- bits of the common part -/
theorem foldl_and (l : Terms) : ∀ (a : Product) (i : Nat), (l.foldl (· &&& ·) a).getLsbD i = true ↔
    a.getLsbD i = true ∧ ∀ c ∈ l, c.getLsbD i = true := by
  induction l with
  | nil => intro a i; simp
  | cons b l ih =>
    intro a i
    rw [List.foldl_cons, ih, BitVec.getLsbD_and, Bool.and_eq_true]
    simp [and_assoc]

theorem common_bit (s : Terms) (i : Nat) : (common s).getLsbD i = true ↔ i < 64 ∧ ∀ c ∈ s, c.getLsbD i = true := by
  rw [common, foldl_and, BitVec.getLsbD_allOnes,
    decide_eq_true_eq]

/-- what holds when the loop body of `sop_best_kernel_rec` is entered -/
theorem getMostLit_spec {K : Terms} {i : Nat} (hi : i < 64) (h : (getMostLit K i).1 = true) :
    (getMostLit K i).2 ≠ 0#64 ∧ 2 ≤ (divideByCube K (getMostLit K i).2).1.length ∧
    (getMostLit K i).2.getLsbD i = true := by
  simp only [getMostLit, decide_eq_true_eq] at h
  have hbit : (getMostLit K i).2.getLsbD i = true := by
    simp only [getMostLit]
    rw [foldl_and]
    refine ⟨by rw [BitVec.getLsbD_allOnes]; simpa using hi,
      fun c hc => ?_⟩
    rw [List.mem_filter, hasLit_eq c hi] at hc
    exact hc.2
  refine ⟨?_, ?_, hbit⟩
  · intro e; rw [e] at hbit; simp at hbit
  · simp only [divideByCube, List.length_map]
    rw [← List.countP_eq_length_filter]
    rw [← List.countP_eq_length_filter] at h
    refine Nat.le_trans h (List.countP_mono_left fun c hc hb => ?_)
    rw [and_eq_iff]
    intro l hl
    simp only [getMostLit] at hl
    rw [foldl_and] at hl
    exact hl.2 c (List.mem_filter.2 ⟨hc, hb⟩)

/-- the cost of a kernel obtained directly from `F` -/
theorem kernel_cost {F : Terms} (hF : Anti F) (hm : ∀ c ∈ F, NoMark c) (c : Product)
    (h1 : 2 ≤ (divideByCube F c).1.length) :
    lits (divide F (divideByCube F c).1).2.1 + lits (divide F (divideByCube F c).1).2.2 ≤
      countLit c + lits (divideByCube F c).2 := by
  have hdc := divideByCube_spec F c
  obtain ⟨_, hd⟩ := divide_spec hm (divideByCube F c).1
  generalize hK : (divideByCube F c).1 = K at *
  generalize hR0 : (divideByCube F c).2 = rem at *
  generalize (divide F K).2.1 = Q at *
  generalize (divide F K).2.2 = R at *
  have hKA : Anti K := hdc.anti hF (by simp)
  have hne : K ≠ [] := by rintro rfl; simp at h1
  have hcQ : c ∈ Q := hd.mem hKA hne fun g hg => by
    obtain ⟨f, hf, hfit⟩ := hdc.quot g hg c (by simp)
    exact ⟨f, hf, hfit.symm⟩
  obtain ⟨k1, K', hK'⟩ := List.exists_cons_of_ne_nil hne
  have hk1 : k1 ∈ K := by rw [hK']; simp
  have hrem : ∀ f, f ∈ F → ¬ Sub c f → f ∈ rem := by
    intro f hf hs
    rcases hdc.cover f hf with h | ⟨q, _, d, hd', hfit⟩
    · exact h
    · simp only [List.mem_singleton] at hd'; subst hd'; exact absurd hfit.1 hs
  have hQn : Q.Nodup := hd.nodup hF.nodup
  have hfitQ : ∀ q ∈ Q, (k1 ||| q) ∈ F ∧ Fit q k1 (k1 ||| q) := by
    intro q hq
    obtain ⟨f, hf, hfit⟩ := hd.quot q hq k1 hk1
    rw [← (fit_iff.1 hfit).1]
    exact ⟨hf, hfit⟩
  have hsub : ∀ f ∈ F, Sub c f → (f &&& ~~~c) ∈ K ∧ Fit c (f &&& ~~~c) f := by
    intro f hf hs
    have hfit : Fit (f &&& ~~~c) c f := ⟨hs, rfl⟩
    refine ⟨?_, hfit.symm⟩
    rw [← hK]
    simp only [divideByCube, List.mem_map, List.mem_filter, and_eq_iff]
    exact ⟨f, ⟨hf, hs⟩, rfl⟩
  have key : lits ((Q.erase c).map (k1 ||| ·) ++ R) ≤ lits rem := by
    apply lits_le_of_subset
    · rw [List.nodup_append]
      refine ⟨?_, hF.nodup.sublist hd.rem, ?_⟩
      · rw [List.Nodup, List.pairwise_map]
        refine List.Pairwise.imp_of_mem ?_ (hQn.erase c)
        intro a b ha hb hab e
        have fa := (hfitQ a (List.mem_of_mem_erase ha)).2
        have fb := (hfitQ b (List.mem_of_mem_erase hb)).2
        rw [e] at fa
        exact hab (fa.2.trans fb.2.symm)
      · rintro a ha b hb rfl
        rw [List.mem_map] at ha
        obtain ⟨q, hq, rfl⟩ := ha
        have hqQ := List.mem_of_mem_erase hq
        exact hd.disjoint hF.nodup q hqQ k1 hk1 _ hb (hfitQ q hqQ).2
    · intro a ha
      rcases List.mem_append.1 ha with ha | ha
      · rw [List.mem_map] at ha
        obtain ⟨q, hq, rfl⟩ := ha
        have hqQ := List.mem_of_mem_erase hq
        obtain ⟨hf, hfit⟩ := hfitQ q hqQ
        refine hrem _ hf fun hs => ?_
        -- then `k1 ∪ q = k' ∪ c`, hence `k1 = k'` and `q = c`
        obtain ⟨hk', hfit'⟩ := hsub _ hf hs
        have : k1 = (k1 ||| q) &&& ~~~c := by
          apply hKA.eq _ hk1 _ hk'
          intro i hi
          have hb := hfit.1 i hi
          rw [hfit'.mem, Bool.or_eq_true] at hb
          rcases hb with hb | hb
          · exact hb
          · obtain ⟨f, _, hff⟩ := hdc.quot k1 hk1 c (by simp)
            rw [hff.disj i hb] at hi; cases hi
        rw [← this] at hfit'
        have hqc : q = c := hfit.2.trans hfit'.2.symm
        subst hqc
        exact (List.Nodup.not_mem_erase hQn) hq
      · refine hrem a (hd.rem.subset ha) fun hs => ?_
        obtain ⟨hk', hfit'⟩ := hsub a (hd.rem.subset ha) hs
        exact hd.disjoint hF.nodup c hcQ _ hk' a ha hfit'
  rw [lits_append] at key
  have h2 : lits (Q.erase c) ≤ lits ((Q.erase c).map (k1 ||| ·)) := by
    have : ∀ l : Terms, (∀ q ∈ l, q ∈ Q) → lits l ≤ lits (l.map (k1 ||| ·)) := by
      intro l
      induction l with
      | nil => intro _; simp
      | cons a l ih =>
        intro h
        rw [List.map_cons, lits_cons, lits_cons, countLit_fit (hfitQ a (h a (by simp))).2]
        have := ih fun q hq => h q (by simp [hq])
        omega
    exact this _ fun q hq => List.mem_of_mem_erase hq
  rw [lits_erase hcQ]
  omega

/-! ### the search -/

/-- the best kernel found so far is a proper one -/
def GoodBest (F : Terms) (s : KState) : Prop :=
  s.best = [] ∨ ∃ C, C ≠ 0#64 ∧ Ker F C s.best ∧ 2 ≤ s.best.length

/-- division cost of a kernel -/
def dcost (F K : Terms) : Nat := lits (divide F K).2.1 + lits (divide F K).2.2

/-- result of a call of `sop_best_kernel_rec` on a proper kernel -/
structure KRes (F K : Terms) (s s' : KState) (fact : Nat) : Prop where
  sop : s'.sop = F
  factored : fact ≤ lits K
  good : GoodBest F s → GoodBest F s'
  ne : s'.best ≠ []
  cost : s'.cost ≤ dcost F K + fact
  mono : s.best ≠ [] → s'.cost ≤ s.cost

/-- the loop body fires for literal `i` -/
def Fires (K : Terms) (i : Nat) : Prop :=
  (getMostLit K i).1 = true ∧ ((getMostLit K i).2 &&& ((1#64 <<< i) - 1#64)) = 0#64

/-- loop invariant for the outermost call -/
def Top (K : Terms) (s : KState) (fact : Nat) : Prop :=
  (s.best ≠ [] → s.cost ≤ fact) ∧ (s.best = [] → fact = lits K)

theorem kernelLoop_spec {F : Terms} (hF : Anti F) (hm : ∀ c ∈ F, NoMark c) {K : Terms} {C : Product} (hK : Ker F C K)
    (rec : Terms → Nat → KState → Option (KState × Nat)) : ∀ (l : List Nat) (s : KState) (fact : Nat), s.sop = F →
    (∀ i ∈ l, i < 64) →
    (∀ i ∈ l, ∀ K' C' s, C' ≠ 0#64 → Ker F C' K' → 2 ≤ K'.length → s.sop = F →
      ∃ s' fc, rec K' (i + 1) s = some (s', fc) ∧ KRes F K' s s' fc) →
    ∃ s' fact', kernelLoop rec K l s fact = some (s', fact') ∧ s'.sop = F ∧ fact' ≤ fact ∧
      (GoodBest F s → GoodBest F s') ∧ (s.best ≠ [] → s'.best ≠ [] ∧ s'.cost ≤ s.cost) ∧
      ((∃ i ∈ l, Fires K i) → s'.best ≠ []) ∧ (K = F → Top K s fact → Top K s' fact') := by
  intro l
  induction l with
  | nil =>
    intro s fact hs _ _
    exact ⟨s, fact, rfl, hs, Nat.le_refl _, fun h => h, fun h => ⟨h, Nat.le_refl _⟩, by simp, fun _ h => h⟩
  | cons i l ih =>
    intro s fact hs hl hrec
    have hl' : ∀ j ∈ l, j < 64 := fun j hj => hl j (by simp [hj])
    have hrec' := fun j (hj : j ∈ l) => hrec j (by simp [hj])
    simp only [kernelLoop]
    by_cases hm1 : (getMostLit K i).1 = true
    · rw [if_pos hm1]
      by_cases hsk : ((getMostLit K i).2 &&& ((1#64 <<< i) - 1#64)) = 0#64
      · rw [if_neg (by simp only [hsk]; decide)]
        obtain ⟨hc0, hlen, _⟩ := getMostLit_spec (hl i (by simp)) hm1
        generalize hc : (getMostLit K i).2 = c at *
        have hC' : C ||| c ≠ 0#64 := by
          intro e
          apply hc0
          apply BitVec.eq_of_getLsbD_eq
          intro j _
          have := congrArg (fun b => BitVec.getLsbD b j) e
          simp only [BitVec.getLsbD_or, BitVec.getLsbD_zero, Bool.or_eq_false_iff] at this
          rw [this.2]; simp
        obtain ⟨s1, fc, h1, h2⟩ := hrec i (by simp) _ (C ||| c) s hC' (hK.step c) hlen hs
        rw [h1]
        dsimp only
        generalize hf1 : (if fc + (countLit c + lits (divideByCube K c).2) < fact then
          fc + (countLit c + lits (divideByCube K c).2) else fact) = fact1
        obtain ⟨s', fact', g1, g2, g3, g4, g5, g6, g7⟩ := ih s1 fact1 h2.sop hl' hrec'
        have hle : fact1 ≤ fact := by rw [← hf1]; split <;> omega
        refine ⟨s', fact', g1, g2, by omega, fun h => g4 (h2.good h), fun h => ?_, fun _ => (g5 h2.ne).1, fun e ht => ?_⟩
        · exact ⟨(g5 h2.ne).1, Nat.le_trans (g5 h2.ne).2 (h2.mono h)⟩
        · apply g7 e
          subst e
          have hcost : s1.cost ≤ fc + (countLit c + lits (divideByCube K c).2) := by
            have a1 := h2.cost
            have a2 := kernel_cost hF hm c hlen
            unfold dcost at a1
            omega
          refine ⟨fun _ => ?_, fun h => absurd h h2.ne⟩
          have hfact : s1.cost ≤ fact := by
            by_cases hb : s.best = []
            · rw [ht.2 hb]
              have a1 := h2.factored
              have a2 := lits_divideByCube c K
              have a3 : countLit c ≤ (divideByCube K c).1.length * countLit c :=
                Nat.le_mul_of_pos_left _ (by omega)
              omega
            · exact Nat.le_trans (h2.mono hb) (ht.1 hb)
          rw [← hf1]
          split <;> omega
      · rw [if_pos (by simpa using hsk)]
        obtain ⟨s', fact', g1, g2, g3, g4, g5, g6, g7⟩ := ih s fact hs hl' hrec'
        refine ⟨s', fact', g1, g2, g3, g4, g5, ?_, g7⟩
        rintro ⟨j, hj, hfj⟩
        rcases List.mem_cons.1 hj with rfl | hj
        · exact absurd hfj.2 hsk
        · exact g6 ⟨j, hj, hfj⟩
    · rw [if_neg hm1]
      obtain ⟨s', fact', g1, g2, g3, g4, g5, g6, g7⟩ := ih s fact hs hl' hrec'
      refine ⟨s', fact', g1, g2, g3, g4, g5, ?_, g7⟩
      rintro ⟨j, hj, hfj⟩
      rcases List.mem_cons.1 hj with rfl | hj
      · exact absurd hfj.1 hm1
      · exact g6 ⟨j, hj, hfj⟩

theorem bestKernel_spec {F : Terms} (hF : Anti F) (hm : ∀ c ∈ F, NoMark c) (litNum : Nat) (hn : litNum ≤ 64) :
    ∀ (f j : Nat) (K : Terms) (C : Product) (s : KState), litNum - j < f → C ≠ 0#64 → Ker F C K → 2 ≤ K.length →
      s.sop = F → ∃ s' fact, bestKernel litNum f K j s = some (s', fact) ∧ KRes F K s s' fact := by
  intro f
  induction f with
  | zero => intro j K C s h; omega
  | succ f ih =>
    intro j K C s hf hC hK hlen hs
    rw [bestKernel]
    have hds := (divide_spec hm K).1
    obtain ⟨s', fact', g1, g2, g3, g4, g5, g6, _⟩ := kernelLoop_spec hF hm hK (bestKernel litNum f)
      (List.range' j (litNum - j)) { s with sop := (divide s.sop K).1 } (lits K) (by rw [hs]; exact hds)
      (fun i hi => by rw [List.mem_range'_1] at hi; omega)
      (fun i hi K' C' s hC' hK' hl' hs' => ih (i + 1) K' C' s (by rw [List.mem_range'_1] at hi; omega) hC' hK' hl' hs')
    rw [g1]
    dsimp only
    have hKne : K ≠ [] := by rintro rfl; simp at hlen
    by_cases hb : s'.best = [] ∨ lits (divide s.sop K).2.1 + lits (divide s.sop K).2.2 + fact' < s'.cost
    · rw [if_pos hb]
      refine ⟨_, _, rfl, g2, g3, fun _ => .inr ⟨C, hC, hK, hlen⟩, hKne, ?_, ?_⟩
      · rw [hs]; exact Nat.le_refl _
      · intro h
        have := g5 h
        rcases hb with hb | hb
        · exact absurd hb this.1
        · have h2 := this.2; dsimp only at h2 ⊢; omega
    · rw [if_neg hb]
      simp only [not_or] at hb
      refine ⟨_, _, rfl, g2, g3, g4, hb.1, ?_, fun h => (g5 h).2⟩
      have := hb.2
      rw [hs] at this
      unfold dcost
      omega

theorem getLsbD_below (i j : Nat) (hi : i < 64) : ((1#64 <<< i) - 1#64).getLsbD j = decide (j < i) := by
  have h1 : 2 ^ i < 2 ^ 64 := Nat.pow_lt_pow_right (by omega) hi
  have e : ((1#64 <<< i) - 1#64).toNat = 2 ^ i - 1 := by
    rw [BitVec.toNat_sub, BitVec.toNat_shiftLeft]
    have h0 : 0 < 2 ^ i := Nat.two_pow_pos i
    simp only [BitVec.toNat_ofNat, Nat.shiftLeft_eq]
    rw [Nat.mod_eq_of_lt (a := 1) (by omega), Nat.one_mul, Nat.mod_eq_of_lt h1]
    omega
  rw [BitVec.getLsbD, e, Nat.testBit_two_pow_sub_one]

/-- the divisor chosen for an antichain: a kernel whose co-kernel is not trivial -/
theorem goodDivisor_spec {F : Terms} (hF : Anti F) (hm : ∀ c ∈ F, NoMark c) (litNum : Nat) (hn : litNum ≤ 62) :
    goodDivisor F litNum = some (F, none) ∨
    ∃ K C, goodDivisor F litNum = some (F, some K) ∧ C ≠ 0#64 ∧ Ker F C K ∧ 2 ≤ K.length := by
  unfold goodDivisor
  by_cases h1 : F.length ≤ 1
  · rw [if_pos h1]; exact .inl rfl
  rw [if_neg h1]
  cases hocc : litOccur F litNum with
  | none => exact .inl rfl
  | some i =>
    right
    dsimp only
    unfold litOccur at hocc
    rw [List.find?_range_eq_some] at hocc
    obtain ⟨hp, hi, hmin⟩ := hocc
    rw [List.mem_range] at hi
    rw [decide_eq_true_eq] at hp
    have hi64 : i < 64 := by omega
    -- the loop fires for the smallest repeated literal
    have hfire : Fires F i := by
      refine ⟨by simp only [getMostLit, decide_eq_true_eq]; rwa [← List.countP_eq_length_filter], ?_⟩
      apply BitVec.eq_of_getLsbD_eq
      intro j hj
      rw [BitVec.getLsbD_and, getLsbD_below i j hi64]
      rw [BitVec.getLsbD_zero]
      by_cases hji : j < i
      · cases hb : (getMostLit F i).2.getLsbD j with
        | false => rfl
        | true =>
          have := hmin j hji
          simp only [getMostLit] at hb
          rw [foldl_and] at hb
          have hle : F.countP (hasLit · i) ≤ F.countP (hasLit · j) := by
            apply List.countP_mono_left
            intro c hc hci
            rw [hasLit_eq c hj]
            exact hb.2 c (List.mem_filter.2 ⟨hc, hci⟩)
          simp only [Bool.not_eq_true', decide_eq_false_iff_not] at this
          omega
      · simp [hji]
    rw [bestKernel]
    have hds := (divide_spec hm F).1
    obtain ⟨s', fact', g1, g2, g3, g4, g5, g6, g7⟩ := kernelLoop_spec hF hm (ker_self hF) (bestKernel litNum litNum)
      (List.range' 0 (litNum - 0)) ⟨(divide F F).1, [], 0⟩ (lits F) hds
      (fun i hi => by rw [List.mem_range'_1] at hi; omega)
      (fun i hi K' C' s hC' hK' hl' hs' => bestKernel_spec hF hm litNum (by omega) litNum (i + 1) K' C' s
        (by rw [List.mem_range'_1] at hi; omega) hC' hK' hl' hs')
    dsimp only
    rw [g1]
    dsimp only
    have hne : s'.best ≠ [] := g6 ⟨i, by rw [List.mem_range'_1]; omega, hfire⟩
    have htop := g7 rfl ⟨fun h => absurd rfl h, fun _ => rfl⟩
    rw [if_neg (by
      rintro (h | h)
      · exact hne h
      · have := htop.1 hne; omega)]
    rcases g4 (.inl rfl) with h | ⟨C, hC, hK, hl⟩
    · exact absurd h hne
    · exact ⟨s'.best, C, by dsimp only; rw [g2], hC, hK, hl⟩

end Verif.Sop
